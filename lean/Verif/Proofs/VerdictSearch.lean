import Verif.Proofs.VerdictEvolve
import Verif.Proofs.Init
import Verif.Props.Progress
/-
Lemmas for C95: tasks, initialisation and the two drivers on two data sets on which every expression has the same loss and the same loss
gradient.
-/
namespace SR
variable {K : Type} [Field K] [LinearOrder K] [E : Env K]
variable {o : SOptions K} {d d' : Dataset K} {ops : List OpId} {N : Nat}

/-- Two data sets for a pair of searches. -/
structure SearchPair (o : SOptions K) (d d' : Dataset K) (ops : List OpId) (N : Nat) : Prop where
  V : SameVerdicts o d d'
  Q : SearchSetting o d ops N
  wf : d'.WF
  pos : 0 < d'.x.cols

theorem SameVerdicts.symm (V : SameVerdicts o d d') : SameVerdicts o d' d :=
  ⟨V.rows.symm, V.baseline.symm, fun t c h => (V.loss t c (by rw [← V.rows]; exact h)).symm,
    fun t c h => (V.slope t c (by rw [← V.rows]; exact h)).symm⟩

theorem SearchPair.pair (P : SearchPair o d d' ops N) {cur : Nat} (h : cur ≤ o.maxsize) : Pair o d d' cur ops N :=
  ⟨P.V, P.Q.formats, P.Q.ls, P.Q.evol.down h, P.wf, P.pos⟩

theorem SearchPair.symm (P : SearchPair o d d' ops N) : SearchPair o d' d ops N :=
  ⟨P.V.symm, { P.Q with evol := P.Q.evol.twin P.V.rows P.wf P.pos }, P.Q.evol.data, P.Q.evol.rows⟩

/-- The same population, and scratch memory of the right size. -/
structure PopState.Paired (d d' : Dataset K) (p p' : PopState K) : Prop where
  twin : p.Twin p'
  ev : p.ev.Ready d
  ev' : p'.ev.Ready d'
  ctx : CtxTwin d d' p.ctx p'.ctx

/-- The same state. -/
structure Shared.Paired (d d' : Dataset K) (s s' : Shared K) : Prop where
  counters : s'.counters = s.counters
  stats : s'.stats = s.stats
  hall : s'.hall = s.hall
  pops : List.Forall₂ (Option.Rel (PopState.Paired d d')) s.pops s'.pops
  bestSub : s'.bestSub = s.bestSub
  best : s'.best = s.best
  totalEvals : s'.totalEvals = s.totalEvals

theorem Shared.Paired.twin {s s' : Shared K} (h : s.Paired d d' s') : s.Twin s' :=
  ⟨h.counters, h.stats, h.hall, h.pops.imp fun _ _ h => by cases h with | none => exact .none | some h => exact .some h.twin,
    h.bestSub, h.best, h.totalEvals⟩

/-- The same state. -/
structure Engine.Paired (d d' : Dataset K) (e e' : Engine K) : Prop where
  shared : e.shared.Paired d d' e'.shared
  orderRng : e'.orderRng = e.orderRng
  curIter : e'.curIter = e.curIter
  taskOrder : e'.taskOrder = e.taskOrder
  nextTask : e'.nextTask = e.nextTask
  progressFinished : e'.progressFinished = e.progressFinished

theorem Engine.Paired.twin {e e' : Engine K} (h : e.Paired d d' e') : e.Twin e' :=
  ⟨h.shared.twin, h.orderRng, h.curIter, h.taskOrder, h.nextTask, h.progressFinished⟩

/-- The same task. -/
structure Task.Paired (d d' : Dataset K) (t t' : Task K) : Prop where
  popIdx : t'.popIdx = t.popIdx
  cur : t'.cur = t.cur
  stats : t'.stats = t.stats
  ps : t.ps.Paired d d' t'.ps

/-- The same result of a task. -/
structure TaskResult.Paired (d d' : Dataset K) (r r' : TaskResult K) : Prop where
  popIdx : r'.popIdx = r.popIdx
  cur : r'.cur = r.cur
  evals : r'.evals = r.evals
  bestSeen : r'.bestSeen = r.bestSeen
  bestSub : r'.bestSub = r.bestSub
  ps : r.ps.Paired d d' r'.ps

/-- The same state. -/
structure Par.Paired (d d' : Dataset K) (p p' : Par K) : Prop where
  shared : p.shared.Paired d d' p'.shared
  orderRng : p'.orderRng = p.orderRng
  pc : p'.pc = p.pc
  iter : p'.iter = p.iter
  order : p'.order = p.order
  nextTask : p'.nextTask = p.nextTask
  inFlight : p'.inFlight = p.inFlight
  pending : List.Forall₂ (Task.Paired d d') p.pending p'.pending

theorem Par.Paired.twin {p p' : Par K} (h : p.Paired d d' p') : p.Twin p' :=
  ⟨h.shared.twin, h.orderRng, h.pc, h.iter, h.order, h.nextTask, h.inFlight,
    h.pending.imp fun _ _ h => ⟨h.popIdx, h.cur, h.stats, h.ps.twin⟩⟩

theorem dispatch_paired {s s' : Shared K} (hs : s.Paired d d' s') (i : Nat) :
    Option.Rel (fun r r' => Option.Rel (Task.Paired d d') r.1 r'.1 ∧ r.2.Paired d d' r'.2) (s.dispatch o i) (s'.dispatch o i) := by
  unfold Shared.dispatch
  simp only [Option.bind_eq_bind]
  have hp := hs.pops
  rcases List.forall₂_iff_get.mp hp with ⟨hl, hget⟩
  by_cases hi : i < s.pops.length
  · have hi' : i < s'.pops.length := by omega
    have hg := hget i hi hi'
    simp only [List.get_eq_getElem] at hg
    rw [List.getElem?_eq_getElem hi, List.getElem?_eq_getElem hi']
    simp only [Option.bind_some]
    revert hg
    generalize s.pops[i] = a
    generalize s'.pops[i] = b
    intro hg
    cases hg with
    | none => exact .some ⟨.none, hs⟩
    | some hps =>
      simp only [hs.counters]
      cases getCurMaxsize o s.counters.total (s.counters.total - s.counters.started) with
      | none => exact .none
      | some cur =>
        simp only [Option.bind_some]
        refine .some ⟨.some ⟨rfl, rfl, by rw [hs.stats], hps⟩, ⟨rfl, hs.stats, hs.hall, ?_, hs.bestSub, hs.best, hs.totalEvals⟩⟩
        exact forall₂_set_both hp i .none
  · rw [List.getElem?_eq_none (by omega), List.getElem?_eq_none (by omega)]
    exact .none

theorem apply_paired {s s' : Shared K} (hs : s.Paired d d' s') {r r' : TaskResult K} (hr : r.Paired d d' r') :
    Option.Rel (Shared.Paired d d') (s.apply o r) (s'.apply o r') := by
  unfold Shared.apply
  rw [hr.popIdx, hs.bestSub, ← hs.pops.length_eq]
  split
  · simp only [Option.bind_eq_bind]
    rw [hs.hall, hr.cur, hr.bestSeen, hr.ps.twin.pop, hs.best, hr.bestSub, hr.ps.twin.counters, hr.ps.twin.rng, hs.stats, hs.counters,
      hs.totalEvals, hr.evals]
    cases s.hall.update o.cx r.cur r.bestSeen.members with
    | none => exact .none
    | some h =>
      simp only [Option.bind_some]
      cases absorbMembers o r.cur r.ps.pop (h, s.best) with
      | none => exact .none
      | some hb =>
        simp only [Option.bind_some]
        cases migrations o (migrationCandidates (s.bestSub.set r.popIdx r.bestSub) r.popIdx) hb.1.paretoFront r.ps.pop r.ps.counters
          r.ps.rng with
        | none => exact .none
        | some x =>
          refine .some ⟨rfl, rfl, rfl, forall₂_set_both hs.pops _ (.some ?_), rfl, rfl, rfl⟩
          exact ⟨⟨rfl, rfl, rfl⟩, hr.ps.ev, hr.ps.ev', hr.ps.ctx⟩
  · exact .none

theorem finished_paired {s s' : Shared K} (hs : s.Paired d d' s') : s'.finished = s.finished := by
  unfold Shared.finished; rw [hs.counters]

theorem prepare_paired {e e' : Engine K} (he : e.Paired d d' e') : Option.Rel (Engine.Paired d d') (e.prepare o) (e'.prepare o) := by
  unfold Engine.prepare
  rw [he.curIter, he.taskOrder, he.nextTask, ← he.shared.pops.length_eq, he.orderRng]
  split
  · exact .some he
  · split
    · exact .some he
    · cases shuffle (List.range e.shared.pops.length) e.orderRng with
      | none => exact .none
      | some x => exact .some ⟨he.shared, rfl, rfl, rfl, rfl, he.progressFinished⟩

section
variable [IsStrictOrderedRing K]
variable (P : SearchPair o d d' ops N)
include P

theorem taskBody_paired {t t' : Task K} (ht : t.Paired d d' t') (hs : t.Sound o d ops N) :
    Rand.Alike (fun r r' => EvoTwin d d' r.1 r'.1 ∧ CtxTwin d d' r.2.1 r'.2.1 ∧ r'.2.2.2 = r.2.2.2)
      (taskBody o d t) (taskBody o d' t') := by
  have Q := P.pair hs.cur
  unfold taskBody
  have hph : ∀ (d : Dataset K) b, phaseDataset o d b = pure (d, b) := by
    intro d b; unfold phaseDataset; rw [P.Q.batching]; rfl
  rw [hph, hph]
  refine Rand.Alike.bind (P := fun x y => x = (d, t.ps.batch) ∧ y = (d', t'.ps.batch)) (.pure ⟨rfl, rfl⟩) ?_
  rintro _ _ ⟨rfl, rfl⟩
  simp only
  rw [ht.cur, ht.stats, ht.ps.twin.pop, ht.ps.twin.counters]
  refine (Q.srCycle t.stats (st := ⟨t.ps.pop, t.ps.ev, t.ps.counters, 0⟩) (st' := ⟨t.ps.pop, t'.ps.ev, t.ps.counters, 0⟩)
    ⟨rfl, rfl, rfl, ht.ps.ev, ht.ps.ev'⟩ fun m hm => (hs.ps.pop m hm).good).bind ?_
  rintro ⟨st, seen⟩ ⟨st', seen'⟩ ⟨h1, h2, h3⟩
  simp only at h1 h2 h3
  subst h2
  simp only
  rw [hph, hph]
  refine Rand.Alike.bind (P := fun x y => x = (d, t.ps.batch) ∧ y = (d', t'.ps.batch)) (.pure ⟨rfl, rfl⟩) ?_
  rintro _ _ ⟨rfl, rfl⟩
  simp only
  refine (Q.optimizeAndSimplify ht.ps.ctx h1 h3).bind ?_
  rintro ⟨st, ctx⟩ ⟨st', ctx'⟩ ⟨h4, h5⟩
  simp only at h4 h5 ⊢
  rw [h4.pop]
  refine (Rand.Alike.refl _).bind ?_
  rintro sub _ rfl
  exact .pure ⟨h4, h5, rfl⟩

theorem run_paired {t t' : Task K} (ht : t.Paired d d' t') (hs : t.Sound o d ops N) :
    Option.Rel (TaskResult.Paired d d') (t.run o d) (t'.run o d') := by
  unfold Task.run
  have := taskBody_paired P ht hs t.ps.rng
  rw [ht.ps.twin.rng]
  revert this
  generalize taskBody o d t t.ps.rng = a
  generalize taskBody o d' t' t.ps.rng = b
  intro this
  cases this with
  | none => exact .none
  | some h =>
    rename_i a b
    obtain ⟨⟨st, ctx, bt, seen, sub⟩, g⟩ := a
    obtain ⟨⟨st', ctx', bt', seen', sub'⟩, g'⟩ := b
    obtain ⟨⟨e1, e2, e4⟩, e5⟩ := h
    simp only [Prod.mk.injEq] at e1 e2 e4 e5
    obtain ⟨rfl, rfl⟩ := e4
    subst e5
    exact .some ⟨ht.popIdx, ht.cur, e1.evals, rfl, rfl, ⟨⟨e1.pop, rfl, e1.counters⟩, e1.ev, e1.ev', e2⟩⟩

theorem stepOne_paired {e e' : Engine K} (he : e.Paired d d' e') (hs : e.shared.Sound o d ops N) :
    Option.Rel (fun r r' => r'.1 = r.1 ∧ r.2.Paired d d' r'.2 ∧ r.2.shared.Sound o d ops N) (e.stepOne o d) (e'.stepOne o d') := by
  unfold Engine.stepOne
  rw [finished_paired he.shared]
  split
  · exact .some ⟨rfl, { he with progressFinished := rfl }, hs⟩
  · have hp := prepare_paired (o := o) he
    have hps : ∀ e1, e.prepare o = some e1 → e1.shared = e.shared := by
      intro e1 h
      unfold Engine.prepare at h
      split at h
      · simp only [Option.some.injEq] at h; rw [← h]
      · split at h
        · simp only [Option.some.injEq] at h; rw [← h]
        · rw [Option.map_eq_some_iff] at h
          obtain ⟨x, -, rfl⟩ := h
          rfl
    simp only [Option.bind_eq_bind]
    revert hp hps
    generalize e.prepare o = a
    generalize e'.prepare o = b
    intro hp hps
    cases hp with
    | none => exact .none
    | some hp =>
      rename_i e1 e1'
      have hs1 : e1.shared.Sound o d ops N := by rw [hps e1 rfl]; exact hs
      simp only [Option.bind_some]
      unfold Engine.runNext
      rw [finished_paired hp.shared]
      split
      · exact .some ⟨rfl, hp, hs1⟩
      · simp only [Option.bind_eq_bind]
        rw [hp.taskOrder, hp.nextTask]
        cases e1.taskOrder[e1.nextTask]? with
        | none => exact .none
        | some i =>
          simp only [Option.bind_some]
          have hdis := dispatch_paired (o := o) hp.shared i
          have hsd := fun s' t => dispatch_sound (s' := s') (t := t) (i := i) P.Q hs1
          revert hdis hsd
          generalize e1.shared.dispatch o i = a
          generalize e1'.shared.dispatch o i = b
          intro hdis hsd
          cases hdis with
          | none => exact .none
          | some hdis =>
            rename_i a b
            obtain ⟨t, s⟩ := a
            obtain ⟨t', s'⟩ := b
            obtain ⟨ht, hs⟩ := hdis
            simp only at ht hs
            cases ht with
            | none => exact .some ⟨rfl, { hp with taskOrder := rfl, nextTask := rfl }, hs1⟩
            | some ht =>
              rename_i t t'
              obtain ⟨ht1, hs2⟩ := hsd _ _ rfl
              simp only [Option.bind_some]
              unfold Engine.complete
              simp only [Option.bind_eq_bind]
              have hrun := run_paired P ht ht1
              have hdone := fun r => task_done (r := r) P.Q ht1
              revert hrun hdone
              generalize t.run o d = a
              generalize t'.run o d' = b
              intro hrun hdone
              cases hrun with
              | none => exact .none
              | some hr =>
                rename_i r r'
                have hrs := (hdone r rfl).sound P.Q.evol ht1
                simp only [Option.bind_some]
                have hap := apply_paired (o := o) hs hr
                have hsa := fun s'' => apply_sound (s' := s'') P.Q.evol hs2 hrs
                revert hap hsa
                generalize s.apply o r = a
                generalize s'.apply o r' = b
                intro hap hsa
                cases hap with
                | none => exact .none
                | some hap =>
                  simp only [Option.bind_some]
                  refine .some ⟨rfl, ⟨hap, hp.orderRng, hp.curIter, rfl, rfl, ?_⟩, hsa _ rfl⟩
                  simp only [finished_paired hap, hp.progressFinished]

theorem step_paired : ∀ (k : Nat) {e e' : Engine K}, e.Paired d d' e' → e.shared.Sound o d ops N →
    Option.Rel (fun r r' => r'.1 = r.1 ∧ r.2.Paired d d' r'.2) (e.step o d k) (e'.step o d' k) := by
  intro k
  induction k with
  | zero => intro e e' he _; exact .some ⟨rfl, he⟩
  | succ k ih =>
    intro e e' he hso
    rw [step_succ, step_succ]
    have hs := stepOne_paired P he hso
    revert hs
    generalize e.stepOne o d = a
    generalize e'.stepOne o d' = b
    intro hs
    cases hs with
    | none => exact .none
    | some hs =>
      rename_i a b
      obtain ⟨b1, e1⟩ := a
      obtain ⟨b2, e2⟩ := b
      obtain ⟨hb, he, hso⟩ := hs
      simp only at hb he hso
      subst hb
      simp only [Option.bind_some]
      split
      · have hi := ih he hso
        revert hi
        generalize e1.step o d k = a
        generalize e2.step o d' k = b
        intro hi
        cases hi with
        | none => exact .none
        | some hi => exact .some ⟨by simp only [hi.1], hi.2⟩
      · exact .some ⟨rfl, he⟩

/-! ## Initialisation -/

omit [IsStrictOrderedRing K] in
theorem initMembers_paired : ∀ (k : Nat) {st st' : InitState K}, st'.members = st.members → st'.counters = st.counters →
    st'.hall = st.hall → st.ev.Ready d → st'.ev.Ready d' → st.Sound o d ops N →
    Rand.Alike (fun r r' => r'.members = r.members ∧ r'.counters = r.counters ∧ r'.hall = r.hall ∧ r.ev.Ready d ∧ r'.ev.Ready d')
      (initMembers o d k st) (initMembers o d' k st') := by
  have Q := P.pair (Nat.le_refl _)
  have S := P.Q.evol
  intro k
  induction k with
  | zero => intro st st' h1 h2 h3 h4 h5 _; exact .pure ⟨h1, h2, h3, h4, h5⟩
  | succ k ih =>
    intro st st' h1 h2 h3 h4 h5 h6
    unfold initMembers
    have key : Rand.Alike (fun r r' => r'.members = r.members ∧ r'.counters = r.counters ∧ r'.hall = r.hall ∧ r.ev.Ready d ∧ r'.ev.Ready d')
        (initMember o d st) (initMember o d' st') := by
      unfold initMember
      rw [P.V.rows, h2]
      have hx : Rand.Total (randomExprAppendOps normalT o.operators d.x.rows 3 o.maxsize : Rand (Fl K) (PostfixExpr (Fl K)))
          (fun e => GoodExpr ops d.x.rows N e) := by
        rw [S.operators]
        refine ((C20_random_append (normal := normalT) (D := E.D) (ops := ops)
          (fun op h => ⟨(S.ops_ok op h).1, (S.ops_ok op h).2.1⟩) S.nf_pos (by have := S.nf_le; omega) 3 o.maxsize
          S.maxsize_le).and_post (randomExprAppend_small _ _ _ _ _)).mono ?_
        rintro e ⟨⟨⟨t, hn, hu⟩, h2, -⟩, h3⟩
        have hl : e.nodes.length = t.size := by rw [hn, length_toPostfix]
        have := P.Q.init
        exact ⟨t, hn, hu, by omega, by omega⟩
      refine ((Rand.Alike.refl _).with_post hx.post hx.post).bind ?_
      rintro e _ ⟨he', he, -⟩
      rw [he']
      obtain ⟨t, k0, -⟩ := Q.good_expr he
      obtain ⟨b, k1, k2, k3, -⟩ := C55_from_expr d e t k0 st.counters.nextId st.counters.nextBirth none
      rw [k1]
      refine Rand.Alike.bind (P := fun x y => x = b ∧ y = b) (Rand.Alike.lift (.some ⟨rfl, rfl⟩)) ?_
      rintro _ _ ⟨h1', h2'⟩
      rw [h1', h2']
      refine Rand.Alike.bind (Rand.Alike.lift (Q.evaluate (m := b) ⟨by rw [k3]; exact he, k2⟩ h4 h5)) ?_
      rintro ⟨b1, ok, w⟩ ⟨b1', ok', w'⟩ ⟨h5, h6, h7, h8⟩
      simp only at h5 h6 h7 h8
      subst h5 h6
      simp only
      rw [h3]
      refine (Rand.Alike.refl _).bind ?_
      rintro hall _ rfl
      exact .pure ⟨by rw [h1], rfl, rfl, h7, h8⟩
    refine (key.with_post (initMember_sound S P.Q.init st h6).post Rand.Post.true).bind ?_
    rintro r r' ⟨⟨a1, a2, a3, a4, a5⟩, ⟨a6, -⟩, -⟩
    exact ih a1 a2 a3 a4 a5 a6

omit [IsStrictOrderedRing K] in
theorem initPops_paired (seeds : Nat → Rng (Fl K)) : ∀ (k i : Nat) {hall : Hall K}, hall.Sound o d ops N →
    Option.Rel (fun r r' => List.Forall₂ (PopState.Paired d d') r.1 r'.1 ∧ r'.2 = r.2) (initPops o d seeds k i hall)
      (initPops o d' seeds k i hall) := by
  intro k
  induction k with
  | zero => intro i hall _; exact .some ⟨.nil, rfl⟩
  | succ k ih =>
    intro i hall hh
    unfold initPops
    simp only [Option.bind_eq_bind]
    have hp : Option.Rel (fun r r' => r.1.Paired d d' r'.1 ∧ r'.2 = r.2) (initPop o d i (seeds i) hall) (initPop o d' i (seeds i) hall) := by
      unfold initPop
      have := initMembers_paired P o.populationSize
        (st := ⟨[], Evaluator.new d.x.cols, ⟨i * 2 ^ 32 % 2 ^ 64, 0⟩, hall⟩)
        (st' := ⟨[], Evaluator.new d'.x.cols, ⟨i * 2 ^ 32 % 2 ^ 64, 0⟩, hall⟩) rfl rfl rfl (Evaluator.new_ready d) (Evaluator.new_ready d')
        ⟨by simp, Evaluator.new_ready d, hh⟩ (seeds i)
      revert this
      generalize initMembers o d _ _ (seeds i) = a
      generalize initMembers o d' _ _ (seeds i) = b
      intro this
      cases this with
      | none => exact .none
      | some h =>
        rename_i a b
        obtain ⟨⟨a1, a2, a3, a4, a5⟩, a6⟩ := h
        exact .some ⟨⟨⟨a1, a6, a2⟩, a4, a5, CtxTwin.new d d'⟩, a3⟩
    obtain ⟨ps, hall1, e1, -, s1⟩ := initPop_sound P.Q.evol P.Q.init i (seeds i) hh
    rw [e1] at hp ⊢
    revert hp
    generalize initPop o d' i (seeds i) hall = b
    intro hp
    cases hp with
    | some hp =>
      rename_i b
      obtain ⟨ps', hall'⟩ := b
      obtain ⟨hp1, hp2⟩ := hp
      simp only at hp1 hp2
      subst hp2
      simp only [Option.bind_some]
      have hi := ih (i + 1) s1
      revert hi
      generalize initPops o d seeds k (i + 1) hall' = a
      generalize initPops o d' seeds k (i + 1) hall' = b
      intro hi
      cases hi with
      | none => exact .none
      | some hi => exact .some ⟨.cons hp1 hi.1, hi.2⟩

omit P [IsStrictOrderedRing K] in
theorem flatMap_pop {p p' : List (PopState K)} (h : List.Forall₂ (PopState.Paired d d') p p') :
    p'.flatMap (·.pop) = p.flatMap (·.pop) ∧ p'.map (·.pop) = p.map (·.pop) := by
  induction h with
  | nil => exact ⟨rfl, rfl⟩
  | cons h _ ih => simp only [List.flatMap_cons, List.map_cons, ih.1, ih.2, h.twin.pop, and_self]

omit [IsStrictOrderedRing K] in
theorem init_paired (seeds : Nat → Rng (Fl K)) : Option.Rel (Shared.Paired d d') (Shared.init o d seeds) (Shared.init o d' seeds) := by
  unfold Shared.init
  simp only [Option.bind_eq_bind]
  have hi := initPops_paired P seeds o.populations 0 (Hall.Sound.new (o := o) (d := d) (ops := ops) (N := N))
  revert hi
  generalize initPops o d seeds o.populations 0 (Hall.new o.maxsize) = a
  generalize initPops o d' seeds o.populations 0 (Hall.new o.maxsize) = b
  intro hi
  cases hi with
  | none => exact .none
  | some hi =>
    rename_i a b
    obtain ⟨p, hall⟩ := a
    obtain ⟨p', hall'⟩ := b
    obtain ⟨hp, hh⟩ := hi
    simp only at hp hh
    subst hh
    simp only [Option.bind_some]
    have hf := flatMap_pop hp
    have hb : initBest o p' = initBest o p := by
      unfold initBest
      rw [hf.1]
      have : (p'.head?.bind fun ps => ps.pop.head?) = p.head?.bind fun ps => ps.pop.head? := by
        cases hp with
        | nil => rfl
        | cons h _ => simp only [List.head?_cons, Option.bind_some, h.twin.pop]
      simp only [Option.bind_eq_bind, this]
    have hm : (p'.mapM fun ps => bestSubPop E.sort ps.pop o.topn) = p.mapM fun ps => bestSubPop E.sort ps.pop o.topn := by
      have h : ∀ q : List (PopState K), (q.mapM fun ps => bestSubPop E.sort ps.pop o.topn)
          = (q.map (·.pop)).mapM fun pop => bestSubPop E.sort pop o.topn := by
        intro q; induction q with
        | nil => rfl
        | cons x q ih => simp only [List.mapM_cons, List.map_cons, ih]
      rw [h, h, hf.2]
    rw [hb, hm]
    cases initBest o p with
    | none => exact .none
    | some best =>
      simp only [Option.bind_some]
      cases p.mapM fun ps => bestSubPop E.sort ps.pop o.topn with
      | none => exact .none
      | some bs =>
        simp only [Option.bind_some]
        refine .some ⟨rfl, rfl, rfl, ?_, rfl, rfl, rfl⟩
        simp only
        rw [List.forall₂_map_left_iff, List.forall₂_map_right_iff]
        exact hp.imp fun _ _ h => .some h

/-! ## The multi-worker driver -/

/-- Sound states of the multi-worker driver. -/
def Par.AllSound (o : SOptions K) (d : Dataset K) (ops : List OpId) (N : Nat) (p : Par K) : Prop :=
  p.shared.Sound o d ops N ∧ ∀ t ∈ p.pending, t.Sound o d ops N

theorem parStep_paired {nw : Nat} {p p' q : Par K} {ev : ParEvent} (hp : p.Paired d d' p') (hs : p.AllSound o d ops N)
    (h : ParStep o d nw p ev q) : ∃ q', ParStep o d' nw p' ev q' ∧ q.Paired d d' q' ∧ q.AllSound o d ops N := by
  cases h with
  | @start order rng a b c =>
    refine ⟨_, .start (by rw [hp.pc]; exact a) (by rw [hp.iter]; exact b) (order := order) (rng := rng)
      (by rw [← hp.shared.pops.length_eq, hp.orderRng]; exact c), ?_, hs⟩
    exact ⟨hp.shared, rfl, rfl, by simp only [hp.iter], rfl, rfl, rfl, hp.pending⟩
  | enter a b =>
    exact ⟨_, .enter (by rw [hp.pc]; exact a) (by rw [hp.nextTask, hp.order, hp.inFlight]; exact b),
      ⟨hp.shared, hp.orderRng, rfl, hp.iter, hp.order, hp.nextTask, hp.inFlight, hp.pending⟩, hs⟩
  | leave a b =>
    exact ⟨_, .leave (by rw [hp.pc]; exact a) (by rw [hp.nextTask, hp.order, hp.inFlight]; exact b),
      ⟨hp.shared, hp.orderRng, rfl, hp.iter, hp.order, hp.nextTask, hp.inFlight, hp.pending⟩, hs⟩
  | @dispatch i t s a b c e =>
    have hdis := dispatch_paired (o := o) hp.shared i
    obtain ⟨hts, hss⟩ := dispatch_sound P.Q hs.1 e
    rw [e] at hdis
    cases hs' : p'.shared.dispatch o i with
    | none => rw [hs'] at hdis; cases hdis
    | some x =>
      obtain ⟨t', s'⟩ := x
      rw [hs'] at hdis
      cases hdis with
      | some hdis =>
        obtain ⟨ht, hsh⟩ := hdis
        simp only at ht hsh
        cases ht with
        | some ht =>
          refine ⟨_, .dispatch (by rw [hp.pc]; exact a) (by rw [hp.inFlight]; exact b) (by rw [hp.order, hp.nextTask]; exact c) hs', ?_,
            hss, ?_⟩
          · refine ⟨hsh, hp.orderRng, hp.pc, hp.iter, hp.order, by simp only [hp.nextTask], by simp only [hp.inFlight], ?_⟩
            exact List.rel_append hp.pending (.cons ht .nil)
          · intro x hx
            rcases List.mem_append.mp hx with hx | hx
            · exact hs.2 x hx
            · rw [List.mem_singleton.mp hx]; exact hts
  | @skip i s a b c e =>
    have hdis := dispatch_paired (o := o) hp.shared i
    rw [e] at hdis
    cases hs' : p'.shared.dispatch o i with
    | none => rw [hs'] at hdis; cases hdis
    | some x =>
      obtain ⟨t', s'⟩ := x
      rw [hs'] at hdis
      cases hdis with
      | some hdis =>
        obtain ⟨ht, hsh⟩ := hdis
        simp only at ht hsh
        cases ht with
        | none =>
          refine ⟨_, .skip (by rw [hp.pc]; exact a) (by rw [hp.inFlight]; exact b) (by rw [hp.order, hp.nextTask]; exact c) hs', ?_, hs⟩
          exact ⟨hp.shared, hp.orderRng, hp.pc, hp.iter, hp.order, by simp only [hp.nextTask], hp.inFlight, hp.pending⟩
  | @receive l r t res s a b c e f =>
    have hts : t.Sound o d ops N := hs.2 t (by rw [c]; simp)
    have hres' := (task_done P.Q hts e).sound P.Q.evol hts
    have hss := apply_sound P.Q.evol hs.1 hres' f
    have hpend := hp.pending
    rw [c] at hpend
    obtain ⟨l', tr', hl, htr, hpe⟩ : ∃ l' tr', List.Forall₂ (Task.Paired d d') l l' ∧ List.Forall₂ (Task.Paired d d') (t :: r) tr' ∧
        p'.pending = l' ++ tr' := forall₂_parts hpend
    cases htr with
    | @cons _ t' _ r' ht hr =>
      have hrun := run_paired P ht hts
      rw [e] at hrun
      cases hrun' : t'.run o d' with
      | none => rw [hrun'] at hrun; cases hrun
      | some res' =>
        rw [hrun'] at hrun
        cases hrun with
        | some hres =>
          have hap := apply_paired (o := o) hp.shared hres
          rw [f] at hap
          cases hap' : p'.shared.apply o res' with
          | none => rw [hap'] at hap; cases hap
          | some s' =>
            rw [hap'] at hap
            cases hap with
            | some hap =>
              have hst := ParStep.receive (o := o) (full := d') (nw := nw) (p := p') (by rw [hp.pc]; exact a)
                (by rw [hp.inFlight, hp.nextTask, hp.order]; exact b) hpe hrun' hap'
              rw [ht.popIdx] at hst
              refine ⟨_, hst, ⟨hap, hp.orderRng, rfl, hp.iter, hp.order, hp.nextTask, by simp only [hp.inFlight], ?_⟩, hss, ?_⟩
              · exact List.rel_append hl hr
              · intro x hx
                refine hs.2 x ?_
                rw [c]
                rcases List.mem_append.mp hx with hx | hx
                · simp [hx]
                · simp [hx]

theorem parRun_paired {nw : Nat} {p p' q : Par K} {tr : List ParEvent} (hp : p.Paired d d' p') (hs : p.AllSound o d ops N)
    (h : ParRun o d nw p tr q) : ∃ q', ParRun o d' nw p' tr q' ∧ q.Paired d d' q' ∧ q.AllSound o d ops N := by
  induction h with
  | refl => exact ⟨p', .refl _, hp, hs⟩
  | snoc _ h ih =>
    obtain ⟨q', hq, ha, hs⟩ := ih
    obtain ⟨r', hr, ha', hs'⟩ := parStep_paired P ha hs h
    exact ⟨r', .snoc hq hr, ha', hs'⟩

/-! ## The two searches -/

theorem stepwise_paired (seeds : Nat → Rng (Fl K)) (g : Rng (Fl K)) (k : Nat) :
    Option.Rel (fun r r' => r'.1 = r.1 ∧ r.2.Twin r'.2) ((Engine.new o d seeds g).bind fun e => e.step o d k)
      ((Engine.new o d' seeds g).bind fun e => e.step o d' k) := by
  unfold Engine.new
  have hi := init_paired P seeds
  obtain ⟨s, h1, h2, -⟩ := init_total P.Q.evol P.Q.init P.Q.costs P.Q.populations P.Q.populationSize seeds
  rw [h1] at hi ⊢
  revert hi
  generalize Shared.init o d' seeds = b
  intro hi
  cases hi with
  | some hi =>
    rename_i s'
    simp only [Option.map_some, Option.bind_some]
    have := step_paired P k (e := ⟨s, g, 0, [], 0, false⟩) (e' := ⟨s', g, 0, [], 0, false⟩) ⟨hi, rfl, rfl, rfl, rfl, rfl⟩ h2
    revert this
    generalize Engine.step o d k _ = a
    generalize Engine.step o d' k _ = b
    intro h
    cases h with
    | none => exact .none
    | some h => exact .some ⟨h.1, h.2.twin⟩

theorem parallel_paired (seeds : Nat → Rng (Fl K)) (g : Rng (Fl K)) :
    ∃ p p', Par.new o d seeds g = some p ∧ Par.new o d' seeds g = some p' ∧ p.Twin p' ∧ ∀ nw tr q, ParRun o d nw p tr q →
      ∃ q', ParRun o d' nw p' tr q' ∧ q.Twin q' := by
  unfold Par.new
  have hi := init_paired P seeds
  obtain ⟨s, h1, h2, -⟩ := init_total P.Q.evol P.Q.init P.Q.costs P.Q.populations P.Q.populationSize seeds
  rw [h1] at hi ⊢
  cases hs : Shared.init o d' seeds with
  | none => rw [hs] at hi; cases hi
  | some s' =>
    rw [hs] at hi
    cases hi with
    | some hi =>
      have hp : (⟨s, g, .idle, 0, [], 0, 0, []⟩ : Par K).Paired d d' ⟨s', g, .idle, 0, [], 0, 0, []⟩ :=
        ⟨hi, rfl, rfl, rfl, rfl, rfl, rfl, .nil⟩
      refine ⟨_, _, rfl, rfl, hp.twin, fun nw tr q hq => ?_⟩
      obtain ⟨q', h3, h4, -⟩ := parRun_paired P hp ⟨h2, by simp⟩ hq
      exact ⟨q', h3, h4.twin⟩

end
end SR
