import Verif.Proofs.Verdict
/-
Lemmas for C95: evolution, iterations, initialisation and the two drivers on two data sets on which every expression has the same loss
and the same loss gradient.
-/
namespace SR
variable {K : Type} [Field K] [LinearOrder K] [E : Env K]
variable {o : SOptions K} {d d' : Dataset K} {cur : Nat} {ops : List OpId} {N : Nat}

/-- A setting for the first data set is one for the second. -/
theorem EvolSetting.twin (S : EvolSetting o d cur ops N) (hr : d'.x.rows = d.x.rows) (W : d'.WF) (hpos : 0 < d'.x.cols) :
    EvolSetting o d' cur ops N :=
  { S with
    data := W
    rows := hpos
    nf_pos := by rw [hr]; exact S.nf_pos
    nf_le := by rw [hr]; exact S.nf_le }

/-- Two data sets for a pair of searches. -/
structure Pair (o : SOptions K) (d d' : Dataset K) (cur : Nat) (ops : List OpId) (N : Nat) : Prop where
  V : SameVerdicts o d d'
  formats : Env.Formats K
  ls : LsOk o
  S : EvolSetting o d cur ops N
  wf : d'.WF
  pos : 0 < d'.x.cols

section
variable (P : Pair o d d' cur ops N)
include P

theorem Pair.S' : EvolSetting o d' cur ops N := P.S.twin P.V.rows P.wf P.pos

theorem Pair.good_expr {e : PostfixExpr (Fl K)} (he : GoodExpr ops d.x.rows N e) :
    ∃ t, ExprSetting d e t ∧ ExprSetting d' e t ∧ t.ArityLe o.cx.D ∧ ∃ c, computeComplexity o.cx e.nodes = some c := by
  obtain ⟨t, hn, hu, hs, hc⟩ := he
  refine ⟨t, P.S.exprSetting hn hu hs hc, P.S'.exprSetting hn (by rw [P.V.rows]; exact hu) hs hc, P.S.arityLe hu, ?_⟩
  have h := C24_complexity o.cx P.S.cx t (P.S.arityLe hu)
  rw [← hn] at h
  exact ⟨_, h⟩

/-- The same scores and scratch memory of the right size. -/
abbrev EvalTwin (d d' : Dataset K) (r r' : Member K × Bool × Evaluator K) : Prop :=
  r'.1 = r.1 ∧ r'.2.1 = r.2.1 ∧ r.2.2.Ready d ∧ r'.2.2.Ready d'

theorem Pair.evaluate {m : Member K} (hm : m.Good d ops N) {ev ev' : Evaluator K} (hev : ev.Ready d) (hev' : ev'.Ready d') :
    Option.Rel (EvalTwin d d') (m.evaluate o d ev) (m.evaluate o d' ev') := by
  obtain ⟨t, h1, h2, -, c, h3⟩ := P.good_expr hm.expr
  exact evaluate_twin P.V h1 h2 hm.plan hev hev' h3

omit P in
theorem CtxTwin.new (d d' : Dataset K) : CtxTwin d d' (DContext.new d.x.cols) (DContext.new d'.x.cols) :=
  ⟨CtxSafe.new, CtxSafe.new, rfl, rfl, rfl, rfl, rfl, rfl⟩

variable [IsStrictOrderedRing K]

theorem Pair.optimize {m : Member K} (hm : m.Good d ops N) {ev ev' : Evaluator K} (hev : ev.Ready d) (hev' : ev'.Ready d')
    {ctx ctx' : DContext (Fl K)} (hctx : CtxTwin d d' ctx ctx') (nb : Nat) :
    Rand.Alike (OptTwin d d') (optimizeConstants o d ev ctx nb m) (optimizeConstants o d' ev' ctx' nb m) := by
  obtain ⟨t, h1, h2, -, c, h3⟩ := P.good_expr hm.expr
  exact optimizeConstants_twin P.V P.formats P.ls h1 h2 hm.plan h3 hev hev' hctx nb

/-- The same outcome of a mutation. -/
abbrev OutcomeTwin (d d' : Dataset K) (r r' : MutOutcome K) : Prop :=
  r'.expr = r.expr ∧ r'.mutated = r.mutated ∧ r'.evals = r.evals ∧ r'.immediate = r.immediate ∧ r.ev.Ready d ∧ r'.ev.Ready d'

omit P [IsStrictOrderedRing K] in
theorem plain_twin {x : Rand (Fl K) (PostfixExpr (Fl K) × Bool)} {ev ev' : Evaluator K} (hev : ev.Ready d) (hev' : ev'.Ready d') :
    Rand.Alike (OutcomeTwin d d') (x >>= fun r => pure (MutOutcome.plain ev r)) (x >>= fun r => pure (MutOutcome.plain ev' r)) := by
  refine (Rand.Alike.refl x).bind ?_
  rintro r _ rfl
  exact .pure ⟨rfl, rfl, rfl, rfl, hev, hev'⟩

theorem Pair.apply {m : Member K} (hm : m.Good d ops N) (temperature : Fl K) {ev ev' : Evaluator K} (hev : ev.Ready d)
    (hev' : ev'.Ready d') (c : Mutation) :
    Rand.Alike (OutcomeTwin d d') (c.apply o d cur temperature m ev) (c.apply o d' cur temperature m ev') := by
  have hr := P.V.rows
  cases c with
  | mutateConstant => unfold Mutation.apply; exact plain_twin hev hev'
  | mutateOperator => unfold Mutation.apply; exact plain_twin hev hev'
  | mutateFeature => unfold Mutation.apply; rw [hr]; exact plain_twin hev hev'
  | swapOperands => unfold Mutation.apply; exact plain_twin hev hev'
  | rotateTree => unfold Mutation.apply; exact plain_twin hev hev'
  | addNode => unfold Mutation.apply; rw [hr]; exact plain_twin hev hev'
  | insertNode => unfold Mutation.apply; rw [hr]; exact plain_twin hev hev'
  | deleteNode => unfold Mutation.apply; exact plain_twin hev hev'
  | simplify =>
    unfold Mutation.apply
    refine (Rand.Alike.refl _).bind ?_
    rintro r _ rfl
    exact .pure ⟨rfl, rfl, rfl, rfl, hev, hev'⟩
  | randomize =>
    unfold Mutation.apply
    rw [hr]
    refine (Rand.Alike.refl _).bind ?_
    rintro r _ rfl
    refine (Rand.Alike.refl _).bind ?_
    rintro e _ rfl
    exact .pure ⟨rfl, rfl, rfl, rfl, hev, hev'⟩
  | doNothing => unfold Mutation.apply; exact .pure ⟨rfl, rfl, rfl, rfl, hev, hev'⟩
  | optimize =>
    unfold Mutation.apply
    rw [hr]
    obtain ⟨t, h1, -⟩ := P.good_expr hm.expr
    obtain ⟨fr, k1, k2, k3, -⟩ := C55_from_expr d m.expr t h1 0 0 none
    rw [k1]
    refine Rand.Alike.bind (P := fun a b => a = fr ∧ b = fr) (Rand.Alike.lift (.some ⟨rfl, rfl⟩)) ?_
    rintro _ _ ⟨h1', h2'⟩
    rw [h1', h2']
    have hg : (optimizeTmp m fr).Good d ops N := by
      have he : (optimizeTmp m fr).expr = m.expr := k3
      exact ⟨by rw [he]; exact hm.expr, by rw [he]; exact hm.plan⟩
    refine (P.optimize hg hev hev' (CtxTwin.new d d') 0).bind ?_
    intro r r' h
    exact .pure ⟨by rw [h.member], rfl, h.evals, rfl, h.ev, h.ev'⟩

/-- The same result of the attempts. -/
abbrev AttemptTwin (d d' : Dataset K) (r r' : Attempt K) : Prop :=
  r'.found = r.found ∧ r'.evals = r.evals ∧ r.ev.Ready d ∧ r'.ev.Ready d'

theorem Pair.attempts {m : Member K} (hm : m.Good d ops N) (temperature : Fl K) (c : Mutation) : ∀ (k evals : Nat) (ev ev' : Evaluator K),
    ev.Ready d → ev'.Ready d' →
    Rand.Alike (AttemptTwin d d') (attemptLoop o d cur temperature m c k evals ev) (attemptLoop o d' cur temperature m c k evals ev') := by
  intro k
  induction k with
  | zero => intro n ev ev' h h'; exact .pure ⟨rfl, rfl, h, h'⟩
  | succ k ih =>
    intro n ev ev' h h'
    unfold attemptLoop
    refine (P.apply hm temperature h h' c).bind ?_
    rintro ⟨e, mu, n1, im, v⟩ ⟨e', mu', n1', im', v'⟩ ⟨h1, h2, h3, h4, h5, h6⟩
    simp only at h1 h2 h3 h4 h5 h6
    subst h1 h2 h3 h4
    simp only
    split
    · exact ih _ _ _ h5 h6
    · refine (Rand.Alike.refl _).bind ?_
      rintro ⟨tree, ch⟩ _ rfl
      refine (Rand.Alike.refl _).bind ?_
      rintro ok _ rfl
      split
      · exact .pure ⟨rfl, rfl, h5, h6⟩
      · exact ih _ _ _ h5 h6

/-- The same generation. -/
abbrev GenTwin (d d' : Dataset K) (r r' : GenOut K) : Prop :=
  r'.baby = r.baby ∧ r'.accepted = r.accepted ∧ r'.evals = r.evals ∧ r'.counters = r.counters ∧ r.ev.Ready d ∧ r'.ev.Ready d'

theorem Pair.parentCopy (c : Counters) (m : Member K) : SR.parentCopy d' c m = SR.parentCopy d c m := by
  unfold SR.parentCopy; rw [P.V.rows]

theorem Pair.simplifiedChild (c : Counters) (m : Member K) (e : PostfixExpr (Fl K)) :
    SR.simplifiedChild o d' c m e = SR.simplifiedChild o d c m e := by
  unfold SR.simplifiedChild; rw [P.V.rows, P.V.baseline]

theorem Pair.generationWith {m : Member K} (hm : m.Good d ops N) (temperature : Fl K) (s : Stats K) {ev ev' : Evaluator K}
    (hev : ev.Ready d) (hev' : ev'.Ready d') (c : Counters) (choice : Mutation) :
    Rand.Alike (GenTwin d d') (SR.generationWith o d cur temperature s ev c m choice)
      (SR.generationWith o d' cur temperature s ev' c m choice) := by
  unfold SR.generationWith
  refine ((P.attempts hm temperature choice 10 0 ev ev' hev hev').with_post
    (attemptLoop_spec P.formats P.ls P.S m hm temperature choice 10 0 ev hev).post Rand.Post.true).bind ?_
  rintro ⟨f, n, v⟩ ⟨f', n', v'⟩ ⟨⟨h1, h2, h3, h4⟩, ⟨-, hg⟩, -⟩
  simp only at h1 h2 h3 h4 hg
  subst h1 h2
  simp only [P.parentCopy, P.simplifiedChild, P.V.rows]
  match f', hg with
  | none, _ =>
    simp only
    refine (Rand.Alike.refl _).bind ?_
    rintro b _ rfl
    exact .pure ⟨rfl, rfl, rfl, rfl, h3, h4⟩
  | some (e, true), _ =>
    simp only
    refine (Rand.Alike.refl _).bind ?_
    rintro b _ rfl
    exact .pure ⟨rfl, rfl, rfl, rfl, h3, h4⟩
  | some (e, false), hg =>
    simp only
    obtain ⟨g1, -⟩ := hg e false rfl
    obtain ⟨t, k0, -⟩ := P.good_expr g1
    obtain ⟨b, k1, k2, k3, -⟩ := C55_from_expr d e t k0 c.nextId c.nextBirth (some m.id)
    rw [k1]
    refine Rand.Alike.bind (P := fun x y => x = b ∧ y = b) (Rand.Alike.lift (.some ⟨rfl, rfl⟩)) ?_
    rintro _ _ ⟨h1', h2'⟩
    rw [h1', h2']
    refine Rand.Alike.bind (Rand.Alike.lift (P.evaluate (m := b) ⟨by rw [k3]; exact g1, k2⟩ h3 h4)) ?_
    rintro ⟨b1, ok, w⟩ ⟨b1', ok', w'⟩ ⟨h5, h6, h7, h8⟩
    simp only at h5 h6 h7 h8
    subst h5 h6
    simp only
    split
    · refine (Rand.Alike.refl _).bind ?_
      rintro b _ rfl
      exact .pure ⟨rfl, rfl, rfl, rfl, h7, h8⟩
    · refine (Rand.Alike.refl _).bind ?_
      rintro u _ rfl
      split
      · refine (Rand.Alike.refl _).bind ?_
        rintro b _ rfl
        exact .pure ⟨rfl, rfl, rfl, rfl, h7, h8⟩
      · exact .pure ⟨rfl, rfl, rfl, rfl, h7, h8⟩

theorem Pair.nextGeneration {m : Member K} (hm : m.Good d ops N) (temperature : Fl K) (s : Stats K) {ev ev' : Evaluator K}
    (hev : ev.Ready d) (hev' : ev'.Ready d') (c : Counters) :
    Rand.Alike (GenTwin d d') (SR.nextGeneration o d cur temperature s ev c m) (SR.nextGeneration o d' cur temperature s ev' c m) := by
  unfold SR.nextGeneration
  rw [P.V.rows]
  refine (Rand.Alike.refl _).bind ?_
  rintro choice _ rfl
  exact P.generationWith hm temperature s hev hev' c _

/-- The same crossover. -/
abbrev CrossTwin (d d' : Dataset K) (r r' : CrossOut K) : Prop :=
  r'.baby1 = r.baby1 ∧ r'.baby2 = r.baby2 ∧ r'.accepted = r.accepted ∧ r'.evals = r.evals ∧ r'.counters = r.counters ∧
    r.ev.Ready d ∧ r'.ev.Ready d'

theorem Pair.crossBabies {ev ev' : Evaluator K} (hev : ev.Ready d) (hev' : ev'.Ready d') (c : Counters) (m1 m2 : Member K)
    {e1 e2 : PostfixExpr (Fl K)} (h1 : GoodExpr ops d.x.rows N e1) (h2 : GoodExpr ops d.x.rows N e2) :
    Option.Rel (CrossTwin d d') (SR.crossBabies o d ev c m1 m2 e1 e2) (SR.crossBabies o d' ev' c m1 m2 e1 e2) := by
  unfold SR.crossBabies
  rw [P.V.rows]
  obtain ⟨t1, a0, -⟩ := P.good_expr h1
  obtain ⟨b1, a1, a2, a3, -⟩ := C55_from_expr d e1 t1 a0 c.nextId c.nextBirth (some m1.id)
  obtain ⟨t2, c0, -⟩ := P.good_expr h2
  obtain ⟨b2, c1, c2, c3, -⟩ := C55_from_expr d e2 t2 c0 (c.nextId + 1) (c.nextBirth + 1) (some m2.id)
  rw [a1, c1]
  simp only [Option.bind_eq_bind, Option.bind_some]
  have k := P.evaluate (m := b1) ⟨by rw [a3]; exact h1, a2⟩ hev hev'
  revert k
  generalize b1.evaluate o d ev = x
  generalize b1.evaluate o d' ev' = x'
  intro k
  cases k with
  | none => exact .none
  | @some x x' k =>
    obtain ⟨y1, ok1, w1⟩ := x
    obtain ⟨y2, ok2, w2⟩ := x'
    obtain ⟨k1, k2, k3, k4⟩ := k
    simp only at k1 k2 k3 k4
    subst k1 k2
    simp only [Option.bind_some]
    have k := P.evaluate (m := b2) ⟨by rw [c3]; exact h2, c2⟩ k3 k4
    revert k
    generalize b2.evaluate o d w1 = x
    generalize b2.evaluate o d' w2 = x'
    intro k
    cases k with
    | none => exact .none
    | @some x x' k =>
      obtain ⟨z1, ok1, w3⟩ := x
      obtain ⟨z2, ok2, w4⟩ := x'
      obtain ⟨k1, k2, k5, k6⟩ := k
      simp only at k1 k2 k5 k6
      subst k1 k2
      exact .some ⟨rfl, rfl, rfl, rfl, rfl, k5, k6⟩

theorem Pair.crossLoop {ev ev' : Evaluator K} (hev : ev.Ready d) (hev' : ev'.Ready d') (c : Counters) {m1 m2 : Member K}
    (h1 : m1.Good d ops N) (h2 : m2.Good d ops N) : ∀ k,
    Rand.Alike (CrossTwin d d') (SR.crossLoop o d cur ev c m1 m2 k) (SR.crossLoop o d' cur ev' c m1 m2 k) := by
  intro k
  induction k with
  | zero => exact .pure ⟨rfl, rfl, rfl, rfl, rfl, hev, hev'⟩
  | succ k ih =>
    unfold SR.crossLoop
    obtain ⟨t1, a1, a2, a3, a4⟩ := h1.expr
    obtain ⟨t2, b1, b2, b3, b4⟩ := h2.expr
    have e1 : m1.expr = ⟨t1.toPostfix, m1.expr.consts⟩ := by rw [← a1]
    have e2 : m2.expr = ⟨t2.toPostfix, m2.expr.consts⟩ := by rw [← b1]
    have htwo := P.S.two
    have hx : Rand.Total (crossoverTrees m1.expr m2.expr : Rand (Fl K) _) (fun r => ∀ e, e = r.1 ∨ e = r.2 →
        ∃ t : Tree, e.nodes = t.toPostfix ∧ t.Uses ops d.x.rows e.consts.length ∧ e.consts.length ≤ t.size) := by
      rw [e1, e2]
      refine (crossoverTrees_small t1 t2 m1.expr.consts m2.expr.consts a2 b2 (by omega)).mono fun r h => h
    refine ((Rand.Alike.refl _).with_post hx.post hx.post).bind ?_
    rintro ⟨x1, x2⟩ _ ⟨rfl, hx, -⟩
    obtain ⟨u1, p1, p2, p3⟩ := hx x1 (.inl rfl)
    obtain ⟨u2, q1, q2, q3⟩ := hx x2 (.inr rfl)
    obtain ⟨ok1, c1, c2⟩ := checked_good P.S p1 p2 p3
    obtain ⟨ok2, d1, d2⟩ := checked_good P.S q1 q2 q3
    simp only
    rw [c1, d1]
    refine Rand.Alike.bind (P := fun x y => x = ok1 ∧ y = ok1) (Rand.Alike.lift (.some ⟨rfl, rfl⟩)) ?_
    rintro _ _ ⟨h1', h2'⟩
    rw [h1', h2']
    cases ok1 with
    | false =>
      simp only [Bool.false_eq_true, if_false]
      refine (Rand.Alike.refl _).with_post (A := fun x => x = false) (B := fun _ => True) (Rand.Post.pure rfl) Rand.Post.true |>.bind ?_
      rintro x _ ⟨rfl, rfl, -⟩
      exact ih
    | true =>
      simp only [if_true]
      refine Rand.Alike.bind (P := fun x y => x = ok2 ∧ y = ok2) (Rand.Alike.lift (.some ⟨rfl, rfl⟩)) ?_
      rintro _ _ ⟨h1', h2'⟩
      rw [h1', h2']
      cases ok2 with
      | false => exact ih
      | true => exact Rand.Alike.lift (P.crossBabies hev hev' c m1 m2 (c2 rfl).1 (d2 rfl).1)

/-- The same state of evolution, and scratch memory of the right size. -/
structure EvoTwin (d d' : Dataset K) (st st' : EvolState K) : Prop where
  pop : st'.pop = st.pop
  counters : st'.counters = st.counters
  evals : st'.evals = st.evals
  ev : st.ev.Ready d
  ev' : st'.ev.Ready d'

theorem Pair.mutationStep (temperature : Fl K) (s : Stats K) {st st' : EvolState K} (h : EvoTwin d d' st st')
    (hg : ∀ m ∈ st.pop, m.Good d ops N) :
    Rand.Alike (EvoTwin d d') (SR.mutationStep o d cur temperature s st) (SR.mutationStep o d' cur temperature s st') := by
  unfold SR.mutationStep
  rw [h.pop, h.counters, h.evals]
  refine ((Rand.Alike.refl _).with_post (bestOfSample_mem E.R E.sort E.libm E.fuel o.tour s st.pop) Rand.Post.true).bind ?_
  rintro a _ ⟨h1', ha, -⟩
  rw [h1']
  refine (P.nextGeneration (hg a ha) temperature s h.ev h.ev' st.counters).bind ?_
  rintro ⟨b, ac, n, v, c⟩ ⟨b', ac', n', v', c'⟩ ⟨h1, h2, h3, h4, h5, h6⟩
  simp only at h1 h2 h3 h4 h5 h6
  subst h1 h2 h3 h4
  simp only
  split
  · exact .pure ⟨rfl, rfl, rfl, h5, h6⟩
  · refine (Rand.Alike.refl _).bind ?_
    rintro p _ rfl
    exact .pure ⟨rfl, rfl, rfl, h5, h6⟩

theorem Pair.crossoverStep (s : Stats K) {st st' : EvolState K} (h : EvoTwin d d' st st') (hg : ∀ m ∈ st.pop, m.Good d ops N) :
    Rand.Alike (EvoTwin d d') (SR.crossoverStep o d cur s st) (SR.crossoverStep o d' cur s st') := by
  unfold SR.crossoverStep SR.crossoverGeneration
  rw [h.pop, h.counters, h.evals]
  refine ((Rand.Alike.refl _).with_post (bestOfSample_mem E.R E.sort E.libm E.fuel o.tour s st.pop) Rand.Post.true).bind ?_
  rintro a _ ⟨h1', ha, -⟩
  rw [h1']
  refine ((Rand.Alike.refl _).with_post (bestOfSample_mem E.R E.sort E.libm E.fuel o.tour s st.pop) Rand.Post.true).bind ?_
  rintro a2 _ ⟨h1', ha2, -⟩
  rw [h1']
  refine (P.crossLoop h.ev h.ev' st.counters (hg a ha) (hg a2 ha2) 10).bind ?_
  rintro ⟨b, b2, ac, n, v, c⟩ ⟨b', b2', ac', n', v', c'⟩ ⟨h0, h1, h2, h3, h4, h5, h6⟩
  simp only at h0 h1 h2 h3 h4 h5 h6
  subst h0 h1 h2 h3 h4
  simp only
  split
  · exact .pure ⟨rfl, rfl, rfl, h5, h6⟩
  · refine (Rand.Alike.refl _).bind ?_
    rintro p _ rfl
    exact .pure ⟨rfl, rfl, rfl, h5, h6⟩

theorem Pair.evolStep (temperature : Fl K) (s : Stats K) {st st' : EvolState K} (h : EvoTwin d d' st st')
    (hg : ∀ m ∈ st.pop, m.Good d ops N) :
    Rand.Alike (fun r r' => EvoTwin d d' r r' ∧ ∀ m ∈ r.pop, m.Good d ops N) (SR.evolStep o d cur temperature s st)
      (SR.evolStep o d' cur temperature s st') := by
  have hok : st.Ok d ops N := ⟨hg, h.ev⟩
  have key : Rand.Alike (EvoTwin d d') (SR.evolStep o d cur temperature s st) (SR.evolStep o d' cur temperature s st') := by
    unfold SR.evolStep
    refine (Rand.Alike.refl _).bind ?_
    rintro u _ rfl
    split
    · exact P.mutationStep temperature s h hg
    · exact P.crossoverStep s h hg
  refine (key.with_post (C36_step P.formats P.ls P.S temperature s st hok) Rand.Post.true).mono ?_
  rintro r r' ⟨h1, h2, -⟩
  exact ⟨h1, (h2.keeps hok).1.pop⟩

theorem Pair.evolLoop (temperature : Fl K) (s : Stats K) : ∀ (k : Nat) {st st' : EvolState K}, EvoTwin d d' st st' →
    (∀ m ∈ st.pop, m.Good d ops N) →
    Rand.Alike (fun r r' => EvoTwin d d' r r' ∧ ∀ m ∈ r.pop, m.Good d ops N) (SR.evolLoop o d cur temperature s k st)
      (SR.evolLoop o d' cur temperature s k st') := by
  intro k
  induction k with
  | zero => intro st st' h hg; exact .pure ⟨h, hg⟩
  | succ k ih =>
    intro st st' h hg
    unfold SR.evolLoop
    refine (P.evolStep temperature s h hg).bind ?_
    rintro r r' ⟨h1, h2⟩
    exact ih h1 h2

theorem Pair.srLoop (s : Stats K) (n : Nat) : ∀ (k : Nat) {st st' : EvolState K} (best : Hall K), EvoTwin d d' st st' →
    (∀ m ∈ st.pop, m.Good d ops N) →
    Rand.Alike (fun r r' => EvoTwin d d' r.1 r'.1 ∧ r'.2 = r.2 ∧ ∀ m ∈ r.1.pop, m.Good d ops N) (SR.srLoop o d cur s n k st best)
      (SR.srLoop o d' cur s n k st' best) := by
  intro k
  induction k with
  | zero => intro st st' best h hg; exact .pure ⟨h, rfl, hg⟩
  | succ k ih =>
    intro st st' best h hg
    unfold SR.srLoop SR.regEvolCycle
    rw [h.pop]
    refine (P.evolLoop _ s _ h hg).bind ?_
    rintro r r' ⟨h1, h2⟩
    rw [h1.pop]
    refine (Rand.Alike.refl _).bind ?_
    rintro b _ rfl
    exact ih _ h1 h2

theorem Pair.srCycle (s : Stats K) {st st' : EvolState K} (h : EvoTwin d d' st st') (hg : ∀ m ∈ st.pop, m.Good d ops N) :
    Rand.Alike (fun r r' => EvoTwin d d' r.1 r'.1 ∧ r'.2 = r.2 ∧ ∀ m ∈ r.1.pop, m.Good d ops N) (SR.srCycle o d cur s st)
      (SR.srCycle o d' cur s st') := by
  unfold SR.srCycle
  rw [h.pop]
  refine (Rand.Alike.refl _).bind ?_
  rintro b _ rfl
  exact P.srLoop s _ _ _ h hg

/-- The same state of the optimisation loop. -/
structure OptStateTwin (d d' : Dataset K) (st st' : OptState K) : Prop where
  ev : st.ev.Ready d
  ev' : st'.ev.Ready d'
  ctx : CtxTwin d d' st.ctx st'.ctx
  nextBirth : st'.nextBirth = st.nextBirth
  evals : st'.evals = st.evals

theorem Pair.optimizeAll : ∀ (p : Population K) {st st' : OptState K}, OptStateTwin d d' st st' → (∀ m ∈ p, m.Good d ops N) →
    Rand.Alike (fun r r' => r'.1 = r.1 ∧ OptStateTwin d d' r.2 r'.2) (SR.optimizeAll o d p st) (SR.optimizeAll o d' p st') := by
  intro p
  induction p with
  | nil => intro st st' h hg; exact .pure ⟨rfl, h⟩
  | cons m ms ih =>
    intro st st' h hg
    unfold SR.optimizeAll
    refine (Rand.Alike.refl _).bind ?_
    rintro u _ rfl
    split
    · rw [h.nextBirth, h.evals]
      refine (P.optimize (hg m (by simp)) h.ev h.ev' h.ctx st.nextBirth).bind ?_
      intro r r' hr
      rw [hr.nextBirth, hr.evals, hr.member]
      refine (ih (st := ⟨r.ev, r.ctx, r.nextBirth, st.evals + r.evals⟩) (st' := ⟨r'.ev, r'.ctx, r.nextBirth, st.evals + r.evals⟩)
        ⟨hr.ev, hr.ev', hr.ctx, rfl, rfl⟩ fun x hx => hg x (by simp [hx])).bind ?_
      rintro ⟨q, w⟩ ⟨q', w'⟩ ⟨rfl, h2⟩
      exact .pure ⟨rfl, h2⟩
    · refine (ih h fun x hx => hg x (by simp [hx])).bind ?_
      rintro ⟨q, w⟩ ⟨q', w'⟩ ⟨rfl, h2⟩
      exact .pure ⟨rfl, h2⟩

theorem Pair.evaluateAll : ∀ (p : Population K) {ev ev' : Evaluator K}, ev.Ready d → ev'.Ready d' → (∀ m ∈ p, m.Good d ops N) →
    Option.Rel (fun r r' => r'.1 = r.1 ∧ r.2.Ready d ∧ r'.2.Ready d') (SR.evaluateAll o d p ev) (SR.evaluateAll o d' p ev') := by
  intro p
  induction p with
  | nil => intro ev ev' h h' hg; exact .some ⟨rfl, h, h'⟩
  | cons m ms ih =>
    intro ev ev' h h' hg
    unfold SR.evaluateAll
    simp only [Option.bind_eq_bind]
    have k := P.evaluate (hg m (by simp)) h h'
    revert k
    generalize m.evaluate o d ev = x
    generalize m.evaluate o d' ev' = x'
    intro k
    cases k with
    | none => exact .none
    | @some x x' k =>
      obtain ⟨y1, ok1, w1⟩ := x
      obtain ⟨y2, ok2, w2⟩ := x'
      obtain ⟨k1, k2, k3, k4⟩ := k
      simp only at k1 k2 k3 k4
      subst k1 k2
      simp only [Option.bind_some]
      have k := ih k3 k4 fun x hx => hg x (by simp [hx])
      revert k
      generalize SR.evaluateAll o d ms w1 = x
      generalize SR.evaluateAll o d' ms w2 = x'
      intro k
      cases k with
      | none => exact .none
      | @some x x' k =>
        obtain ⟨q, w⟩ := x
        obtain ⟨q', w'⟩ := x'
        obtain ⟨k1, k2, k3⟩ := k
        simp only at k1 k2 k3
        subst k1
        exact .some ⟨rfl, k2, k3⟩

omit P [IsStrictOrderedRing K] in
theorem CtxTwin.sized {c c' : DContext (Fl K)} (h : CtxTwin d d' c c') :
    CtxTwin d d' { c with nRows := d.x.cols } { c' with nRows := d'.x.cols } :=
  ⟨⟨h.safe.scratch, h.safe.plan⟩, ⟨h.safe'.scratch, h.safe'.plan⟩, rfl, rfl, h.plan, h.len, h.consts, h.feats⟩

theorem Pair.optimizePhase {ctx ctx' : DContext (Fl K)} (hc : CtxTwin d d' ctx ctx') {st st' : EvolState K} (h : EvoTwin d d' st st')
    (hg : ∀ m ∈ st.pop, m.Good d ops N) :
    Rand.Alike (fun r r' => (EvoTwin d d' r.1 r'.1 ∧ CtxTwin d d' r.2 r'.2) ∧ ∀ m ∈ r.1.pop, m.Good d ops N)
      (SR.optimizePhase o d ctx st) (SR.optimizePhase o d' ctx' st') := by
  unfold SR.optimizePhase
  split
  · rw [h.pop, h.counters, h.evals]
    have r1 := ensure_ready st.ev d h.ev.2
    have r2 := ensure_ready st'.ev d' h.ev'.2
    refine ((P.optimizeAll st.pop (st := ⟨st.ev.ensure d.x.cols, { ctx with nRows := d.x.cols }, st.counters.nextBirth, st.evals⟩)
      (st' := ⟨st'.ev.ensure d'.x.cols, { ctx' with nRows := d'.x.cols }, st.counters.nextBirth, st.evals⟩)
      ⟨r1, r2, hc.sized, rfl, rfl⟩ hg).with_post (optimizeAll_spec P.S d P.S.data rfl P.S.rows st.pop _ hg r1) Rand.Post.true).bind ?_
    rintro ⟨p, w⟩ ⟨p', w'⟩ ⟨⟨h1, h2⟩, ⟨-, -, -, c⟩, -⟩
    simp only at h1 h2 c
    subst h1
    refine .pure ⟨⟨⟨rfl, ?_, h2.evals, h2.ev, h2.ev'⟩, h2.ctx⟩, fun m hm => ?_⟩
    · simp only [h2.nextBirth]
    · have := (List.forall₂_iff_get.mp c)
      obtain ⟨i, hi, rfl⟩ := List.mem_iff_getElem.mp hm
      have h := this.2 i (this.1 ▸ hi) hi
      exact (hg _ (List.getElem_mem (this.1 ▸ hi))).of_shape h.1 h.2.1 h.2.2.1
  · exact .pure ⟨⟨h, hc⟩, hg⟩

theorem Pair.optimizeAndSimplify {ctx ctx' : DContext (Fl K)} (hc : CtxTwin d d' ctx ctx') {st st' : EvolState K} (h : EvoTwin d d' st st')
    (hg : ∀ m ∈ st.pop, m.Good d ops N) :
    Rand.Alike (fun r r' => EvoTwin d d' r.1 r'.1 ∧ CtxTwin d d' r.2 r'.2)
      (SR.optimizeAndSimplify o d d ctx st) (SR.optimizeAndSimplify o d' d' ctx' st') := by
  have hsimp : ∃ p1, (if o.shouldSimplify then st.pop.mapM (simplifyMember d.x.rows) else some st.pop) = some p1 ∧
      ∀ m ∈ p1, m.Good d ops N := by
    split
    · obtain ⟨p', h1, h2⟩ := simplifyAll_spec P.S st.pop hg
      refine ⟨p', h1, fun m hm => ?_⟩
      obtain ⟨i, hi, rfl⟩ := List.mem_iff_getElem.mp hm
      have := (List.forall₂_iff_get.mp h2)
      exact (this.2 i (this.1 ▸ hi) hi).1
    · exact ⟨st.pop, rfl, hg⟩
  obtain ⟨p1, h1, h2⟩ := hsimp
  unfold SR.optimizeAndSimplify
  rw [h.pop, P.V.rows, h1]
  refine Rand.Alike.bind (P := fun x y => x = p1 ∧ y = p1) (Rand.Alike.lift (.some ⟨rfl, rfl⟩)) ?_
  rintro _ _ ⟨h1', h2'⟩
  rw [h1', h2']
  refine (P.optimizePhase hc (st := { st with pop := p1 }) (st' := { st' with pop := p1 })
    ⟨rfl, h.counters, h.evals, h.ev, h.ev'⟩ h2).bind ?_
  rintro ⟨s1, c1⟩ ⟨s2, c2⟩ ⟨⟨g1, g2⟩, g3⟩
  simp only at g1 g2 g3 ⊢
  rw [g1.pop]
  refine Rand.Alike.bind (Rand.Alike.lift (P.evaluateAll s1.pop (ensure_ready s1.ev d g1.ev.2) (ensure_ready s2.ev d' g1.ev'.2) g3)) ?_
  rintro ⟨q, w⟩ ⟨q', w'⟩ ⟨k1, k2, k3⟩
  simp only at k1 k2 k3
  subst k1
  exact .pure ⟨⟨rfl, g1.counters, by simp only [g1.evals], k2, k3⟩, g2⟩

end
end SR
