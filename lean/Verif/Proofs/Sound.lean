import Verif.Spec.Sound
import Verif.Props.Iterate
import Verif.Proofs.Search
import Verif.Props.Population
/-
Everything the search holds stays sound: per task, per result, per initial population.
-/
namespace SR
variable {K : Type} [Field K] [LinearOrder K] [E : Env K]
variable {o : SOptions K} {d : Dataset K} {cur : Nat} {ops : List OpId} {N : Nat}

omit [Field K] [LinearOrder K] E in
theorem FeasibleExpr.mono {cx : CxOptions} {cur cur' : Nat} {e : PostfixExpr (Fl K)} (h : cur ≤ cur')
    (hf : FeasibleExpr cx cur e) : FeasibleExpr cx cur' e := by
  obtain ⟨t, hn, ha⟩ := hf
  exact ⟨t, hn, Nat.le_trans ha.size h, ha.depth, ha.arg, ha.nest⟩

theorem EvolSetting.down (S : EvolSetting o d o.maxsize ops N) (h : cur ≤ o.maxsize) : EvolSetting o d cur ops N :=
  { S with
    cur_lt := Nat.lt_of_le_of_lt h S.cur_lt
    size := fun t hp ha => S.size t hp ⟨Nat.le_trans ha.size h, ha.depth, ha.arg, ha.nest⟩ }

theorem Member.Scored.sound {m : Member K} (hs : m.Scored o d) (hg : m.Good d ops N) : m.Sound o d ops N := by
  obtain ⟨t, hn, hc, hl, hcost⟩ := hs
  refine ⟨hg, hc, ⟨m.expr, t, hn, .refl, hl⟩, ?_⟩
  cases h : exprLoss o d t m.expr.consts with
  | none => rw [h] at hl hcost; exact .inr ⟨hl, by simpa using hcost⟩
  | some v => rw [h] at hcost; exact .inl (by simpa using hcost)

/-- A member with the same expression, plan and scores. -/
theorem Member.Sound.copy {m m' : Member K} (h : m.Sound o d ops N) (h1 : m'.expr = m.expr) (hg : m'.Good d ops N)
    (h2 : m'.complexity = m.complexity) (h3 : m'.loss = m.loss) (h4 : m'.cost = m.cost) : m'.Sound o d ops N := by
  refine ⟨hg, by rw [h1, h2]; exact h.complexity, ?_, by rw [h2, h3, h4]; exact h.cost⟩
  obtain ⟨e0, t0, a, b, c⟩ := h.loss
  exact ⟨e0, t0, a, by rw [h1]; exact b, by rw [h3]; exact c⟩

theorem GenSpec.sound {c : Counters} {m : Member K} {r : GenOut K} (h : GenSpec o d cur ops N c m r)
    (hm : m.Sound o d ops N) : r.baby.Sound o d ops N := by
  cases ha : r.accepted with
  | false =>
    obtain ⟨h1, h2, h3, h4⟩ := h.rejected ha
    exact hm.copy h1 h.good h2 h3 h4
  | true =>
    rcases h.scored ha with h1 | ⟨h1, h2, h3⟩
    · exact h1.1.sound h.good
    · obtain ⟨e0, t0, a, b, c⟩ := hm.loss
      exact ⟨h.good, (h.feasible ha).2, ⟨e0, t0, a, b.tail h1, by rw [h2]; exact c⟩, .inl (by rw [h2]; exact h3)⟩

theorem EvolMove.sound {st st' : EvolState K} (h : EvolMove o d cur ops N st st')
    (hst : ∀ m ∈ st.pop, m.Sound o d ops N) : ∀ m ∈ st'.pop, m.Sound o d ops N := by
  have memset : ∀ {p : Population K} {i : Nat} {b x : Member K}, x ∈ p.set i b → x = b ∨ x ∈ p := fun h =>
    (List.mem_or_eq_of_mem_set h).symm
  cases h with
  | mutFail m r hm hr h1 h2 => exact hst
  | mutate m r i old hm hr h1 h2 h3 =>
    intro x hx
    rcases memset hx with rfl | hx
    · exact hr.sound (hst m hm)
    · exact hst x hx
  | crossFail m1 m2 r hm1 hm2 hr h1 h2 => exact hst
  | cross m1 m2 r i1 i2 old1 old2 hm1 hm2 hr h1 h2 h3 h4 h5 h6 =>
    intro x hx
    have hx' : x = r.baby1 ∨ x = r.baby2 ∨ x ∈ st.pop := by
      rcases memset hx with rfl | hx
      · exact .inr (.inl rfl)
      · rcases memset hx with rfl | hx
        · exact .inl rfl
        · exact .inr (.inr hx)
    cases ha : r.accepted with
    | true =>
      rcases hx' with h | h | h
      · have := hr.children ha x (.inl h); exact this.2.2.sound this.1
      · have := hr.children ha x (.inr h); exact this.2.2.sound this.1
      · exact hst x h
    | false =>
      obtain ⟨e1, e2, -⟩ := hr.rejected ha
      rcases hx' with rfl | rfl | h
      · rw [e1]; exact hst _ hm1
      · rw [e2]; exact hst _ hm2
      · exact hst x h

theorem EvolMoves.sound {n : Nat} {st st' : EvolState K} (h : EvolMoves o d cur ops N n st st')
    (hst : ∀ m ∈ st.pop, m.Sound o d ops N) : ∀ m ∈ st'.pop, m.Sound o d ops N := by
  induction h with
  | refl => exact hst
  | step h _ ih => exact ih (h.sound hst)

theorem EvolSetting.isTree (S : EvolSetting o d cur ops N) {m : Member K} (hm : m.Good d ops N) : m.IsTree o.cx.D := by
  obtain ⟨t, hn, hu, -⟩ := hm.expr
  exact ⟨t, hn, S.proper hu, S.arityLe hu⟩

/-- Offering a sound member keeps the hall sound. -/
theorem consider_sound (S : EvolSetting o d o.maxsize ops N) (hcur : cur ≤ o.maxsize) {h : Hall K}
    (hh : h.Sound o d ops N) {m : Member K} (hm : m.Sound o d ops N) :
    ∃ h', h.consider o.cx cur m = some h' ∧ h'.Sound o d ops N := by
  classical
  obtain ⟨h', e, hl, hs⟩ := consider_tree o.cx S.cx cur (S.down hcur).cur_lt h m (S.isTree hm.good)
  refine ⟨h', e, hl.trans hh.length, fun c x hx => ?_⟩
  rw [hs c] at hx
  split at hx
  · next hc =>
    obtain ⟨hf, hc1, hc2⟩ := hc
    rw [Option.map_eq_some_iff] at hx
    obtain ⟨slot, h1, h2⟩ := hx
    unfold slotStep at h2
    split at h2
    · simp only [Option.some.injEq] at h2
      subst h2
      exact ⟨hm, hc1, by omega, FeasibleExpr.mono hcur hf⟩
    · subst h2; exact hh.entry c x h1
  · exact hh.entry c x hx

theorem update_sound (S : EvolSetting o d o.maxsize ops N) (hcur : cur ≤ o.maxsize) :
    ∀ (ms : List (Member K)) {h : Hall K}, h.Sound o d ops N → (∀ m ∈ ms, m.Sound o d ops N) →
    ∃ h', h.update o.cx cur ms = some h' ∧ h'.Sound o d ops N
  | [], h, hh, _ => ⟨h, rfl, hh⟩
  | m :: ms, h, hh, hm => by
    obtain ⟨h1, e1, s1⟩ := consider_sound S hcur hh (hm m (by simp))
    obtain ⟨h2, e2, s2⟩ := update_sound S hcur ms s1 fun x hx => hm x (by simp [hx])
    exact ⟨h2, by rw [Hall.update, e1]; exact e2, s2⟩

theorem Hall.Sound.new : (Hall.new o.maxsize : Hall K).Sound o d ops N := by
  refine ⟨by simp [Hall.new], fun c m h => ?_⟩
  rw [Hall.new, List.getElem?_replicate] at h
  split at h <;> simp at h

theorem Hall.Sound.members {h : Hall K} (hh : h.Sound o d ops N) : ∀ m ∈ h.members, m.Sound o d ops N := by
  intro m hm
  unfold Hall.members at hm
  rw [List.mem_filterMap] at hm
  obtain ⟨x, hx, rfl⟩ := hm
  obtain ⟨i, hi, he⟩ := List.mem_iff_getElem.mp hx
  exact (hh.entry i m (by rw [List.getElem?_eq_getElem hi, he])).1

omit [Field K] E in
theorem bestSubPop_sub {S : SortBy} {p : Population K} {n : Nat} {l : List (Member K)}
    (h : bestSubPop S p n = some l) : ∀ m ∈ l, m ∈ p := by
  unfold bestSubPop at h
  simp only [Option.bind_eq_bind, Option.bind_eq_some_iff, Option.some.injEq] at h
  obtain ⟨idxs, -, rfl⟩ := h
  intro m hm
  rw [List.mem_filterMap] at hm
  obtain ⟨i, -, hi⟩ := hm
  exact List.mem_of_getElem? hi

/-- What a task that returns has done: its evolution is a sequence of moves, the members seen were offered to an empty
hall, and the final phase has finished every member. -/
structure TaskDone (o : SOptions K) (d : Dataset K) (ops : List OpId) (N : Nat) (t : Task K) (r : TaskResult K) : Prop where
  idx : r.popIdx = t.popIdx
  cur : r.cur = t.cur
  batch : r.ps.batch = t.ps.batch
  evolved : ∃ (j : Nat) (st : EvolState K), EvolMoves o d t.cur ops N j ⟨t.ps.pop, t.ps.ev, t.ps.counters, 0⟩ st ∧
    List.Forall₂ (Finished o d ops N) st.pop r.ps.pop ∧ r.ps.counters.nextId = st.counters.nextId ∧
    st.counters.nextBirth ≤ r.ps.counters.nextBirth ∧ st.evals + st.pop.length ≤ r.evals
  seen : ∃ pops : List (Population K), (∀ p ∈ pops, ∃ (i : Nat) (st : EvolState K),
      EvolMoves o d t.cur ops N i ⟨t.ps.pop, t.ps.ev, t.ps.counters, 0⟩ st ∧ st.pop = p) ∧
    (Hall.new o.maxsize).update o.cx t.cur (t.ps.pop ++ pops.flatten) = some r.bestSeen
  ev : r.ps.ev.Ready d
  sub : bestSubPop E.sort r.ps.pop o.topn = some r.bestSub

section
variable [IsStrictOrderedRing K]

theorem task_done (Q : SearchSetting o d ops N) {t : Task K} (ht : t.Sound o d ops N) {r : TaskResult K}
    (h : t.run o d = some r) : TaskDone o d ops N t r := by
  have S := Q.evol.down ht.cur
  have hpost : Rand.Post (taskBody o d t) fun x => TaskDone o d ops N t
      ⟨t.popIdx, t.cur, x.1.evals, x.2.2.2.1, x.2.2.2.2, ⟨x.1.pop, x.1.ev, x.2.1, t.ps.rng, x.2.2.1, x.1.counters⟩⟩ := by
    unfold taskBody
    have hph : ∀ b, phaseDataset o d b = pure (d, b) := by
      intro b; unfold phaseDataset; rw [Q.batching]; rfl
    rw [hph]
    refine Rand.Post.bind (P := fun x => x = (d, t.ps.batch)) (Rand.Post.pure rfl) ?_
    rintro _ rfl
    refine Rand.Post.bind (C36_iteration Q.formats Q.ls S t.stats ⟨t.ps.pop, t.ps.ev, t.ps.counters, 0⟩
      ⟨fun m hm => (ht.ps.pop m hm).good, ht.ps.ev⟩) ?_
    rintro ⟨st, seen⟩ ⟨⟨j, pops, g1, g2, g3, g4, g5⟩, hok, -⟩
    simp only at g1 g3 g4 g5 hok ⊢
    rw [hph]
    refine Rand.Post.bind (P := fun x => x = (d, t.ps.batch)) (Rand.Post.pure rfl) ?_
    rintro _ rfl
    refine Rand.Post.bind (C58_rescored S d S.data rfl S.rows t.ps.ctx st hok.pop hok.ev.2) ?_
    rintro ⟨st2, ctx⟩ ⟨k1, k2, k3, k4, k5⟩
    simp only at k1 k2 k3 k4 k5 ⊢
    refine Rand.Post.bind (P := fun l => bestSubPop E.sort st2.pop o.topn = some l) (Rand.Post.lift fun _ h => h) ?_
    intro sub hsub
    refine Rand.Post.pure ⟨rfl, rfl, rfl, ⟨j, st, g1, k1, k3, k4, k5⟩, ⟨pops, ?_, ?_⟩, k2, hsub⟩
    · intro p hp
      obtain ⟨i, st1, -, h1, h2⟩ := g4 p hp
      exact ⟨i, st1, h1, h2⟩
    · rw [C25_update]
      simpa using g5
  unfold Task.run at h
  rw [Option.map_eq_some_iff] at h
  obtain ⟨⟨x, g⟩, h1, rfl⟩ := h
  have := hpost _ _ _ h1
  exact ⟨this.idx, this.cur, this.batch, this.evolved, this.seen, this.ev, this.sub⟩

/-- A sound result of a task. -/
structure TaskResult.Sound (o : SOptions K) (d : Dataset K) (ops : List OpId) (N : Nat) (r : TaskResult K) : Prop where
  cur : r.cur ≤ o.maxsize
  ps : r.ps.Sound o d ops N
  scored : ∀ m ∈ r.ps.pop, m.Scored o d
  seen : r.bestSeen.Sound o d ops N
  sub : ∀ m ∈ r.bestSub, m.Sound o d ops N

omit [IsStrictOrderedRing K] in
theorem TaskDone.sound (S : EvolSetting o d o.maxsize ops N) {t : Task K} (ht : t.Sound o d ops N) {r : TaskResult K}
    (h : TaskDone o d ops N t r) : r.Sound o d ops N := by
  obtain ⟨j, st, m1, m2, -, -, -⟩ := h.evolved
  have hsnd := m1.sound ht.ps.pop
  have hlen := (m1.keeps ⟨fun m hm => (ht.ps.pop m hm).good, ht.ps.ev⟩).2.1
  have hfin : ∀ m ∈ r.ps.pop, m.Good d ops N ∧ m.Scored o d := by
    have := (List.forall₂_iff_get.mp m2)
    intro m hm
    obtain ⟨i, hi, rfl⟩ := List.mem_iff_getElem.mp hm
    have h := this.2 i (this.1 ▸ hi) hi
    exact ⟨h.good, h.scored⟩
  have hpop : ∀ m ∈ r.ps.pop, m.Sound o d ops N := fun m hm => (hfin m hm).2.sound (hfin m hm).1
  refine ⟨by rw [h.cur]; exact ht.cur, ⟨?_, hpop, h.ev⟩, fun m hm => (hfin m hm).2, ?_, ?_⟩
  · rw [← m2.length_eq, hlen]; exact ht.ps.size
  · obtain ⟨pops, h1, h2⟩ := h.seen
    obtain ⟨h', e, hs⟩ := update_sound S ht.cur (t.ps.pop ++ pops.flatten) (Hall.Sound.new (d := d) (ops := ops) (N := N)) (by
      intro m hm
      rcases List.mem_append.mp hm with hm | hm
      · exact ht.ps.pop m hm
      · obtain ⟨p, hp, hm⟩ := List.mem_flatten.mp hm
        obtain ⟨i, st1, h3, rfl⟩ := h1 p hp
        exact h3.sound ht.ps.pop m hm)
    rw [h2] at e
    simp only [Option.some.injEq] at e
    rw [e]; exact hs
  · intro m hm; exact hpop m (bestSubPop_sub h.sub m hm)

end

/-- One migration keeps the population sound. -/
theorem migrate_sound {dst migrants : List (Member K)} (frac : Fl K) (c : Counters)
    (hd : ∀ m ∈ dst, m.Sound o d ops N) (hm : ∀ m ∈ migrants, m.Sound o d ops N) :
    Rand.Post (migrate dst migrants frac c) fun r => r.1.length = dst.length ∧ ∀ m ∈ r.1, m.Sound o d ops N := by
  refine (C30_migrate E.R _ dst migrants frac c).mono ?_
  rintro r ⟨hl, n, -, -, -, -, slot, src, h1, h2⟩
  refine ⟨hl, fun m hmem => ?_⟩
  obtain ⟨i, hi, he⟩ := List.mem_iff_getElem.mp hmem
  have hi' : r.1[i]? = some m := by rw [List.getElem?_eq_getElem hi, he]
  rcases h2 i with ⟨k, hk, -, -, h3⟩ | ⟨-, h3⟩
  · rw [hi', Option.some.injEq] at h3
    have := hm _ (h1 k hk).2
    rw [h3]
    exact this.copy rfl ⟨this.good.expr, this.good.plan⟩ rfl rfl rfl
  · rw [hi'] at h3
    exact hd m (List.mem_of_getElem? h3.symm)

theorem migrations_sound {candidates front pop : List (Member K)} (c : Counters)
    (hc : ∀ m ∈ candidates, m.Sound o d ops N) (hf : ∀ m ∈ front, m.Sound o d ops N)
    (hp : ∀ m ∈ pop, m.Sound o d ops N) :
    Rand.Post (migrations o candidates front pop c) fun r => r.1.length = pop.length ∧ ∀ m ∈ r.1, m.Sound o d ops N := by
  unfold migrations
  have h2 : ∀ (p : Population K × Counters), (p.1.length = pop.length ∧ ∀ m ∈ p.1, m.Sound o d ops N) →
      Rand.Post (if o.hofMigration then migrate p.1 front o.fractionReplacedHof p.2 else pure (p.1, p.2))
        fun r => r.1.length = pop.length ∧ ∀ m ∈ r.1, m.Sound o d ops N := by
    rintro ⟨p1, c1⟩ ⟨hl, hs⟩
    simp only at hl hs ⊢
    split
    · exact (migrate_sound _ _ hs hf).mono fun r h => ⟨h.1.trans hl, h.2⟩
    · exact Rand.Post.pure ⟨hl, hs⟩
  simp only
  split
  · exact Rand.Post.bind (migrate_sound _ _ hp hc) fun p hp => h2 p hp
  · exact Rand.Post.bind (Rand.Post.pure (P := fun r => r = (pop, c)) rfl) fun p e => h2 p (by subst e; exact ⟨rfl, hp⟩)

/-- Absorbing sound members. -/
theorem absorb_sound (S : EvolSetting o d o.maxsize ops N) (hcur : cur ≤ o.maxsize) {ms : List (Member K)}
    {h h' : Hall K} {b b' : Member K} (hms : ∀ m ∈ ms, m.Sound o d ops N ∧ m.Scored o d) (hh : h.Sound o d ops N)
    (hb : b.Sound o d ops N ∧ b.Scored o d) (he : absorbMembers o cur ms (h, b) = some (h', b')) :
    h'.Sound o d ops N ∧ b'.Sound o d ops N ∧ b'.Scored o d := by
  induction ms generalizing h b with
  | nil =>
    simp only [absorbMembers, Option.some.injEq, Prod.mk.injEq] at he
    obtain ⟨rfl, rfl⟩ := he
    exact ⟨hh, hb⟩
  | cons m ms ih =>
    simp only [absorbMembers, Option.bind_eq_bind, Option.bind_eq_some_iff] at he
    obtain ⟨h1, e1, ok, -, he⟩ := he
    obtain ⟨h2, e2, s2⟩ := consider_sound S hcur hh (hms m (by simp)).1
    rw [e1, Option.some.injEq] at e2
    subst e2
    refine ih (fun x hx => hms x (by simp [hx])) s2 ?_ he
    split
    · exact hms m (by simp)
    · exact hb

omit [Field K] [LinearOrder K] E in
theorem candidates_sub {bs : List (List (Member K))} {i : Nat} : ∀ m ∈ migrationCandidates bs i, ∃ l ∈ bs, m ∈ l := by
  intro m hm
  unfold migrationCandidates at hm
  rw [List.mem_flatten] at hm
  obtain ⟨l, hl, hm⟩ := hm
  rw [List.mem_filterMap] at hl
  obtain ⟨x, hx, he⟩ := hl
  split at he
  · simp only [Option.some.injEq] at he
    subst he
    exact ⟨x.1, List.fst_mem_of_mem_zipIdx hx, hm⟩
  · cases he

theorem apply_sound (S : EvolSetting o d o.maxsize ops N) {s s' : Shared K} {r : TaskResult K}
    (hs : s.Sound o d ops N) (hr : r.Sound o d ops N) (h : s.apply o r = some s') : s'.Sound o d ops N := by
  obtain ⟨a1, a2, a3, -, a5, -, ⟨hall, h1, h2⟩, pop, counters, rng, h3, h4⟩ := apply_result h
  obtain ⟨hall', e, hh⟩ := update_sound S hr.cur r.bestSeen.members hs.hall hr.seen.members
  rw [h1, Option.some.injEq] at e
  subst e
  obtain ⟨k1, k2⟩ := absorb_sound S hr.cur (fun m hm => ⟨hr.ps.pop m hm, hr.scored m hm⟩) hh ⟨hs.best, hs.bestScored⟩ h2
  have hbs : ∀ l ∈ s'.bestSub, ∀ m ∈ l, m.Sound o d ops N := by
    rw [a5]
    intro l hl
    rcases List.mem_or_eq_of_mem_set hl with hl | rfl
    · exact hs.bestSub l hl
    · exact hr.sub
  have hmig := migrations_sound (o := o) r.ps.counters
    (fun m hm => let ⟨l, hl, hm⟩ := candidates_sub m hm; hbs l hl m hm)
    (fun m hm => k1.members m ((paretoLoop_sub _ _).subset hm)) hr.ps.pop _ _ _ h3
  refine ⟨k1, ?_, hbs, k2.1, k2.2, by rw [a3]; exact hs.total⟩
  rw [h4]
  intro ps hps
  rcases List.mem_or_eq_of_mem_set hps with hps | hps
  · exact hs.pops ps hps
  · simp only [Option.some.injEq] at hps
    subst hps
    exact ⟨hmig.1.trans hr.ps.size, hmig.2, hr.ps.ev⟩

theorem dispatch_sound (Q : SearchSetting o d ops N) {s s' : Shared K} {i : Nat} {t : Task K} (hs : s.Sound o d ops N)
    (h : s.dispatch o i = some (some t, s')) : t.Sound o d ops N ∧ s'.Sound o d ops N := by
  obtain ⟨h1, -, -, h4, rfl⟩ := dispatch_task h
  rw [hs.total] at h4
  refine ⟨⟨hs.pops _ (List.mem_of_getElem? h1), Q.warmup _ _ h4⟩, hs.hall, ?_, hs.bestSub, hs.best, hs.bestScored, hs.total⟩
  intro ps hps
  rcases List.mem_or_eq_of_mem_set hps with hps | hps
  · exact hs.pops ps hps
  · cases hps

/-! ## Initialisation -/

theorem randomExprAppend_small {F T : Type} [Scalar T] (normal : F → F → T) (operators : Operators) (nf k mx : Nat) :
    Rand.Post (randomExprAppendOps normal operators nf k mx : Rand F (PostfixExpr T))
      fun e => e.consts.length ≤ e.nodes.length := by
  unfold randomExprAppendOps
  refine Rand.Post.bind Rand.Post.true fun e _ => ?_
  unfold compressR
  refine Rand.Post.lift fun a ha => ?_
  rw [Option.map_eq_some_iff] at ha
  obtain ⟨⟨e', ch⟩, h1, rfl⟩ := ha
  exact compressConstants_small h1

/-- The state of the initialisation is sound. -/
structure InitState.Sound (o : SOptions K) (d : Dataset K) (ops : List OpId) (N : Nat) (st : InitState K) : Prop where
  members : ∀ m ∈ st.members, m.Sound o d ops N ∧ m.Scored o d
  ev : st.ev.Ready d
  hall : st.hall.Sound o d ops N

/-- Initialising a member never panics. -/
theorem initMember_sound (S : EvolSetting o d o.maxsize ops N) (hN : max o.maxsize 1 ≤ N) (st : InitState K)
    (hst : st.Sound o d ops N) :
    Rand.Total (initMember o d st) fun st' => st'.Sound o d ops N ∧ st'.counters = st.counters.tick ∧
      ∃ m, st'.members = st.members ++ [m] ∧ m.id = st.counters.nextId ∧ m.parent = none ∧
        m.birth = st.counters.nextBirth := by
  unfold initMember
  have hx : Rand.Total (randomExprAppendOps normalT o.operators d.x.rows 3 o.maxsize : Rand (Fl K) (PostfixExpr (Fl K)))
      (fun e => GoodExpr ops d.x.rows N e) := by
    rw [S.operators]
    refine ((C20_random_append (normal := normalT) (D := E.D) (ops := ops)
      (fun op h => ⟨(S.ops_ok op h).1, (S.ops_ok op h).2.1⟩) S.nf_pos (by have := S.nf_le; omega) 3 o.maxsize
      S.maxsize_le).and_post (randomExprAppend_small _ _ _ _ _)).mono ?_
    rintro e ⟨⟨⟨t, hn, hu⟩, h2, -⟩, h3⟩
    have hl : e.nodes.length = t.size := by rw [hn, length_toPostfix]
    exact ⟨t, hn, hu, by omega, by omega⟩
  refine Rand.Total.bind hx fun e he => ?_
  obtain ⟨b, b', ok, ev', h1, h2, h3, h4, h5, h6, -, h8, h9, -⟩ := born_spec S he st.counters.nextId none
    st.counters.nextBirth st.ev hst.ev
  refine Rand.Total.bind (Rand.Total.lift (P := fun r => r = _) ⟨_, h1, rfl⟩) ?_
  rintro _ rfl
  refine Rand.Total.bind (Rand.Total.lift (P := fun r => r = _) ⟨_, h2, rfl⟩) ?_
  rintro _ rfl
  obtain ⟨hall', e1, e2⟩ := consider_sound S (Nat.le_refl _) hst.hall (h9.sound h8)
  refine Rand.Total.bind (Rand.Total.lift (P := fun r => r = _) ⟨_, e1, rfl⟩) ?_
  rintro _ rfl
  refine Rand.Total.pure ⟨⟨?_, h3, e2⟩, rfl, b', rfl, h4, h5, h6⟩
  intro m hm
  rcases List.mem_append.mp hm with hm | hm
  · exact hst.members m hm
  · rw [List.mem_singleton.mp hm]; exact ⟨h9.sound h8, h9⟩

theorem initMembers_sound (S : EvolSetting o d o.maxsize ops N) (hN : max o.maxsize 1 ≤ N) : ∀ (k : Nat)
    (st : InitState K), st.Sound o d ops N →
    Rand.Total (initMembers o d k st) fun st' => st'.Sound o d ops N ∧
      st'.counters.nextId = st.counters.nextId + k ∧ st'.counters.nextBirth = st.counters.nextBirth + k ∧
      ∃ ms, st'.members = st.members ++ ms ∧ ms.map (·.id) = (List.range k).map (st.counters.nextId + ·) ∧
        ms.map (·.birth) = (List.range k).map (st.counters.nextBirth + ·) ∧ ms.length = k
  | 0, st, h => Rand.Total.pure ⟨h, rfl, rfl, [], by simp, rfl, rfl, rfl⟩
  | k + 1, st, h => by
    unfold initMembers
    refine Rand.Total.bind (initMember_sound S hN st h) ?_
    rintro st1 ⟨s1, c1, m, e1, i1, -, b1⟩
    refine (initMembers_sound S hN k st1 s1).mono ?_
    rintro st2 ⟨s2, c2, c3, ms, e2, i2, b2, l2⟩
    have hid : st1.counters.nextId = st.counters.nextId + 1 := by rw [c1]; rfl
    have hb : st1.counters.nextBirth = st.counters.nextBirth + 1 := by rw [c1]; rfl
    refine ⟨s2, by omega, by omega, m :: ms, by rw [e2, e1]; simp, ?_, ?_, by simp [l2]⟩
    · rw [List.map_cons, i2, i1, hid, List.range_succ_eq_map, List.map_cons, List.map_map]
      congr 1
      apply List.map_congr_left
      intro x _
      show st.counters.nextId + 1 + x = st.counters.nextId + (x + 1)
      omega
    · rw [List.map_cons, b2, b1, hb, List.range_succ_eq_map, List.map_cons, List.map_map]
      congr 1
      apply List.map_congr_left
      intro x _
      show st.counters.nextBirth + 1 + x = st.counters.nextBirth + (x + 1)
      omega

end SR
