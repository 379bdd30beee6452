import Verif.Proofs.Isolated
import Verif.Props.Cases
/-
C98: without exchange between the populations, the schedule of the multi-worker driver does not matter.
-/
namespace SR
variable {K : Type} [Field K] [LinearOrder K] [E : Env K]
variable {o : SOptions K} {d : Dataset K} {ops : List OpId} {N np : Nat}

theorem allTasks_length (n np : Nat) : (allTasks n np).length = n * np := by
  simp [allTasks, List.length_flatMap]

theorem mem_allTasks {n np : Nat} {x : Nat × Nat} : x ∈ allTasks n np ↔ x.1 < n ∧ x.2 < np := by
  obtain ⟨k, i⟩ := x
  simp [allTasks]

/-- C98: the populations live their own lives.  In every state the multi-worker driver reaches, with any number of workers and
under any order of results, a population that is in the pool is what it becomes on its own by as many tasks as there were finished
iterations, or one more; and a population that is being worked on is what it becomes on its own in the finished iterations. -/
theorem C98_stages (I : Isolated o) {nw : Nat} {p q : Par K} {tr : List ParEvent} (h0 : p.Fresh o np) (h : ParRun o d nw p tr q)
    {i : Nat} {ps0 : PopState K} (hi : p.shared.pops[i]? = some (some ps0)) :
    (∀ ps, q.shared.pops[i]? = some (some ps) → ∃ k, q.iter - 1 ≤ k ∧ k ≤ q.iter ∧ stage o d np p.orderRng i ps0 k = some ps) ∧
    (∀ t ∈ q.pending, t.popIdx = i → stage o d np p.orderRng i ps0 (q.iter - 1) = some t.ps ∧
      limitOf o np p.orderRng i (q.iter - 1) = some t.cur) := by
  obtain ⟨rs, ks, -, H⟩ := IsoInv.run I h0 h
  refine ⟨fun ps hps => ?_, fun t ht e => by subst e; exact H.away t ht ps0 hi⟩
  by_cases hpc : q.pc = .idle
  · exact ⟨q.iter, by omega, Nat.le_refl _, H.idle hpc i ps0 ps hi hps⟩
  · refine ⟨_, ?_, ?_, H.home hpc i ps0 ps hi hps⟩
    · split <;> omega
    · split <;> omega

/-- C98: when the search is over every population is what it becomes on its own by `niterations` tasks, and the results that were
received are, in some order, those of these tasks. -/
theorem C98_lives (I : Isolated o) {nw : Nat} {p q : Par K} {tr : List ParEvent} (h0 : p.Fresh o np) (h : ParRun o d nw p tr q)
    (hf : q.Final o) :
    (∀ i < np, ∃ ps0 ps, p.shared.pops[i]? = some (some ps0) ∧ q.shared.pops[i]? = some (some ps) ∧
      stage o d np p.orderRng i ps0 o.niterations = some ps) ∧
    ∃ rs, History o d p.shared rs q.shared [] ∧
      (rs.map some).Perm ((allTasks o.niterations np).map (ownResult o d np p.orderRng p.shared.pops)) := by
  obtain ⟨rs, ks, hh, H⟩ := IsoInv.run I h0 h
  have hi := (h0.inv nw).run h
  have hit : q.iter = o.niterations := Nat.le_antisymm hi.iter hf.2
  obtain ⟨-, hp, hpres, hcomp, -, -⟩ := C44_complete h0 h hf
  rw [hp] at hh
  refine ⟨fun i hlt => ?_, rs, hh, ?_⟩
  · obtain ⟨ps0, e0⟩ := h0.shared.present i hlt
    obtain ⟨ps, e⟩ := hpres i hlt
    exact ⟨ps0, ps, e0, e, hit ▸ H.idle hf.1 i ps0 ps e0 e⟩
  · rw [H.results]
    refine List.Perm.map _ ?_
    refine (List.subperm_of_subset H.nodup fun x hx => ?_).perm_of_length_le ?_
    · have := H.range x hx
      exact mem_allTasks.mpr ⟨hit ▸ this.2.1 hf.1, this.1⟩
    · rw [allTasks_length, H.count, hcomp]

theorem pops_ext {s s' : Shared K} (h1 : s.pops.length = np) (h2 : s'.pops.length = np)
    (h : ∀ i < np, s.pops[i]? = s'.pops[i]?) : s.pops = s'.pops := by
  refine List.ext_getElem? fun i => ?_
  by_cases hi : i < np
  · exact h i hi
  · rw [List.getElem?_eq_none (by omega), List.getElem?_eq_none (by omega)]

theorem History.evals {s0 s : Shared K} {rs : List (TaskResult K)} {pend : List (Task K)} (h : History o d s0 rs s pend) :
    s.totalEvals = rs.foldl (fun a r => satAdd64 a r.evals) s0.totalEvals := by
  induction h with
  | init => rfl
  | dispatch _ hd ih => obtain ⟨-, -, -, -, rfl⟩ := dispatch_task hd; exact ih
  | apply _ _ ha ih => rw [(apply_result ha).2.2.2.2.2.1, List.foldl_append, ih]; rfl

theorem evals_perm {rs rs' : List (TaskResult K)} (h : rs.Perm rs') (a : Nat) :
    rs.foldl (fun a r => satAdd64 a r.evals) a = rs'.foldl (fun a r => satAdd64 a r.evals) a := by
  refine h.foldl_eq' (fun x _ y _ z => ?_) a
  unfold satAdd64
  omega

theorem results_perm {rs rs' : List (TaskResult K)} {l : List (Option (TaskResult K))} (h : (rs.map some).Perm l)
    (h' : (rs'.map some).Perm l) : rs.Perm rs' := by
  have := (h.trans h'.symm).filterMap id
  simpa [List.filterMap_map] using this

/-! ## The best member -/

omit [Field K] E in
theorem flLe_antisymm {a b : Fl K} (h1 : a.le b = true) (h2 : b.le a = true) : a = b := by
  cases a <;> cases b <;> simp [Fl.le] at h1 h2 ⊢
  exact le_antisymm h1 h2

section
variable [IsStrictOrderedRing K]

theorem History.best_le (Q : SearchSetting o d ops N) {s0 s : Shared K} {rs : List (TaskResult K)} {pend : List (Task K)}
    (h0 : s0.Sound o d ops N) (h : History o d s0 rs s pend) : s.best.loss.le s0.best.loss = true := by
  induction h with
  | init => exact Fl.le_refl h0.best.loss_not_nan
  | dispatch _ hd ih => obtain ⟨-, -, -, -, rfl⟩ := dispatch_task hd; exact ih
  | @apply rs s s' l r t res h hrun ha ih =>
    obtain ⟨k1, k2, k3⟩ := (h.apply hrun ha).sound Q h0
    have hres := k3 res (by simp)
    obtain ⟨-, -, -, -, -, -, ⟨hall, -, he⟩, -⟩ := apply_result ha
    obtain ⟨-, -, a3, -⟩ := absorb_best (fun m hm => (hres.ps.pop m hm).loss_not_nan) (h.sound Q h0).1.best.loss_not_nan he
    exact Fl.le_trans a3 ih

omit [IsStrictOrderedRing K] in
theorem best_le_best {s0 : Shared K} {rs rs' : List (TaskResult K)} {b b' : Member K} (h : BestSpec o d s0 rs b)
    (h' : BestSpec o d s0 rs' b') (hsub : ∀ r ∈ rs', r ∈ rs) (hle : b.loss.le s0.best.loss = true) : b.loss.le b'.loss = true := by
  rcases h'.origin with ⟨ps, hps, hm⟩ | ⟨r, hr, hm, hf⟩
  · rcases h'.feasible with hf | ⟨rfl, -⟩
    · exact h.initial ps hps b' hm hf
    · exact hle
  · exact h.results r (hsub r hr) b' hm hf
end

/-! ## The hall of fame -/

/-- What the results offer to the hall of fame. -/
def offersOf (rs : List (TaskResult K)) : List (Offer K) :=
  rs.flatMap fun r => (r.bestSeen.members ++ r.ps.pop).map fun m => (r.cur, m)

omit [Field K] E in
theorem absorb_offers {cur : Nat} {ms : List (Member K)} {h h' : Hall K} {b b' : Member K}
    (he : absorbMembers o cur ms (h, b) = some (h', b')) : offerAll o.cx h (ms.map fun m => (cur, m)) = some h' := by
  induction ms generalizing h b with
  | nil =>
    simp only [absorbMembers, Option.some.injEq, Prod.mk.injEq] at he
    rw [← he.1]; rfl
  | cons m ms ih =>
    simp only [absorbMembers, Option.bind_eq_bind, Option.bind_eq_some_iff] at he
    obtain ⟨h1, e1, ok, -, he⟩ := he
    have := ih he
    unfold offerAll at this ⊢
    rw [List.map_cons, List.foldlM_cons, e1]
    exact this

theorem History.offers {s0 s : Shared K} {rs : List (TaskResult K)} {pend : List (Task K)} (h : History o d s0 rs s pend) :
    offerAll o.cx s0.hall (offersOf rs) = some s.hall := by
  induction h with
  | init => rfl
  | dispatch _ hd ih => obtain ⟨-, -, -, -, rfl⟩ := dispatch_task hd; exact ih
  | apply _ _ ha ih =>
    obtain ⟨-, -, -, -, -, -, ⟨hall, h1, h2⟩, -⟩ := apply_result ha
    rw [offersOf, List.flatMap_append, offerAll_append]
    rw [show offerAll o.cx _ (List.flatMap _ _) = _ from ih, Option.bind_some]
    simp only [List.flatMap_cons, List.flatMap_nil, List.append_nil, List.map_append]
    rw [offerAll_append, ← update_eq_offerAll, h1, Option.bind_some]
    exact absorb_offers h2

omit [Field K] E in
theorem slotFold_perm {l l' : List (Member K)} (h : l.Perm l') (hn : ∀ m ∈ l, m.cost.isNan = false) (s : Option (Member K))
    (hs : ∀ m, s = some m → m.cost.isNan = false) :
    (l.foldl slotStep s).map Member.cost = (l'.foldl slotStep s).map Member.cost := by
  have hn' : ∀ m ∈ l', m.cost.isNan = false := fun m hm => hn m (h.mem_iff.mpr hm)
  have key : ∀ (b b' : Member K) (k k' : List (Member K)), (b :: k).Perm (b' :: k') → (∀ m ∈ b :: k, m.cost.isNan = false) →
      (k.foldl slotStep (some b)).map Member.cost = (k'.foldl slotStep (some b')).map Member.cost := by
    intro b b' k k' hp hnn
    have hnn' : ∀ m ∈ b' :: k', m.cost.isNan = false := fun m hm => hnn m (hp.mem_iff.mpr hm)
    obtain ⟨m, e, n1, pre, post, q1, -, q2⟩ := slotFold_num b (hnn b (by simp)) k
    obtain ⟨m', e', n1', pre', post', q1', -, q2'⟩ := slotFold_num b' (hnn' b' (by simp)) k'
    rw [e, e', Option.map_some, Option.map_some]
    have hm : m ∈ b :: k := by rw [q1]; simp
    have hm' : m' ∈ b' :: k' := by rw [q1']; simp
    rw [flLe_antisymm (q2 m' (hp.mem_iff.mpr hm') n1') (q2' m (hp.mem_iff.mp hm) n1)]
  cases s with
  | some b =>
    refine key b b l l' (h.cons b) fun m hm => ?_
    rcases List.mem_cons.mp hm with rfl | hm
    · exact hs _ rfl
    · exact hn m hm
  | none =>
    cases l with
    | nil => rw [List.nil_perm.mp h]
    | cons b k =>
      cases l' with
      | nil => cases (List.perm_nil.mp h)
      | cons b' k' => exact key b b' k k' h hn

omit [Field K] E in
theorem hall_perm {cx : CxOptions} (hw : cx.WF) {h h1 h2 : Hall K} {a b : List (Offer K)} (hab : a.Perm b)
    (hoff : ∀ x ∈ a, x.1 < usizeMax ∧ x.2.IsTree cx.D) (hnum : ∀ x ∈ a, x.2.cost.isNan = false)
    (hh : ∀ (c : Nat) (m : Member K), h[c]? = some (some m) → m.cost.isNan = false)
    (e1 : offerAll cx h a = some h1) (e2 : offerAll cx h b = some h2) :
    h1.map (Option.map Member.cost) = h2.map (Option.map Member.cost) := by
  classical
  obtain ⟨h1', e1', -, s1⟩ := offerAll_spec cx hw a hoff h
  obtain ⟨h2', e2', -, s2⟩ := offerAll_spec cx hw b (fun x hx => hoff x (hab.mem_iff.mpr hx)) h
  rw [e1, Option.some.injEq] at e1'
  rw [e2, Option.some.injEq] at e2'
  subst e1' e2'
  refine List.ext_getElem? fun c => ?_
  rw [List.getElem?_map, List.getElem?_map, s1 c, s2 c]
  by_cases hc : c = 0
  · rw [if_pos hc, if_pos hc]
  · rw [if_neg hc, if_neg hc]
    cases hx : h[c]? with
    | none => rfl
    | some s =>
      simp only [Option.map_some, Option.some.injEq]
      refine slotFold_perm ?_ ?_ s fun m e => hh c m (by rw [hx, e])
      · unfold cands
        exact (hab.filter _).map _
      · intro m hm
        obtain ⟨cur, hm, -⟩ := mem_cands.mp hm
        exact hnum _ hm

section
variable [IsStrictOrderedRing K]

/-- Two histories whose results are the same up to order leave the same costs in the hall of fame and the same loss of the best. -/
theorem histories_agree (Q : SearchSetting o d ops N) {s0 s s' : Shared K} {rs rs' : List (TaskResult K)} (h0 : s0.Sound o d ops N)
    (hb : BestSpec o d s0 [] s0.best) (h : History o d s0 rs s []) (h' : History o d s0 rs' s' []) (hp : rs.Perm rs') :
    s.totalEvals = s'.totalEvals ∧ s.best.loss = s'.best.loss ∧
      s.hall.map (Option.map Member.cost) = s'.hall.map (Option.map Member.cost) := by
  refine ⟨?_, ?_, ?_⟩
  · rw [h.evals, h'.evals, evals_perm hp]
  · exact flLe_antisymm
      (best_le_best (h.best Q h0 hb) (h'.best Q h0 hb) (fun r hr => hp.mem_iff.mpr hr) (h.best_le Q h0))
      (best_le_best (h'.best Q h0 hb) (h.best Q h0 hb) (fun r hr => hp.mem_iff.mp hr) (h'.best_le Q h0))
  · have hs := (h.sound Q h0).2.2
    have hsound : ∀ x ∈ offersOf rs, x.1 ≤ o.maxsize ∧ x.2.Sound o d ops N := by
      intro x hx
      obtain ⟨r, hr, hx⟩ := List.mem_flatMap.mp hx
      obtain ⟨m, hm, rfl⟩ := List.mem_map.mp hx
      refine ⟨(hs r hr).cur, ?_⟩
      rcases List.mem_append.mp hm with hm | hm
      · exact (hs r hr).seen.members m hm
      · exact (hs r hr).ps.pop m hm
    refine hall_perm Q.evol.cx (hp.flatMap_right _) (fun x hx => ?_) (fun x hx => ?_) (fun c m hm => ?_) h.offers h'.offers
    · exact ⟨by have := (hsound x hx).1; have := Q.evol.cur_lt; omega, Q.evol.isTree (hsound x hx).2.good⟩
    · exact (hsound x hx).2.cost_not_nan Q.evol Q.costs
    · exact (h0.hall.entry c m hm).1.cost_not_nan Q.evol Q.costs

/-- C98: with populations that exchange nothing, the outcome of the multi-worker search does not depend on the schedule: any two
runs to the end, with any two numbers of workers and any orders of results, end with the same outcome. -/
theorem C98_schedule (I : Isolated o) (Q : SearchSetting o d ops N) {seeds : Nat → Rng (Fl K)} {orderRng : Rng (Fl K)} {nw nw' : Nat}
    {p q q' : Par K} {tr tr' : List ParEvent} (hnew : Par.new o d seeds orderRng = some p) (h : ParRun o d nw p tr q)
    (hf : q.Final o) (h' : ParRun o d nw' p tr' q') (hf' : q'.Final o) : q.shared.SameOutcome q'.shared := by
  rw [Par.new, Option.map_eq_some_iff] at hnew
  obtain ⟨s, hi, rfl⟩ := hnew
  obtain ⟨s', h3, h4, hfr, -⟩ := C59_init Q seeds
  rw [hi, Option.some.injEq] at h3
  subst h3
  have h0 : Par.Fresh o o.populations (⟨s, orderRng, .idle, 0, [], 0, 0, []⟩ : Par K) := ⟨hfr, rfl, rfl, rfl, rfl⟩
  obtain ⟨l, rs, hh, hr⟩ := C98_lives I h0 h hf
  obtain ⟨l', rs', hh', hr'⟩ := C98_lives I h0 h' hf'
  obtain ⟨a1, a2, a3⟩ := histories_agree Q h4 (BestSpec.init Q hi) hh hh' (results_perm hr hr')
  have hv := (h0.inv nw).run h
  have hv' := (h0.inv nw').run h'
  refine ⟨pops_ext hv.pops hv'.pops fun i hlt => ?_, a1, ?_, a2, a3⟩
  · obtain ⟨ps0, ps, e0, e1, e2⟩ := l i hlt
    obtain ⟨ps0', ps', e0', e1', e2'⟩ := l' i hlt
    rw [e0] at e0'
    cases e0'
    rw [e2] at e2'
    cases e2'
    rw [e1, e1']
  · have c := (C44_complete h0 h hf).2.2.2.1
    have c' := (C44_complete h0 h' hf').2.2.2.1
    have t := hv.total
    have t' := hv'.total
    have e := (C44_safety h0 h).2.2.2.2.2.1
    have e' := (C44_safety h0 h').2.2.2.2.2.1
    rw [(C44_complete h0 h hf).2.1] at e
    rw [(C44_complete h0 h' hf').2.1] at e'
    simp only [List.length_nil, Nat.add_zero] at e e'
    cases hx : q.shared.counters
    cases hx' : q'.shared.counters
    rw [hx] at c t e
    rw [hx'] at c' t' e'
    simp only at c c' t t' e e'
    subst e e' c t
    rw [c', t']

/-- C98: and that outcome is the one of the step-wise search with the same seeds. -/
theorem C98_stepwise (I : Isolated o) (Q : SearchSetting o d ops N) {seeds : Nat → Rng (Fl K)} {orderRng : Rng (Fl K)} {nw : Nat}
    {p q : Par K} {tr : List ParEvent} {e e' : Engine K} (hnew : Par.new o d seeds orderRng = some p)
    (hnew' : Engine.new o d seeds orderRng = some e) (h : ParRun o d nw p tr q) (hf : q.Final o) (he : e.RunsTo o d e') :
    q.shared.SameOutcome e'.shared := by
  have hn := hnew
  rw [Par.new, Option.map_eq_some_iff] at hn
  obtain ⟨s, hi, rfl⟩ := hn
  rw [Engine.new, hi, Option.map_some, Option.some.injEq] at hnew'
  subst hnew'
  obtain ⟨s', h3, h4, hfr, -⟩ := C59_init Q seeds
  rw [hi, Option.some.injEq] at h3
  subst h3
  have h0 : Par.Fresh o o.populations (⟨s, orderRng, .idle, 0, [], 0, 0, []⟩ : Par K) := ⟨hfr, rfl, rfl, rfl, rfl⟩
  have h0' : Engine.Fresh o o.populations (⟨s, orderRng, 0, [], 0, false⟩ : Engine K) := ⟨hfr, rfl, rfl, rfl⟩
  obtain ⟨⟨tr1, q1, g1, g2, g3⟩, -⟩ := (C47_same_result Q.populations h0 h0' rfl rfl).2 e' he
  rw [← g3]
  exact C98_schedule I Q hnew h hf g1 g2
end

end SR
