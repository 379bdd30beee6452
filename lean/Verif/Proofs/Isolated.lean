import Verif.Spec.Isolated
import Verif.Props.Best
/-
Proofs for C98.
-/
namespace SR
variable {K : Type} [Field K] [LinearOrder K] [E : Env K]
variable {o : SOptions K} {d : Dataset K}

theorem Isolated.score (I : Isolated o) (s s' : Stats K) (p : Population K) :
    scoreIdx E.R E.libm o.tour s p = scoreIdx E.R E.libm o.tour s' p := by
  funext i
  simp only [scoreIdx, adjustedCost, I.tournament, Bool.false_eq_true, if_false]

theorem Isolated.sample (I : Isolated o) (s s' : Stats K) (p : Population K) :
    bestOfSample E.R E.sort E.libm E.fuel o.tour s p = bestOfSample E.R E.sort E.libm E.fuel o.tour s' p := by
  unfold bestOfSample
  rw [I.score s s']

theorem Isolated.prob (I : Isolated o) (s s' : Stats K) (t : Fl K) (m b : Member K) :
    acceptProb o s t m b = acceptProb o s' t m b := by
  simp only [acceptProb, I.acceptance, Bool.false_eq_true, if_false]

theorem Isolated.gen (I : Isolated o) (s s' : Stats K) (cur : Nat) (t : Fl K) (ev : Evaluator K) (c : Counters) (m : Member K) :
    nextGeneration o d cur t s ev c m = nextGeneration o d cur t s' ev c m := by
  unfold nextGeneration generationWith
  simp only [I.prob s s']

theorem Isolated.evol (I : Isolated o) (s s' : Stats K) (cur : Nat) (t : Fl K) (st : EvolState K) :
    evolStep o d cur t s st = evolStep o d cur t s' st := by
  unfold evolStep mutationStep crossoverStep
  simp only [I.sample s s', I.gen s s']

theorem Isolated.evolLoop (I : Isolated o) (s s' : Stats K) (cur : Nat) (t : Fl K) (k : Nat) (st : EvolState K) :
    evolLoop o d cur t s k st = SR.evolLoop o d cur t s' k st := by
  induction k generalizing st with
  | zero => rfl
  | succ k ih =>
    unfold SR.evolLoop
    rw [I.evol s s']
    exact congrArg _ (funext fun st => ih st)

theorem Isolated.srLoop (I : Isolated o) (s s' : Stats K) (cur n k : Nat) (st : EvolState K) (b : Hall K) :
    srLoop o d cur s n k st b = SR.srLoop o d cur s' n k st b := by
  induction k generalizing st b with
  | zero => rfl
  | succ k ih =>
    unfold SR.srLoop regEvolCycle
    rw [I.evolLoop s s']
    refine congrArg _ (funext fun st => congrArg _ (funext fun b => ih st b))

/-- The statistics handed to a task do not matter. -/
theorem Isolated.run (I : Isolated o) (s s' : Stats K) (i cur : Nat) (ps : PopState K) :
    Task.run o d ⟨i, cur, s, ps⟩ = Task.run o d ⟨i, cur, s', ps⟩ := by
  unfold Task.run taskBody srCycle
  simp only [I.srLoop s s']

theorem Isolated.migrations (I : Isolated o) (a b : List (Member K)) (p : Population K) (c : Counters) :
    migrations o a b p c = pure (p, c) := by
  unfold SR.migrations
  rw [I.migration, I.hofMigration]
  rfl

theorem Isolated.applied (I : Isolated o) {s s' : Shared K} {r : TaskResult K} (h : s.apply o r = some s') :
    s'.pops = s.pops.set r.popIdx (some r.ps) := by
  obtain ⟨-, -, -, -, -, -, -, pop, c, g, h1, h2⟩ := apply_result h
  rw [I.migrations] at h1
  simp only [pure, Rand.pure, Option.some.injEq, Prod.mk.injEq] at h1
  obtain ⟨⟨rfl, rfl⟩, rfl⟩ := h1
  exact h2

theorem orderOf_perm {np k : Nat} {g : Rng (Fl K)} {l : List Nat} (h : orderOf np g k = some l) : l.Perm (List.range np) := by
  unfold orderOf at h
  obtain ⟨g', -, h⟩ := Option.bind_eq_some_iff.mp h
  obtain ⟨x, h2, e⟩ := Option.map_eq_some_iff.mp h
  subst e
  exact shuffle_range_perm (g' := x.2) h2

/-- The state of the multi-worker driver with isolated populations: `ks` are the tasks whose results were applied. -/
structure IsoInv (o : SOptions K) (d : Dataset K) (np : Nat) (p0 p : Par K) (rs : List (TaskResult K)) (ks : List (Nat × Nat)) : Prop where
  rng : rngAfter np p0.orderRng p.iter = some p.orderRng
  order : p.pc ≠ .idle → orderOf np p0.orderRng (p.iter - 1) = some p.order
  idle : p.pc = .idle → ∀ (i : Nat) (ps0 ps : PopState K), p0.shared.pops[i]? = some (some ps0) →
    p.shared.pops[i]? = some (some ps) → stage o d np p0.orderRng i ps0 p.iter = some ps
  home : p.pc ≠ .idle → ∀ (i : Nat) (ps0 ps : PopState K), p0.shared.pops[i]? = some (some ps0) →
    p.shared.pops[i]? = some (some ps) →
    stage o d np p0.orderRng i ps0 (if i ∈ p.order.take p.nextTask then p.iter else p.iter - 1) = some ps
  away : ∀ t ∈ p.pending, ∀ (ps0 : PopState K), p0.shared.pops[t.popIdx]? = some (some ps0) →
    stage o d np p0.orderRng t.popIdx ps0 (p.iter - 1) = some t.ps ∧ limitOf o np p0.orderRng t.popIdx (p.iter - 1) = some t.cur
  results : rs.map some = ks.map (ownResult o d np p0.orderRng p0.shared.pops)
  nodup : ks.Nodup
  count : ks.length = p.shared.counters.completed
  range : ∀ x ∈ ks, x.2 < np ∧ (p.pc = .idle → x.1 < p.iter) ∧ (p.pc ≠ .idle → x.1 < p.iter - 1 ∨
    x.1 = p.iter - 1 ∧ x.2 ∈ p.order.take p.nextTask ∧ x.2 ∉ p.pending.map (·.popIdx))

theorem not_mem_take {l : List Nat} {n i : Nat} (hn : l.Nodup) (h : l[n]? = some i) : i ∉ l.take n := by
  intro hm
  obtain ⟨hl, he⟩ := List.getElem?_eq_some_iff.mp h
  rw [List.mem_take_iff_getElem] at hm
  obtain ⟨j, hj, he'⟩ := hm
  have := (List.Nodup.getElem_inj_iff hn).mp (he'.trans he.symm)
  omega

theorem take_next {l : List Nat} {n i : Nat} (h : l[n]? = some i) : l.take (n + 1) = l.take n ++ [i] := by
  rw [List.take_add_one, h]; rfl

theorem idxOf_next {l : List Nat} {n i : Nat} (hn : l.Nodup) (h : l[n]? = some i) : l.idxOf i = n := by
  obtain ⟨hl, rfl⟩ := List.getElem?_eq_some_iff.mp h
  exact hn.idxOf_getElem n hl

theorem own_run (I : Isolated o) {np k : Nat} {g : Rng (Fl K)} {t : Task K} {res : TaskResult K} (hc : limitOf o np g t.popIdx k = some t.cur)
    (h : t.run o d = some res) : ownTask o d np g t.popIdx k t.ps = some res := by
  unfold ownTask
  rw [hc, Option.bind_some, I.run _ t.stats]
  exact h

theorem IsoInv.init {np : Nat} {p : Par K} (h0 : p.Fresh o np) : IsoInv o d np p p [] [] where
  rng := by rw [h0.iter]; rfl
  order := fun h => absurd h0.pc h
  idle := fun _ i ps0 ps h1 h2 => by
    rw [h1] at h2
    cases h2
    rw [h0.iter]; rfl
  home := fun h => absurd h0.pc h
  away := by rw [h0.pending]; simp
  results := rfl
  nodup := List.nodup_nil
  count := by rw [h0.shared.completed]; rfl
  range := by simp

theorem IsoInv.step (I : Isolated o) {np nw : Nat} {p0 p q : Par K} {e : ParEvent} {rs : List (TaskResult K)} {ks : List (Nat × Nat)}
    (h0 : p0.Fresh o np) (hi : p.Inv o nw np) (hs : History o d p0.shared rs p.shared p.pending) (H : IsoInv o d np p0 p rs ks)
    (h : ParStep o d nw p e q) :
    ∃ rs' ks', History o d p0.shared rs' q.shared q.pending ∧ IsoInv o d np p0 q rs' ks' := by
  have hnd : p.pc ≠ .idle → p.order.Nodup := fun h => (hi.active h).2.1.nodup_iff.mpr List.nodup_range
  cases h with
  | @start order rng hpc hlt hsh =>
    refine ⟨rs, ks, hs, ?_, ?_, ?_, ?_, ?_, H.results, H.nodup, H.count, ?_⟩
    · rw [hi.pops] at hsh
      show rngAfter np p0.orderRng (p.iter + 1) = some rng
      unfold rngAfter
      rw [H.rng, Option.bind_some, hsh]; rfl
    · intro _
      rw [hi.pops] at hsh
      show orderOf np p0.orderRng (p.iter + 1 - 1) = some order
      unfold orderOf
      rw [Nat.add_sub_cancel, H.rng, Option.bind_some, hsh]; rfl
    · intro h; cases h
    · intro _ i ps0 ps h1 h2
      have := H.idle hpc i ps0 ps h1 h2
      simpa using this
    · intro t ht
      rw [show t ∈ p.pending ↔ False by rw [(hi.idle hpc).1]; simp] at ht
      exact ht.elim
    · intro x hx
      have := H.range x hx
      exact ⟨this.1, (fun h => by cases h), fun _ => .inl (by simpa using this.2.1 hpc)⟩
  | enter hpc hc =>
    have hne : p.pc ≠ .idle := by rw [hpc]; decide
    refine ⟨rs, ks, hs, H.rng, fun _ => H.order hne, (fun h => by cases h), fun _ => H.home hne, H.away, H.results, H.nodup, H.count, ?_⟩
    intro x hx
    have := H.range x hx
    exact ⟨this.1, (fun h => by cases h), fun _ => this.2.2 hne⟩
  | leave hpc hc =>
    have hne : p.pc ≠ .idle := by rw [hpc]; decide
    obtain ⟨a1, a2, a3, a4, a5⟩ := hi.active hne
    have hfl : p.pending = [] := by
      have := hi.flight
      rw [show p.inFlight = 0 by omega] at this
      exact List.length_eq_zero_iff.mp this.symm
    refine ⟨rs, ks, hs, H.rng, fun h => absurd rfl h, ?_, fun h => absurd rfl h, ?_, H.results, H.nodup, H.count, ?_⟩
    · intro _ i ps0 ps h1 h2
      have hlt : i < np := by
        have := (List.getElem?_eq_some_iff.mp h1).1
        rw [h0.shared.pops] at this
        exact this
      have := H.home hne i ps0 ps h1 h2
      rw [if_pos] at this
      · exact this
      · rw [List.take_of_length_le (by omega)]
        exact a2.mem_iff.mpr (List.mem_range.mpr hlt)
    · intro t ht
      rw [show t ∈ p.pending ↔ False by rw [hfl]; simp] at ht
      exact ht.elim
    · intro x hx
      have := H.range x hx
      refine ⟨this.1, fun _ => ?_, fun h => absurd rfl h⟩
      show x.1 < p.iter
      rcases this.2.2 hne with h | h <;> omega
  | @dispatch i t s hpc hw hord hd =>
    have hne : p.pc ≠ .idle := by rw [hpc]; decide
    obtain ⟨b1, b2, b3, b4, rfl⟩ := dispatch_task hd
    obtain ⟨a1, a2, a3, a4, a5⟩ := hi.active hne
    have hni := not_mem_take (hnd hne) hord
    refine ⟨rs, ks, hs.dispatch hd, H.rng, fun _ => H.order hne, fun h => absurd h hne, ?_, ?_, H.results, H.nodup, H.count, ?_⟩
    · intro _ j ps0 ps h1 h2
      simp only [List.getElem?_set] at h2
      split at h2
      · split at h2 <;> cases h2
      next hij =>
      have := H.home hne j ps0 ps h1 h2
      show stage o d np p0.orderRng j ps0 (if j ∈ p.order.take (p.nextTask + 1) then p.iter else p.iter - 1) = some ps
      rw [take_next hord]
      simpa [Ne.symm hij] using this
    · intro u hu ps0 h1
      rcases List.mem_append.mp hu with hu | hu
      · exact H.away u hu ps0 h1
      · obtain rfl := List.mem_singleton.mp hu
        subst b2
        have := H.home hne _ ps0 _ h1 b1
        rw [if_neg hni] at this
        refine ⟨this, ?_⟩
        unfold limitOf
        rw [H.order hne, Option.bind_some, idxOf_next (hnd hne) hord, ← a4, ← hi.total]
        exact b4
    · intro x hx
      have := H.range x hx
      refine ⟨this.1, fun h => absurd h hne, fun _ => ?_⟩
      rcases this.2.2 hne with h | ⟨h1, h2, h3⟩
      · exact .inl h
      · refine .inr ⟨h1, ?_, ?_⟩
        · show x.2 ∈ p.order.take (p.nextTask + 1)
          rw [take_next hord]
          exact List.mem_append_left _ h2
        · intro hm
          simp only [List.map_append, List.mem_append, List.map_cons, List.map_nil, List.mem_singleton] at hm
          rcases hm with hm | hm
          · exact h3 hm
          · rw [hm, b2] at h2; exact hni h2
  | @skip i s hpc hw hord hd =>
    have hne : p.pc ≠ .idle := by rw [hpc]; decide
    obtain ⟨h1, -⟩ := dispatch_skip hd
    obtain ⟨a1, a2, a3, a4, a5⟩ := hi.active hne
    have hilt : i < np := by
      have := (List.getElem?_eq_some_iff.mp h1).1
      have e := hi.pops
      omega
    exact absurd (a5 i ((hi.place i hilt).mp h1)) (not_mem_take (hnd hne) hord)
  | @receive l r t res s hpc hg hpend hrun happ =>
    have hne : p.pc ≠ .idle := by rw [hpc]; decide
    obtain ⟨a1, a2, a3, a4, a5⟩ := hi.active hne
    have hri := (run_popIdx hrun).1
    have hpops := I.applied happ
    have hcnt := (apply_result happ).2.2.1
    have htp : t ∈ p.pending := by rw [hpend]; simp
    have hlt := hi.lt t htp
    obtain ⟨ps0, hps0⟩ := h0.shared.present _ hlt
    obtain ⟨c1, c2⟩ := H.away t htp ps0 hps0
    have hown := own_run I c2 hrun
    have hndp := hi.nodup
    rw [hpend] at hndp
    simp only [List.map_append, List.map_cons] at hndp
    have hnip : t.popIdx ∉ (l ++ r).map (·.popIdx) := by
      rw [List.map_append]
      exact (List.nodup_middle.mp hndp |> List.nodup_cons.mp).1
    have hsub : ∀ u, u ∈ l ++ r → u ∈ p.pending := by
      intro u hu
      rw [hpend]
      rcases List.mem_append.mp hu with h | h <;> simp [h]
    refine ⟨rs ++ [res], ks ++ [(p.iter - 1, t.popIdx)], (hpend ▸ hs).apply hrun happ, H.rng, fun _ => H.order hne, (fun h => by cases h),
      ?_, ?_, ?_, ?_, ?_, ?_⟩
    · intro _ j ps1 ps h1 h2
      show stage o d np p0.orderRng j ps1 (if j ∈ p.order.take p.nextTask then p.iter else p.iter - 1) = some ps
      change s.pops[j]? = some (some ps) at h2
      rw [hpops, hri, List.getElem?_set] at h2
      by_cases hj : t.popIdx = j
      · subst hj
        rw [hps0] at h1
        cases h1
        rw [if_pos rfl, if_pos (by rw [hi.pops]; exact hlt)] at h2
        cases h2
        rw [if_pos (a5 _ (List.mem_map_of_mem htp))]
        obtain ⟨n, hn⟩ : ∃ n, p.iter = n + 1 := ⟨p.iter - 1, by omega⟩
        rw [hn, Nat.add_sub_cancel] at c1 hown
        rw [hn]
        unfold stage
        rw [c1, Option.bind_some, hown]; rfl
      · rw [if_neg hj] at h2
        exact H.home hne j ps1 ps h1 h2
    · intro u hu ps1 h1
      exact H.away u (hsub u hu) ps1 h1
    · rw [List.map_append, List.map_append, H.results]
      congr 1
      simp only [List.map_cons, List.map_nil, List.cons.injEq, and_true]
      unfold ownResult
      rw [hps0, Option.join_some, Option.bind_some, c1, Option.bind_some, hown]
    · rw [List.nodup_append]
      refine ⟨H.nodup, List.nodup_singleton _, ?_⟩
      intro a ha b hb
      obtain rfl := List.mem_singleton.mp hb
      rintro rfl
      rcases (H.range _ ha).2.2 hne with h | ⟨-, -, h⟩
      · exact absurd h (Nat.lt_irrefl _)
      · exact h (List.mem_map_of_mem htp)
    · show (ks ++ _).length = s.counters.completed
      rw [hcnt, List.length_append, H.count]; rfl
    · intro x hx
      refine ⟨?_, (fun h => by cases h), fun _ => ?_⟩
      · rcases List.mem_append.mp hx with hx | hx
        · exact (H.range x hx).1
        · rw [List.mem_singleton.mp hx]; exact hlt
      · rcases List.mem_append.mp hx with hx | hx
        · rcases (H.range x hx).2.2 hne with h | ⟨h1, h2, h3⟩
          · exact .inl h
          · refine .inr ⟨h1, h2, fun hm => h3 ?_⟩
            obtain ⟨u, hu, he⟩ := List.mem_map.mp hm
            exact List.mem_map.mpr ⟨u, hsub u hu, he⟩
        · rw [List.mem_singleton.mp hx]
          exact .inr ⟨rfl, a5 _ (List.mem_map_of_mem htp), hnip⟩

theorem IsoInv.run (I : Isolated o) {np nw : Nat} {p0 p : Par K} {tr : List ParEvent} (h0 : p0.Fresh o np) (h : ParRun o d nw p0 tr p) :
    ∃ rs ks, History o d p0.shared rs p.shared p.pending ∧ IsoInv o d np p0 p rs ks := by
  induction h with
  | refl => exact ⟨[], [], by rw [h0.pending]; exact .init, .init h0⟩
  | snoc hr hs ih =>
    obtain ⟨rs, ks, h1, h2⟩ := ih
    exact h2.step I h0 ((h0.inv nw).run hr) h1 hs

end SR
