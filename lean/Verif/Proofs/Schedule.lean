import Verif.Spec.Schedule
import Verif.Proofs.Search
import Verif.Props.Random
import Mathlib.Tactic.Ring
import Mathlib.Tactic.Linarith
/-
The invariant of the multi-worker driver.
-/
namespace SR
variable {K : Type} [Field K] [LinearOrder K] [E : Env K]

/-- Invariant of the multi-worker driver. -/
structure Par.Inv (o : SOptions K) (nw np : Nat) (p : Par K) : Prop where
  pops : p.shared.pops.length = np
  bestSub : p.shared.bestSub.length = np
  total : p.shared.counters.total = o.niterations * np
  started : p.shared.counters.started = p.shared.counters.completed + p.inFlight
  flight : p.inFlight = p.pending.length
  workers : p.inFlight ≤ nw
  lt : ∀ t ∈ p.pending, t.popIdx < np
  nodup : (p.pending.map (·.popIdx)).Nodup
  place : ∀ (i : Nat), i < np → (p.shared.pops[i]? = some none ↔ i ∈ p.pending.map (·.popIdx))
  iter : p.iter ≤ o.niterations
  idle : p.pc = .idle → p.pending = [] ∧ p.shared.counters.started = p.iter * np
  active : p.pc ≠ .idle → 1 ≤ p.iter ∧ p.order.Perm (List.range np) ∧ p.nextTask ≤ np ∧
    p.shared.counters.started = (p.iter - 1) * np + p.nextTask ∧
    ∀ i ∈ p.pending.map (·.popIdx), i ∈ p.order.take p.nextTask
  inner : p.pc = .inner → p.nextTask < p.order.length ∨ 0 < p.inFlight

theorem Par.Fresh.inv {o : SOptions K} {np : Nat} {p : Par K} (h : p.Fresh o np) (nw : Nat) : p.Inv o nw np := by
  have hs := h.shared
  refine ⟨hs.pops, hs.bestSub, hs.total, ?_, ?_, ?_, ?_, ?_, ?_, ?_, ?_, ?_, ?_⟩
  · rw [hs.started, hs.completed, h.inFlight]
  · rw [h.inFlight, h.pending]; rfl
  · rw [h.inFlight]; omega
  · rw [h.pending]; simp
  · rw [h.pending]; simp
  · intro i hi
    obtain ⟨ps, hps⟩ := hs.present i hi
    rw [h.pending, hps]; simp
  · rw [h.iter]; omega
  · intro _; exact ⟨h.pending, by rw [hs.started, h.iter]; simp⟩
  · intro hc; exact absurd h.pc hc
  · intro hc; rw [h.pc] at hc; cases hc

/-- The order of an iteration is a permutation. -/
theorem shuffle_range_perm {F : Type} {n : Nat} {g g' : Rng F} {l : List Nat}
    (h : shuffle (List.range n) g = some (l, g')) : l.Perm (List.range n) :=
  (C33_shuffle_perm (F := F) (List.range n)).post g l g' h

theorem Par.Inv.step {o : SOptions K} {full : Dataset K} {nw np : Nat} {p q : Par K} {e : ParEvent}
    (hi : p.Inv o nw np) (h : ParStep o full nw p e q) : q.Inv o nw np := by
  cases h with
  | @start order rng hpc hlt hsh =>
    have hpi := (hi.idle hpc).1
    have hst := (hi.idle hpc).2
    have hfl := hi.flight
    rw [hpi] at hfl
    refine { hi with started := ?_, flight := ?_, workers := Nat.zero_le _, iter := hlt, idle := ?_, active := ?_, inner := ?_ }
    · have := hi.started; rw [hfl] at this; exact this
    · rw [hpi]; rfl
    · intro hc; cases hc
    · intro _
      refine ⟨Nat.le_add_left _ _, ?_, Nat.zero_le _, ?_, ?_⟩
      · rw [← hi.pops]; exact shuffle_range_perm hsh
      · simpa using hst
      · simp only [hpi]; simp
    · intro hc; cases hc
  | enter hpc hcond =>
    refine { hi with idle := ?_, active := ?_, inner := ?_ }
    · intro hc; cases hc
    · intro _; exact hi.active (by rw [hpc]; decide)
    · intro _; exact hcond
  | leave hpc hcond =>
    have ha := hi.active (by rw [hpc]; decide)
    have hlen := ha.2.1.length_eq
    simp only [List.length_range] at hlen
    have h0 : p.inFlight = 0 := by omega
    have hp0 : p.pending = [] := List.eq_nil_of_length_eq_zero (by rw [← hi.flight]; exact h0)
    have hn : p.nextTask = np := by omega
    refine { hi with idle := ?_, active := ?_, inner := ?_ }
    · intro _
      refine ⟨hp0, ?_⟩
      show p.shared.counters.started = p.iter * np
      rw [ha.2.2.2.1, hn]
      obtain ⟨k, hk⟩ : ∃ k, p.iter = k + 1 := ⟨p.iter - 1, by omega⟩
      rw [hk]; simp [Nat.succ_mul]
    · intro hc; exact absurd rfl hc
    · intro hc; cases hc
  | @dispatch i t s hpc hw hord hd =>
    obtain ⟨h1, h2, -, -, rfl⟩ := dispatch_task hd
    have ha := hi.active (by rw [hpc]; decide)
    have hlen := ha.2.1.length_eq
    simp only [List.length_range] at hlen
    have hnl := (List.getElem?_eq_some_iff.mp hord).1
    have hilt : i < np := by
      have := (List.getElem?_eq_some_iff.mp h1).1
      rw [hi.pops] at this; exact this
    have hni : i ∉ p.pending.map (·.popIdx) := by
      rw [← hi.place i hilt, h1]; simp
    refine ⟨by simpa using hi.pops, hi.bestSub, hi.total, ?_, ?_, ?_, ?_, ?_, ?_, hi.iter, ?_, ?_, ?_⟩
    · have := hi.started; show p.shared.counters.started + 1 = p.shared.counters.completed + (p.inFlight + 1); omega
    · simp [hi.flight]
    · exact hw
    · intro t' ht'
      simp only [List.mem_append, List.mem_singleton] at ht'
      rcases ht' with ht' | rfl
      · exact hi.lt t' ht'
      · rw [h2]; exact hilt
    · simp only [List.map_append, List.map_cons, List.map_nil]
      rw [List.nodup_append]
      refine ⟨hi.nodup, by simp, ?_⟩
      intro a ha' b hb
      simp only [List.mem_singleton] at hb
      rintro rfl
      rw [hb, h2] at ha'
      exact hni ha'
    · intro j hj
      simp only [List.map_append, List.map_cons, List.map_nil, List.mem_append, List.mem_singleton, h2]
      rw [List.getElem?_set]
      by_cases hij : i = j
      · subst hij
        rw [if_pos rfl]
        simp [hi.pops, hilt]
      · rw [if_neg hij, hi.place j hj]
        constructor
        · exact .inl
        · rintro (h | h)
          · exact h
          · exact absurd h.symm hij
    · intro hc; rw [hpc] at hc; cases hc
    · intro _
      refine ⟨ha.1, ha.2.1, by show p.nextTask + 1 ≤ np; omega, ?_, ?_⟩
      · show p.shared.counters.started + 1 = _
        rw [ha.2.2.2.1]; rfl
      · intro j hj
        simp only [List.map_append, List.map_cons, List.map_nil, List.mem_append, List.mem_singleton, h2] at hj
        show j ∈ p.order.take (p.nextTask + 1)
        rw [List.take_add_one, hord]
        simp only [Option.toList_some, List.mem_append, List.mem_singleton]
        exact hj.imp (ha.2.2.2.2 j) id
    · intro _; right; show 0 < p.inFlight + 1; omega
  | @skip i s hpc hw hord hd =>
    obtain ⟨h1, -⟩ := dispatch_skip hd
    exfalso
    have ha := hi.active (by rw [hpc]; decide)
    have hilt : i < np := by
      have := (List.getElem?_eq_some_iff.mp h1).1
      rw [hi.pops] at this; exact this
    have hm := ha.2.2.2.2 i ((hi.place i hilt).mp h1)
    have hnd : p.order.Nodup := ha.2.1.nodup_iff.mpr List.nodup_range
    have hnl := (List.getElem?_eq_some_iff.mp hord)
    obtain ⟨hl, he⟩ := hnl
    rw [List.mem_take_iff_getElem] at hm
    obtain ⟨j, hj, he'⟩ := hm
    have := (List.Nodup.getElem_inj_iff hnd).mp (he'.trans he.symm)
    omega
  | @receive l r t res s hpc hg hpend hrun happ =>
    obtain ⟨h1, h2, h3, -, h5, -, -, pop, counters, rng, -, h8⟩ := apply_result happ
    have hri := (run_popIdx hrun).1
    have ha := hi.active (by rw [hpc]; decide)
    have hnd := hi.nodup
    rw [hpend] at hnd
    simp only [List.map_append, List.map_cons] at hnd
    have hni : t.popIdx ∉ (l ++ r).map (·.popIdx) := by
      intro hm
      rw [List.nodup_middle] at hnd
      simp only [List.map_append] at hm
      exact (List.nodup_cons.mp hnd).1 hm
    have hfl := hi.flight
    rw [hpend] at hfl
    simp only [List.length_append, List.length_cons] at hfl
    have hsub : ∀ x ∈ l ++ r, x ∈ p.pending := by
      intro x hx; rw [hpend]; simp only [List.mem_append, List.mem_cons] at hx ⊢; tauto
    refine ⟨by rw [h8]; simpa using hi.pops, by rw [h5]; simpa using hi.bestSub, by rw [h3]; exact hi.total, ?_, ?_, ?_, ?_,
      ?_, ?_, hi.iter, ?_, ?_, ?_⟩
    · rw [h3]
      have := hi.started
      show p.shared.counters.started = p.shared.counters.completed + 1 + (p.inFlight - 1); omega
    · show p.inFlight - 1 = (l ++ r).length
      simp only [List.length_append]; omega
    · have := hi.workers; show p.inFlight - 1 ≤ nw; omega
    · intro t' ht'; exact hi.lt t' (hsub t' ht')
    · rw [List.nodup_middle] at hnd
      simp only [List.map_append]
      exact (List.nodup_cons.mp hnd).2
    · intro j hj
      rw [h8, List.getElem?_set, hri]
      by_cases hij : t.popIdx = j
      · subst hij
        rw [if_pos rfl]
        simp only [hi.pops, hj, if_true]
        constructor
        · intro hc; simp at hc
        · intro hm; exact absurd hm hni
      · rw [if_neg hij, hi.place j hj, hpend]
        simp only [List.map_append, List.map_cons, List.mem_append, List.mem_cons]
        constructor
        · rintro (h | h | h)
          · exact .inl h
          · exact absurd h.symm hij
          · exact .inr h
        · rintro (h | h)
          · exact .inl h
          · exact .inr (.inr h)
    · intro hc; cases hc
    · intro _
      refine ⟨ha.1, ha.2.1, ha.2.2.1, by rw [h3]; exact ha.2.2.2.1, ?_⟩
      intro j hj
      obtain ⟨x, hx, rfl⟩ := List.mem_map.mp hj
      exact ha.2.2.2.2 _ (List.mem_map_of_mem (hsub x hx))
    · intro hc; cases hc

theorem Par.Inv.run {o : SOptions K} {full : Dataset K} {nw np : Nat} {p q : Par K} {tr : List ParEvent}
    (hi : p.Inv o nw np) (h : ParRun o full nw p tr q) : q.Inv o nw np := by
  induction h with
  | refl => exact hi
  | snoc _ hs ih => exact ih.step hs

end SR
