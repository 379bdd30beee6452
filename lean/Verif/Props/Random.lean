import Verif.Proofs.Random
import Verif.Spec.Binary64
import Mathlib.Tactic.Positivity
import Mathlib.Algebra.Order.BigOperators.Group.List
/-
C32 (weighted choice), C33 (shuffling and index sampling).
-/
namespace SR
variable {F α : Type}

/-- C33: for every list and every random stream, shuffling ends without panic and returns a permutation. -/
theorem C33_shuffle_perm (l : List α) :
    Rand.Total (shuffle l : Rand F (List α)) fun l' => l'.Perm l := by
  rw [shuffle]
  split
  · exact Rand.Total.pure (List.Perm.refl _)
  · exact shuffleLoop_total _ l (by omega)

/-- C33: every permutation is the result for some random stream. -/
theorem C33_shuffle_reaches (l l' : List α) (h : l'.Perm l) (g0 : Rng F) :
    ∃ g, (shuffle l : Rand F (List α)) g = some (l', g0) := by
  rw [shuffle]
  split
  · next hl =>
    have : l' = l := by
      match l, l', hl, h with
      | [], l', _, h => simpa using h
      | [a], l', _, h => simpa using h
    exact ⟨g0, by rw [this]; rfl⟩
  · refine shuffleLoop_reach _ l l' (by omega) h ?_ g0
    rw [List.drop_eq_nil_of_le (by have := h.length_eq; omega), List.drop_eq_nil_of_le (by omega)]

/-- C33: no permutation is favoured: on a list without duplicates, two streams give the same result only if all
their bounded draws coincide (the k-th draw is uniform below `length - k`), so each of the permutations has
exactly one sequence of draws. -/
theorem C33_shuffle_unbiased (l l' : List α) (hn : l.Nodup) (g1 g2 g1' g2' : Rng F)
    (h1 : shuffle l g1 = some (l', g1')) (h2 : shuffle l g2 = some (l', g2')) (k : Nat)
    (hk : k + 1 < l.length) : g1.ints k % (l.length - k) = g2.ints k % (l.length - k) := by
  rw [shuffle, if_neg (by omega)] at h1 h2
  have := shuffleLoop_inj _ l g1 g2 l' g1' g2' hn (by omega) h1 h2 k (by omega)
  rwa [show l.length - 1 + 1 - k = l.length - k by omega] at this

/-- C33: index sampling returns `min n len` distinct indices below `len`, whatever the stream. -/
theorem C33_sample (fuel len n : Nat) :
    Rand.Post (sampleIndices fuel len n : Rand F (List Nat)) fun r =>
      r.length = min n len ∧ r.Nodup ∧ ∀ i ∈ r, i < len := by
  rw [sampleIndices]
  split
  · next h => exact Rand.Post.pure ⟨by simp; omega, by simp, by simp⟩
  · split
    · next h => exact Rand.Post.pure ⟨by simp [h], List.nodup_range, by simp⟩
    · split
      · exact rejectLoop_post len _ fuel [] (by simp) (by simp) (by simp)
      · refine Rand.Post.bind (partialShuffle_total _ 0 (List.range len) (by simp)).post
          fun v hv => Rand.Post.pure ⟨?_, ?_, ?_⟩
        · rw [List.length_take, hv.length_eq]; simp
        · exact ((hv.nodup_iff.mpr List.nodup_range).sublist (List.take_sublist _ _))
        · intro i hi
          simpa using hv.mem_iff.mp (List.mem_of_mem_take hi)

/-- C33: index sampling cannot panic: outside the rejection branch it ends for every stream. -/
theorem C33_sample_total (fuel len n : Nat) (h : len < min n len * min n len ∨ len ≤ n ∨ n = 0) :
    Rand.Total (sampleIndices fuel len n : Rand F (List Nat)) fun _ => True := by
  rw [sampleIndices]
  split
  · exact Rand.Total.pure trivial
  · split
    · exact Rand.Total.pure trivial
    · split
      · next h1 h2 h3 => omega
      · exact Rand.Total.bind (partialShuffle_total _ 0 (List.range len) (by simp))
          fun v _ => Rand.Total.pure trivial

/-- C33: every selection of `min n len` distinct indices is the result (as a set) for some random stream, within
`n + 1` iterations. -/
theorem C33_sample_reaches (fuel len n : Nat) (s : List Nat) (hl : s.length = min n len) (hn : s.Nodup)
    (hr : ∀ i ∈ s, i < len) (hf : n < fuel) (g0 : Rng F) :
    ∃ g r, (sampleIndices fuel len n : Rand F (List Nat)) g = some (r, g0) ∧ r.Perm s := by
  rw [sampleIndices]
  split
  · next h =>
    have : s = [] := List.length_eq_zero_iff.mp (by rw [hl]; rcases h with h | h <;> simp [h])
    exact ⟨g0, [], rfl, by rw [this]⟩
  · split
    · next h =>
      refine ⟨g0, _, rfl, ?_⟩
      have hsub : List.Subperm s (List.range len) :=
        hn.subperm fun i hi => by simpa using hr i hi
      exact (hsub.perm_of_length_le (by simp; omega)).symm
    · split
      · obtain ⟨g, hg⟩ := rejectLoop_reach (F := F) len (min n len) s [] fuel g0 (by simpa using hn) hr
          (by simpa using hl) (by omega)
        exact ⟨g, s, by simpa using hg, List.Perm.refl _⟩
      · obtain ⟨g, r, hg, ht⟩ := partialShuffle_reach (F := F) s 0 (List.range len) g0
          (by simp; omega) List.nodup_range hn (by simpa using hr)
        refine ⟨g, r.take (min n len), ?_, ?_⟩
        · rw [Rand.run_bind, ← hl, hg]; rfl
        · rw [← hl]
          simp at ht
          rw [ht]

section Weighted
variable {K : Type} [Field K] [LinearOrder K]

/-- C32: in any arithmetic, the index returned is in range, and it has a positive weight unless it is the last
index. -/
theorem C32_range (R : Rounding K) (weights : List (Fl K)) :
    Rand.Post (weightedIndex R weights) fun i =>
      i < weights.length ∧ (i + 1 = weights.length ∨ ∃ w, weights[i]? = some w ∧ Fl.lt (.fin 0) w = true) := by
  rw [weightedIndex]
  split
  · exact Rand.Post.fail
  next hne =>
  have hpos : 0 < weights.length := List.length_pos_iff.mpr (by simpa using hne)
  split
  · exact Rand.Post.fail
  next total htot =>
  split
  · exact Rand.Post.fail
  refine Rand.Post.bind (P := fun _ => True) Rand.Post.true fun u _ => ?_
  apply Rand.Post.pure
  cases hl : weightedLoop R weights 0 (R.mul u total) with
  | none => exact ⟨by simp; omega, .inl (by simp; omega)⟩
  | some r =>
    obtain ⟨_, w, h1, h2, h3⟩ := weightedLoop_range R weights 0 _ r hl
    refine ⟨by simpa using h3, .inr ⟨w, by simpa using h1, ?_⟩⟩
    -- the weights were checked to be finite
    have hfin : ∀ (ws : List (Fl K)) (t r : Fl K), weightedTotal R ws t = some r →
        ∀ w ∈ ws, w.isFinite = true := by
      intro ws
      induction ws with
      | nil => simp
      | cons a ws ih =>
        intro t r h w hw
        rw [weightedTotal] at h
        split at h
        · simp at h
        · next hc =>
          rcases List.mem_cons.mp hw with rfl | hw
          · simp at hc; exact hc.1
          · exact ih _ _ h w hw
    have := hfin _ _ _ htot w (List.mem_of_getElem? (by simpa using h1))
    cases w <;> simp [Fl.isFinite, Fl.le, Fl.lt] at this h2 ⊢
    exact h2

variable [IsStrictOrderedRing K]

/-- C32: in exact arithmetic, for non-negative weights with positive sum and a draw `u` in `[0, 1)`, index `i` is
returned exactly when `u` lies in the interval from `(w_0 + … + w_{i-1}) / total` to
`(w_0 + … + w_i) / total`, whose length is `w_i / total`. -/
theorem C32_interval (ws : List K) (hw : ∀ w ∈ ws, 0 ≤ w) (hs : 0 < ws.sum) (g : Rng (Fl K)) (u : K)
    (hg : g.floats 0 = .fin u) (h0 : 0 ≤ u) (h1 : u < 1) (i : Nat) :
    weightedIndex (Rounding.exact K) (ws.map .fin) g = some (i, g.nextFloat) ↔
      i < ws.length ∧ (ws.take i).sum / ws.sum ≤ u ∧ u < (ws.take (i + 1)).sum / ws.sum := by
  have hmono : ∀ i j, i ≤ j → (ws.take i).sum ≤ (ws.take j).sum := by
    intro i j hij
    have : ws.take i = (ws.take j).take i := by rw [List.take_take, Nat.min_eq_left hij]
    rw [this]
    exact (List.take_sublist _ _).sum_le_sum fun x hx => hw x (List.mem_of_mem_take hx)
  have hne : ws ≠ [] := by rintro rfl; simp at hs
  have hrun : ∃ k, weightedIndex (Rounding.exact K) (ws.map .fin) g = some (k, g.nextFloat) ∧ k < ws.length ∧
      (ws.take k).sum ≤ u * ws.sum ∧ u * ws.sum < (ws.take (k + 1)).sum := by
    obtain ⟨k, e, hk, ha, hb⟩ := weightedLoop_exact ws hw 0 (u * ws.sum) (by positivity)
      (by nlinarith)
    refine ⟨k, ?_, hk, ha, hb⟩
    rw [weightedIndex, if_neg (by simpa using hne), weightedTotal_exact ws hw]
    simp only [zero_add]
    rw [if_neg (by simp [Fl.isFinite, Fl.le, hs]), Rand.run_bind]
    simp only [Rand.float, hg, exact_mul, e]
    simp
  obtain ⟨k, hk, hkl, ha, hb⟩ := hrun
  rw [hk, div_le_iff₀ hs, lt_div_iff₀ hs]
  constructor
  · intro h
    simp at h; subst h
    exact ⟨hkl, ha, hb⟩
  · rintro ⟨hil, h2, h3⟩
    have : i = k := by
      rcases Nat.lt_trichotomy i k with h | h | h
      · have := hmono (i + 1) k h; exact absurd (lt_of_lt_of_le h3 (this.trans ha)) (lt_irrefl _)
      · exact h
      · have := hmono (k + 1) i h; exact absurd (lt_of_lt_of_le hb (this.trans h2)) (lt_irrefl _)
    rw [this]

/-- C32: in exact arithmetic an index of zero weight is never returned. -/
theorem C32_zero_never (ws : List K) (hw : ∀ w ∈ ws, 0 ≤ w) (hs : 0 < ws.sum) (g : Rng (Fl K)) (u : K)
    (hg : g.floats 0 = .fin u) (h0 : 0 ≤ u) (h1 : u < 1) :
    ∃ i w, weightedIndex (Rounding.exact K) (ws.map .fin) g = some (i, g.nextFloat) ∧ ws[i]? = some w ∧
      0 < w := by
  obtain ⟨k, e, hk, ha, hb⟩ := weightedLoop_exact ws hw 0 (u * ws.sum) (by positivity) (by nlinarith)
  refine ⟨k, ws[k], ?_, List.getElem?_eq_getElem hk, ?_⟩
  · rw [C32_interval ws hw hs g u hg h0 h1, div_le_iff₀ hs, lt_div_iff₀ hs]
    exact ⟨hk, ha, hb⟩
  · rw [List.take_succ, List.getElem?_eq_getElem hk, List.sum_append] at hb
    simp at hb
    linarith

/-- C32: in exact arithmetic every index of positive weight is returned for some draw in `[0, 1)`. -/
theorem C32_positive_reached (ws : List K) (hw : ∀ w ∈ ws, 0 ≤ w) (i : Nat) (w : K) (hi : ws[i]? = some w)
    (hpos : 0 < w) (g0 : Rng (Fl K)) :
    ∃ u, 0 ≤ u ∧ u < 1 ∧
      weightedIndex (Rounding.exact K) (ws.map .fin) (Rand.consFloat (.fin u) g0) = some (i, g0) := by
  have hlt : i < ws.length := by
    by_contra hh
    rw [List.getElem?_eq_none (by omega)] at hi; simp at hi
  have hsplit : ws.sum = (ws.take i).sum + w + (ws.drop (i + 1)).sum := by
    conv_lhs => rw [← List.take_append_drop i ws, List.sum_append, List.drop_eq_getElem_cons hlt, List.sum_cons]
    rw [List.getElem?_eq_getElem hlt] at hi
    simp at hi
    rw [hi]; ring
  have ha : 0 ≤ (ws.take i).sum := List.sum_nonneg fun x hx => hw x (List.mem_of_mem_take hx)
  have hd : 0 ≤ (ws.drop (i + 1)).sum := List.sum_nonneg fun x hx => hw x (List.mem_of_mem_drop hx)
  have hs : 0 < ws.sum := by linarith
  have htk : (ws.take (i + 1)).sum = (ws.take i).sum + w := by
    rw [List.take_succ, hi, List.sum_append]; simp
  have hu1 : (ws.take i).sum / ws.sum < 1 := by rw [div_lt_one hs]; linarith
  refine ⟨(ws.take i).sum / ws.sum, by positivity, hu1, ?_⟩
  have := (C32_interval ws hw hs (Rand.consFloat (.fin ((ws.take i).sum / ws.sum)) g0) _ rfl (by positivity)
    hu1 i).mpr ⟨hlt, le_refl _, by rw [htk]; exact (div_lt_div_iff_of_pos_right hs).mpr (by linarith)⟩
  rw [this]
  simp [Rand.consFloat, Rng.nextFloat]

end Weighted

/-- C32 (the exception is real): in `f64` arithmetic the largest draw of the generator can return an index of
weight zero. -/
theorem C32_zero_weight_binary64 :
    let w : Fl ℚ := .fin (3 / 2 ^ 54)
    let ws : List (Fl ℚ) := [.fin 1, w, w, w, w, w, .fin 0]
    (∀ x ∈ ws, ∃ y, x = .fin y ∧ rnd64 y = .fin y) ∧
    ∀ g : Rng (Fl ℚ), g.floats 0 = .fin (1 - 1 / 2 ^ 52) →
      (weightedIndex binary64 ws g).map Prod.fst = some 6 ∧ ws[6]? = some (.fin 0) := by
  intro w ws
  refine ⟨?_, ?_⟩
  · intro x hx
    have h : rnd64 1 = .fin 1 ∧ rnd64 (3 / 2 ^ 54) = .fin (3 / 2 ^ 54) ∧ rnd64 0 = .fin 0 := by decide +kernel
    simp only [ws, w, List.mem_cons, List.not_mem_nil, or_false] at hx
    rcases hx with rfl | rfl | rfl | rfl | rfl | rfl | rfl
    · exact ⟨_, rfl, h.1⟩
    all_goals first | exact ⟨_, rfl, h.2.1⟩ | exact ⟨_, rfl, h.2.2⟩
  · intro g hg
    refine ⟨?_, rfl⟩
    have h1 : weightedTotal binary64 ws (.fin 0) = some (.fin (1 + 5 / 2 ^ 52)) := by decide +kernel
    have h2 : weightedLoop binary64 ws 0 (binary64.mul (.fin (1 - 1 / 2 ^ 52)) (.fin (1 + 5 / 2 ^ 52))) = none := by
      decide +kernel
    have h3 : (Fl.fin (1 + 5 / 2 ^ 52 : ℚ)).le (.fin 0) = false := by decide +kernel
    rw [weightedIndex, if_neg (by simp [ws]), h1]
    simp only
    rw [if_neg (by simp [Fl.isFinite, h3]), Rand.run_bind]
    simp only [Rand.float, hg, h2]
    rfl

/-! ### Concrete cases -/

example : ((shuffle [10, 20, 30] : Rand Nat (List Nat)) (Rand.script Nat [0, 0])).map (·.1)
    = some [20, 30, 10] := by decide
example : ((sampleIndices 5 9 3 : Rand Nat (List Nat)) (Rand.script Nat [4, 4, 12, 0])).map (·.1)
    = some [4, 3, 0] := by decide
example : (weightedIndex (Rounding.exact ℚ) [.fin 0, .fin 1, .fin 0, .fin 3]
    ⟨fun _ => 0, fun _ => .fin (1 / 2)⟩).map (·.1) = some 3 := by decide +kernel

end SR
