import Verif.Spec.Ptrs
import Verif.Props.Prob
import Mathlib.Analysis.SpecialFunctions.Log.Basic
import Mathlib.Tactic.Linarith
import Mathlib.Tactic.Positivity
import Mathlib.Tactic.NormNum
import Mathlib.Analysis.SpecificLimits.Basic
/-
C81: the sampler for Poisson numbers with a large mean.
-/
namespace SR
open MeasureTheory ProbabilityTheory

variable {lib : Libm ℝ} {μ : ℝ}

/-! ## The exact values -/

theorem hatB_ge (h : 30 ≤ μ) : 14.7 ≤ hatB μ := by
  have : (5.47 : ℝ) ≤ √μ := by
    rw [Real.le_sqrt (by norm_num)]
    · norm_num; linarith
    · linarith
  unfold hatB; linarith

theorem hatA_pos (h : 30 ≤ μ) : 0 < hatA μ := by
  have := hatB_ge h; unfold hatA; linarith

theorem hatInvAlpha_pos (h : 30 ≤ μ) : 0 < hatInvAlpha μ := by
  have := hatB_ge h
  unfold hatInvAlpha
  have : 0 < 1.1328 / (hatB μ - 3.4) := div_pos (by norm_num) (by linarith)
  linarith

theorem hatVr_ge (h : 30 ≤ μ) : 0.64 ≤ hatVr μ := by
  have := hatB_ge h
  unfold hatVr
  have : 3.6224 / (hatB μ - 2) ≤ 0.2877 := by
    rw [div_le_iff₀ (by linarith)]; nlinarith
  linarith

theorem border_le (u : ℝ) : border u ≤ 1 / 2 := by unfold border; linarith [abs_nonneg (u - 1 / 2)]

theorem border_nonneg {u : ℝ} (h0 : 0 ≤ u) (h1 : u ≤ 1) : 0 ≤ border u := by
  unfold border
  have : |u - 1 / 2| ≤ 1 / 2 := abs_le.mpr ⟨by linarith, by linarith⟩
  linarith

theorem exactAdd (x y : ℝ) : (Rounding.exact ℝ).add (.fin x) (.fin y) = .fin (x + y) := rfl
theorem exactSub (x y : ℝ) : (Rounding.exact ℝ).sub (.fin x) (.fin y) = .fin (x - y) := by
  simp [Rounding.sub, Rounding.exact, Rounding.add, Fl.neg, sub_eq_add_neg]
theorem exactMul (x y : ℝ) : (Rounding.exact ℝ).mul (.fin x) (.fin y) = .fin (x * y) := rfl
theorem exactRnd (x : ℝ) : (Rounding.exact ℝ).rnd x = .fin x := rfl
theorem exactNat (n : ℕ) : (Rounding.exact ℝ).ofNat n = .fin (n : ℝ) := rfl
theorem exactDiv (x : ℝ) {y : ℝ} (h : y ≠ 0) : (Rounding.exact ℝ).div (.fin x) (.fin y) = .fin (x / y) := by
  simp [Rounding.div, h, Rounding.exact]

/-- In exact arithmetic `log_factorial` is a real number; below 256 it is the logarithm of the factorial. -/
theorem logFactorial_exact (hL : lib.OnReals) : ∃ L : ℕ → ℝ, (∀ k, logFactorial (Rounding.exact ℝ) lib k = .fin (L k)) ∧
    ∀ k < 256, L k = Real.log (k.factorial) := by
  have key : ∀ k, ∃ x : ℝ, logFactorial (Rounding.exact ℝ) lib k = .fin x ∧ (k < 256 → x = Real.log (k.factorial)) := by
    intro k
    unfold logFactorial
    split
    · next h => exact ⟨0, rfl, fun _ => by interval_cases k <;> simp⟩
    split
    · next h2 h =>
      have hmap : ((List.range' 2 (k - 1)).map fun i => lib.ln ((Rounding.exact ℝ).ofNat i)) =
          ((List.range' 2 (k - 1)).map fun i : ℕ => Real.log i).map .fin := by
        rw [List.map_map]
        refine List.map_congr_left fun i hi => ?_
        have : 2 ≤ i := (List.mem_range'_1.mp hi).1
        rw [exactNat, hL.ln _ (by exact_mod_cast (by omega : 0 < i))]; rfl
      refine ⟨_, by rw [hmap, exact_sum], fun _ => ?_⟩
      have hf : ∀ n : ℕ, ((List.range' 2 n).map fun i : ℕ => Real.log i).sum = Real.log ((n + 1).factorial) := by
        intro n
        induction n with
        | zero => simp
        | succ n ih =>
          rw [List.range'_concat, List.map_append, List.sum_append, ih, Nat.factorial_succ (n + 1), Nat.cast_mul,
            Real.log_mul (by positivity) (by positivity)]
          simp only [List.map_cons, List.map_nil, List.sum_cons, List.sum_nil]
          push_cast
          rw [show (2 : ℝ) + 1 * n = n + 1 + 1 by ring]
          ring
      rw [hf, show k - 1 + 1 = k by omega]
    · next h =>
      refine ⟨(k + 1 - 1 / 2) * Real.log (k + 1) - (k + 1) + 1 / 2 * (18378770664093453 / 10000000000000000) +
            1 / (k + 1) / 12 - 1 / (k + 1) * (1 / (k + 1)) * (1 / (k + 1)) / 360 +
        1 / (k + 1) * (1 / (k + 1)) * (1 / (k + 1) * (1 / (k + 1))) * (1 / (k + 1)) / 1260, ?_, fun hk => absurd hk h⟩
      · unfold stirlingSeries
        have h1 : (0 : ℝ) < (k : ℝ) + 1 := by positivity
        simp only [exactRnd, exactNat, exactAdd]
        rw [exactDiv _ h1.ne', hL.ln _ h1]
        simp only [exactMul, exactSub, exactAdd]
        rw [exactDiv _ (by norm_num), exactDiv _ (by norm_num), exactDiv _ (by norm_num)]
        simp only [exactAdd, exactSub]
  choose L h1 h2 using key
  exact ⟨L, h1, h2⟩

theorem ptrsB_exact (hL : lib.OnReals) (h : 30 ≤ μ) : ptrsB (Rounding.exact ℝ) lib (.fin μ) = .fin (hatB μ) := by
  unfold ptrsB hatB
  rw [hL.sqrt _ (by linarith), exactRnd, exactRnd, exactMul, exactAdd]
  norm_num

theorem ptrsA_exact (hL : lib.OnReals) (h : 30 ≤ μ) : ptrsA (Rounding.exact ℝ) lib (.fin μ) = .fin (hatA μ) := by
  unfold ptrsA hatA
  rw [ptrsB_exact hL h, exactRnd, exactRnd, exactMul, exactAdd]
  norm_num

theorem ptrsInvAlpha_exact (hL : lib.OnReals) (h : 30 ≤ μ) :
    ptrsInvAlpha (Rounding.exact ℝ) lib (.fin μ) = .fin (hatInvAlpha μ) := by
  have := hatB_ge h
  unfold ptrsInvAlpha hatInvAlpha
  rw [ptrsB_exact hL h, exactRnd, exactRnd, exactRnd, exactSub, exactDiv _ (by norm_num; linarith), exactAdd]
  norm_num

theorem ptrsVr_exact (hL : lib.OnReals) (h : 30 ≤ μ) : ptrsVr (Rounding.exact ℝ) lib (.fin μ) = .fin (hatVr μ) := by
  have := hatB_ge h
  unfold ptrsVr hatVr
  rw [ptrsB_exact hL h, exactRnd, exactRnd, exactRnd, exactSub, exactDiv _ (by linarith), exactSub]
  norm_num

/-- C81: what one round returns in exact arithmetic (`L` is the computed `ln k!`): draws `u`, `v` are transformed to
`k = floor(hatX u)`; it is returned if `u` is well inside and `v` small, and otherwise if
`v <= alpha * slope(u) * (Poisson weight of k)`, unless `u` is at the border and `v` larger than its distance. -/
theorem C81_round (hL : lib.OnReals) (h : 30 ≤ μ) : ∃ L : ℕ → ℝ, (∀ k < 256, L k = Real.log (k.factorial)) ∧
    ∀ u v : ℝ, 0 ≤ u → u < 1 → 0 ≤ v → ∀ k : ℕ,
      ptrsCandidate (Rounding.exact ℝ) lib (.fin μ) (.fin u) (.fin v) = some k ↔
        0 < border u ∧ 0 ≤ hatX μ u ∧ k = min ⌊hatX μ u⌋₊ (2 ^ 63 - 1) ∧
        ((0.07 ≤ border u ∧ v ≤ hatVr μ) ∨
          ¬ (border u < 0.013 ∧ border u < v) ∧ v * hatInvAlpha μ ≤ hatSlope μ u * poissonWeight L μ k) := by
  obtain ⟨L, hf, hL256⟩ := logFactorial_exact hL
  refine ⟨L, hL256, fun u v hu0 hu1 hv k => ?_⟩
  have hA := hatA_pos h
  have hB := hatB_ge h
  have hI := hatInvAlpha_pos h
  have hus : (Rounding.exact ℝ).sub ((Rounding.exact ℝ).rnd (1 / 2))
      ((Rounding.exact ℝ).sub (.fin u) ((Rounding.exact ℝ).rnd (1 / 2))).abs = .fin (border u) := by
    rw [exactRnd, exactSub]
    show (Rounding.exact ℝ).sub (.fin (1 / 2)) (.fin (max (u - 1 / 2) (-(u - 1 / 2)))) = _
    rw [exactSub]; rfl
  unfold ptrsCandidate
  simp only [hus]
  by_cases hb : border u ≤ 0
  · rw [if_pos (by simpa [Fl.le] using hb)]
    simp only [reduceCtorEq, false_iff]
    rintro ⟨h0, -⟩; linarith
  rw [if_neg (by simpa [Fl.le] using hb)]
  push Not at hb
  have hx : (Rounding.exact ℝ).add ((Rounding.exact ℝ).add ((Rounding.exact ℝ).mul ((Rounding.exact ℝ).add
      ((Rounding.exact ℝ).div ((Rounding.exact ℝ).mul ((Rounding.exact ℝ).rnd 2) (ptrsA (Rounding.exact ℝ) lib (.fin μ))) (.fin (border u)))
      (ptrsB (Rounding.exact ℝ) lib (.fin μ))) ((Rounding.exact ℝ).sub (.fin u) ((Rounding.exact ℝ).rnd (1 / 2)))) (.fin μ))
      ((Rounding.exact ℝ).rnd (43 / 100)) = .fin (hatX μ u) := by
    rw [ptrsA_exact hL h, ptrsB_exact hL h, exactRnd, exactRnd, exactRnd, exactMul, exactDiv _ hb.ne', exactAdd, exactSub,
      exactMul, exactAdd, exactAdd]
    unfold hatX
    norm_num
  rw [hx, hL.floor]
  by_cases hneg : hatX μ u < 0
  · rw [hL.toNat_neg _ (by exact_mod_cast Int.floor_lt_zero.mpr hneg)]
    simp only [Option.bind_none, reduceCtorEq, false_iff]
    rintro ⟨-, h0, -⟩; linarith
  push Not at hneg
  have hfl : (0 : ℝ) ≤ (⌊hatX μ u⌋ : ℝ) := by exact_mod_cast Int.floor_nonneg.mpr hneg
  rw [hL.toNat_nonneg _ hfl, show ⌊((⌊hatX μ u⌋ : ℤ) : ℝ)⌋₊ = ⌊hatX μ u⌋₊ by
    rw [← Int.floor_toNat, ← Int.floor_toNat, Int.floor_intCast], Option.bind_some]
  generalize min ⌊hatX μ u⌋₊ (2 ^ 63 - 1) = n
  have hslope : 0 < hatSlope μ u := by unfold hatSlope; positivity
  have hs' : hatA μ / (border u * border u) + hatB μ = hatSlope μ u := by unfold hatSlope; rw [pow_two]
  have hlhs : (Rounding.exact ℝ).div ((Rounding.exact ℝ).mul (.fin v) (ptrsInvAlpha (Rounding.exact ℝ) lib (.fin μ)))
      ((Rounding.exact ℝ).add ((Rounding.exact ℝ).div (ptrsA (Rounding.exact ℝ) lib (.fin μ))
        ((Rounding.exact ℝ).mul (.fin (border u)) (.fin (border u)))) (ptrsB (Rounding.exact ℝ) lib (.fin μ))) =
      .fin (v * hatInvAlpha μ / hatSlope μ u) := by
    rw [ptrsInvAlpha_exact hL h, ptrsA_exact hL h, ptrsB_exact hL h, exactMul, exactMul, exactDiv _ (by positivity), exactAdd,
      hs', exactDiv _ hslope.ne']
  have hrhs : (Rounding.exact ℝ).sub ((Rounding.exact ℝ).add (Fl.fin μ).neg
      ((Rounding.exact ℝ).mul ((Rounding.exact ℝ).ofNat n) (lib.ln (.fin μ)))) (logFactorial (Rounding.exact ℝ) lib n) =
      .fin (-μ + n * Real.log μ - L n) := by
    rw [hf, hL.ln _ (by linarith), exactNat, exactMul]
    show (Rounding.exact ℝ).sub ((Rounding.exact ℝ).add (.fin (-μ)) _) _ = _
    rw [exactAdd, exactSub]
  unfold ptrsTest
  rw [hlhs, hrhs, ptrsVr_exact hL h]
  have hW : 0 < poissonWeight L μ n := Real.exp_pos _
  have hacc : (lib.ln (.fin (v * hatInvAlpha μ / hatSlope μ u))).le (.fin (-μ + n * Real.log μ - L n)) = true ↔
      v * hatInvAlpha μ ≤ hatSlope μ u * poissonWeight L μ n := by
    rcases hv.eq_or_lt with rfl | hv
    · simp only [zero_mul, zero_div]
      rw [hL.ln_zero]
      simp only [Fl.le, true_iff]
      positivity
    · have : 0 < v * hatInvAlpha μ / hatSlope μ u := by positivity
      rw [hL.ln _ this]
      simp only [Fl.le, decide_eq_true_eq]
      rw [Real.log_le_iff_le_exp this, div_le_iff₀ hslope]
      unfold poissonWeight
      rw [mul_comm (hatSlope μ u)]
  have e07 : ((Rounding.exact ℝ).rnd (7 / 100 : ℝ)).le (.fin (border u)) = decide ((0.07 : ℝ) ≤ border u) := by
    rw [exactRnd]; simp only [Fl.le]; norm_num
  have e13 : (Fl.fin (border u)).lt ((Rounding.exact ℝ).rnd (13 / 1000 : ℝ)) = decide (border u < (0.013 : ℝ)) := by
    rw [exactRnd]; simp only [Fl.lt]; norm_num
  have ev : (Fl.fin v).le (.fin (hatVr μ)) = decide (v ≤ hatVr μ) := rfl
  have ev' : (Fl.fin (border u)).lt (.fin v) = decide (border u < v) := rfl
  rw [e07, e13, ev, ev', ← Bool.decide_and, ← Bool.decide_and]
  simp only [decide_eq_true_eq, hacc]
  by_cases c1 : (0.07 : ℝ) ≤ border u ∧ v ≤ hatVr μ
  · rw [if_pos c1]
    simp only [Option.some.injEq, hb, hneg, true_and]
    constructor
    · rintro rfl; exact ⟨rfl, .inl c1⟩
    · rintro ⟨rfl, -⟩; rfl
  rw [if_neg c1]
  by_cases c2 : border u < (0.013 : ℝ) ∧ border u < v
  · rw [if_pos c2]
    simp only [reduceCtorEq, hb, hneg, true_and, false_iff]
    rintro ⟨-, hc | hc⟩
    · exact c1 hc
    · exact hc.1 c2
  rw [if_neg c2]
  by_cases c3 : v * hatInvAlpha μ ≤ hatSlope μ u * poissonWeight L μ n
  · rw [if_pos c3]
    simp only [Option.some.injEq, hb, hneg, true_and]
    constructor
    · rintro rfl; exact ⟨rfl, .inr ⟨c2, c3⟩⟩
    · rintro ⟨rfl, -⟩; rfl
  · rw [if_neg c3]
    simp only [reduceCtorEq, hb, hneg, true_and, false_iff]
    rintro ⟨rfl, hc | hc⟩
    · exact c1 hc
    · exact c3 hc.2

/-- C81: a round with `u` well inside and `v` at most 0.64 returns. -/
theorem C81_quick (hL : lib.OnReals) (h : 30 ≤ μ) {u v : ℝ} (hu0 : 0.07 ≤ u) (hu1 : u ≤ 0.93) (hv0 : 0 ≤ v) (hv1 : v ≤ 0.64) :
    ptrsCandidate (Rounding.exact ℝ) lib (.fin μ) (.fin u) (.fin v) = some (min ⌊hatX μ u⌋₊ (2 ^ 63 - 1)) := by
  obtain ⟨L, -, hr⟩ := C81_round hL h
  have hb : (0.07 : ℝ) ≤ border u := by
    unfold border
    have : |u - 1 / 2| ≤ 0.43 := abs_le.mpr ⟨by linarith, by linarith⟩
    linarith
  have hb0 : 0 < border u := by linarith
  refine (hr u v (by linarith) (by linarith) hv0 _).mpr ⟨hb0, ?_, rfl, .inl ⟨hb, hv1.trans (hatVr_ge h)⟩⟩
  have hA := hatA_pos h
  have hB := hatB_ge h
  have h1 : 2 * hatA μ / border u ≤ 0.71 * hatB μ := by
    rw [div_le_iff₀ hb0]
    have : hatA μ ≤ 0.02483 * hatB μ := by unfold hatA; linarith
    nlinarith
  have h2 : 0 ≤ 2 * hatA μ / border u + hatB μ := by positivity
  have h3 : (2 * hatA μ / border u + hatB μ) * (u - 1 / 2) ≥ (1.71 * hatB μ) * (-0.43) := by nlinarith
  have h4 : 0.7353 * hatB μ ≤ μ + 0.43 := by
    have hs : √μ * √μ = μ := Real.mul_self_sqrt (by linarith)
    have h5 : (5.47 : ℝ) ≤ √μ := by
      rw [Real.le_sqrt (by norm_num)]
      · norm_num; linarith
      · linarith
    unfold hatB
    nlinarith
  unfold hatX
  linarith

/-! ## The rejection loop -/

variable {Ω : Type} [MeasurableSpace Ω] {P : Measure Ω} {U : ℕ → Ω → ℝ} {I : ℕ → Ω → ℕ}

instance : IsProbabilityMeasure (volume.restrict (Set.Ico (0 : ℝ) 1)) := ⟨by simp⟩
instance : IsProbabilityMeasure unitSquare := by unfold unitSquare; infer_instance

/-- The pair of draws of round `i`. -/
def roundPair (U : ℕ → Ω → ℝ) (i : ℕ) (ω : Ω) : ℝ × ℝ := (U (2 * i) ω, U (2 * i + 1) ω)

theorem FairFloats.roundPair_meas (h : FairFloats P U) (i : ℕ) : Measurable (roundPair U i) :=
  (h.meas _).prodMk (h.meas _)

theorem FairFloats.roundPair_law [IsProbabilityMeasure P] (h : FairFloats P U) (i : ℕ) {B : Set (ℝ × ℝ)} (hB : MeasurableSet B) :
    P {ω | roundPair U i ω ∈ B} = unitSquare B := by
  have hind : IndepFun (U (2 * i)) (U (2 * i + 1)) P := h.indep.indepFun (by omega)
  have := (indepFun_iff_map_prod_eq_prod_map_map (h.meas _).aemeasurable (h.meas _).aemeasurable).mp hind
  rw [h.law, h.law] at this
  unfold unitSquare
  rw [← this, Measure.map_apply ((h.meas _).prodMk (h.meas _)) hB]
  rfl

/-- Rounds are independent: the first `i` draws fall in `N` and the next in `B`. -/
theorem FairFloats.rounds [IsProbabilityMeasure P] (h : FairFloats P U) {N : Set (ℝ × ℝ)} (hN : MeasurableSet N) (i : ℕ) :
    (∀ {B : Set (ℝ × ℝ)}, MeasurableSet B →
      P ({ω | ∀ j < i, roundPair U j ω ∈ N} ∩ {ω | roundPair U i ω ∈ B}) = unitSquare N ^ i * unitSquare B) := by
  have hstep : ∀ i {B : Set (ℝ × ℝ)}, MeasurableSet B →
      P ({ω | ∀ j < i, roundPair U j ω ∈ N} ∩ {ω | roundPair U i ω ∈ B}) =
        P {ω | ∀ j < i, roundPair U j ω ∈ N} * unitSquare B := by
    intro i B hB
    have hd : Disjoint (Finset.range (2 * i)) {2 * i, 2 * i + 1} := by
      rw [Finset.disjoint_left]
      intro a ha hb
      simp only [Finset.mem_range, Finset.mem_insert, Finset.mem_singleton] at ha hb
      omega
    have hi := h.indep.indepFun_finset _ _ hd h.meas
    have m1 : ∀ j : Fin i, 2 * j.1 ∈ Finset.range (2 * i) := fun j => by have := j.2; simp only [Finset.mem_range]; omega
    have m2 : ∀ j : Fin i, 2 * j.1 + 1 ∈ Finset.range (2 * i) := fun j => by have := j.2; simp only [Finset.mem_range]; omega
    have hS : MeasurableSet {x : Finset.range (2 * i) → ℝ | ∀ j : Fin i, (x ⟨_, m1 j⟩, x ⟨_, m2 j⟩) ∈ N} := by
      rw [Set.setOf_forall]
      exact MeasurableSet.iInter fun j => measurableSet_preimage
        ((measurable_pi_apply _).prodMk (measurable_pi_apply _)) hN
    have hT : MeasurableSet {x : ({2 * i, 2 * i + 1} : Finset ℕ) → ℝ | (x ⟨2 * i, by simp⟩, x ⟨2 * i + 1, by simp⟩) ∈ B} :=
      measurableSet_preimage ((measurable_pi_apply _).prodMk (measurable_pi_apply _)) hB
    have key := hi.measure_inter_preimage_eq_mul _ _ hS hT
    have e1 : (fun a (k : Finset.range (2 * i)) => U k a) ⁻¹'
        {x : Finset.range (2 * i) → ℝ | ∀ j : Fin i, (x ⟨_, m1 j⟩, x ⟨_, m2 j⟩) ∈ N} = {ω | ∀ j < i, roundPair U j ω ∈ N} := by
      ext ω
      constructor
      · intro hh j hj; exact hh ⟨j, hj⟩
      · intro hh j; exact hh j.1 j.2
    have e2 : (fun a (k : ({2 * i, 2 * i + 1} : Finset ℕ)) => U k a) ⁻¹'
        {x : ({2 * i, 2 * i + 1} : Finset ℕ) → ℝ | (x ⟨2 * i, by simp⟩, x ⟨2 * i + 1, by simp⟩) ∈ B} =
        {ω | roundPair U i ω ∈ B} := rfl
    rw [e1, e2, h.roundPair_law i hB] at key
    exact key
  have hpow : P {ω | ∀ j < i, roundPair U j ω ∈ N} = unitSquare N ^ i := by
    induction i with
    | zero => simp
    | succ i ih =>
      have : {ω | ∀ j < i + 1, roundPair U j ω ∈ N} = {ω | ∀ j < i, roundPair U j ω ∈ N} ∩ {ω | roundPair U i ω ∈ N} := by
        ext ω
        simp only [Set.mem_setOf_eq, Set.mem_inter_iff, Nat.lt_succ_iff_lt_or_eq]
        constructor
        · intro hh; exact ⟨fun j hj => hh j (.inl hj), hh i (.inr rfl)⟩
        · rintro ⟨h1, h2⟩ j (hj | rfl)
          · exact h1 j hj
          · exact h2
      rw [this, hstep i hN, ih, pow_succ]
  intro B hB
  rw [hstep i hB, hpow]

/-- What the rejection loop returns: the outcome of the first round that has one. -/
theorem ptrsLoop_iff {K : Type} (c : Fl K → Fl K → Option ℕ) (n k : ℕ) (g : Rng (Fl K)) :
    (∃ g', ptrsLoop c n g = some (k, g')) ↔
      ∃ i < n, (∀ j < i, c (g.floats (2 * j)) (g.floats (2 * j + 1)) = none) ∧
        c (g.floats (2 * i)) (g.floats (2 * i + 1)) = some k := by
  induction n generalizing g with
  | zero => simp [ptrsLoop, Rand.fail]
  | succ n ih =>
    have hrun : ptrsLoop c (n + 1) g =
        (match c (g.floats 0) (g.floats 1) with | some k => pure k | none => ptrsLoop c n : Rand (Fl K) ℕ)
          g.nextFloat.nextFloat := rfl
    rw [hrun]
    cases hc : c (g.floats 0) (g.floats 1) with
    | some k' =>
      constructor
      · rintro ⟨g', hg⟩
        have : k' = k := congrArg Prod.fst (Option.some.inj hg)
        exact ⟨0, by omega, by simp, by rw [← this]; exact hc⟩
      · rintro ⟨i, -, h1, h2⟩
        rcases i with _ | i
        · have : k' = k := by
            have := hc.symm.trans h2
            exact Option.some.inj this
          exact ⟨_, by rw [this]; rfl⟩
        · have := hc.symm.trans (h1 0 (by omega))
          cases this
    | none =>
      have := ih g.nextFloat.nextFloat
      simp only []
      rw [this]
      have e : ∀ m, g.nextFloat.nextFloat.floats m = g.floats (m + 2) := fun m => rfl
      simp only [e]
      constructor
      · rintro ⟨i, hi, h1, h2⟩
        refine ⟨i + 1, by omega, fun j hj => ?_, h2⟩
        rcases j with _ | j
        · exact hc
        · exact h1 j (by omega)
      · rintro ⟨i, hi, h1, h2⟩
        rcases i with _ | i
        · have := hc.symm.trans h2
          cases this
        · exact ⟨i, by omega, fun j hj => h1 (j + 1) (by omega), h2⟩

theorem measurable_border : Measurable border := by unfold border; fun_prop
theorem measurable_hatX (μ : ℝ) : Measurable (hatX μ) := by
  unfold hatX
  have := measurable_border
  fun_prop
theorem measurable_hatSlope (μ : ℝ) : Measurable (hatSlope μ) := by
  unfold hatSlope
  have := measurable_border
  fun_prop

theorem ptrsOutcome_some_meas (hL : lib.OnReals) (h : 30 ≤ μ) (k : ℕ) : MeasurableSet (ptrsOutcome lib μ (some k)) := by
  obtain ⟨L, -, hr⟩ := C81_round hL h
  have e : ptrsOutcome lib μ (some k) = {p : ℝ × ℝ | p.1 ∈ Set.Ico 0 1} ∩ {p : ℝ × ℝ | p.2 ∈ Set.Ico 0 1} ∩
      ({p : ℝ × ℝ | 0 < border p.1} ∩ ({p : ℝ × ℝ | 0 ≤ hatX μ p.1} ∩ ({p : ℝ × ℝ | k = min ⌊hatX μ p.1⌋₊ (2 ^ 63 - 1)} ∩
        (({p : ℝ × ℝ | 0.07 ≤ border p.1} ∩ {p : ℝ × ℝ | p.2 ≤ hatVr μ}) ∪
          ({p : ℝ × ℝ | border p.1 < 0.013} ∩ {p : ℝ × ℝ | border p.1 < p.2})ᶜ ∩
          {p : ℝ × ℝ | p.2 * hatInvAlpha μ ≤ hatSlope μ p.1 * poissonWeight L μ k})))) := by
    ext p
    simp only [ptrsOutcome, Set.mem_setOf_eq, Set.mem_inter_iff, Set.mem_union, Set.mem_compl_iff, and_assoc]
    refine and_congr_right fun h1 => and_congr_right fun h2 => ?_
    exact (hr p.1 p.2 h1.1 h1.2 h2.1 k).trans (by simp only [and_assoc])
  rw [e]
  have mb : Measurable fun p : ℝ × ℝ => border p.1 := measurable_border.comp measurable_fst
  have mx : Measurable fun p : ℝ × ℝ => hatX μ p.1 := (measurable_hatX μ).comp measurable_fst
  have ms : Measurable fun p : ℝ × ℝ => hatSlope μ p.1 := (measurable_hatSlope μ).comp measurable_fst
  refine ((measurable_fst measurableSet_Ico).inter (measurable_snd measurableSet_Ico)).inter
    ((measurableSet_lt measurable_const mb).inter ((measurableSet_le measurable_const mx).inter
      (MeasurableSet.inter ?_ (MeasurableSet.union ?_ (MeasurableSet.inter (MeasurableSet.compl ?_) ?_)))))
  · have : Measurable fun p : ℝ × ℝ => min ⌊hatX μ p.1⌋₊ (2 ^ 63 - 1) := (Nat.measurable_floor.comp mx).min measurable_const
    have := this (MeasurableSet.of_discrete (s := {k}))
    convert this using 1
    ext p
    exact eq_comm
  · exact (measurableSet_le measurable_const mb).inter (measurableSet_le measurable_snd measurable_const)
  · exact (measurableSet_lt mb measurable_const).inter (measurableSet_lt mb measurable_snd)
  · exact measurableSet_le (measurable_snd.mul_const _) (ms.mul_const _)

theorem unit_meas : MeasurableSet {p : ℝ × ℝ | p.1 ∈ Set.Ico (0 : ℝ) 1 ∧ p.2 ∈ Set.Ico (0 : ℝ) 1} :=
  (measurable_fst measurableSet_Ico).inter (measurable_snd measurableSet_Ico)

theorem ptrsOutcome_none_eq : ptrsOutcome lib μ none = {p : ℝ × ℝ | p.1 ∈ Set.Ico (0 : ℝ) 1 ∧ p.2 ∈ Set.Ico (0 : ℝ) 1} \
    ⋃ k, ptrsOutcome lib μ (some k) := by
  ext p
  simp only [ptrsOutcome, Set.mem_setOf_eq, Set.mem_diff, Set.mem_iUnion, not_exists]
  constructor
  · rintro ⟨h1, h2, h3⟩
    exact ⟨⟨h1, h2⟩, fun k hk => by rw [h3] at hk; cases hk.2.2⟩
  · rintro ⟨⟨h1, h2⟩, h3⟩
    refine ⟨h1, h2, ?_⟩
    cases hc : ptrsCandidate (Rounding.exact ℝ) lib (.fin μ) (.fin p.1) (.fin p.2) with
    | none => rfl
    | some k => exact absurd ⟨h1, h2, hc⟩ (h3 k)

theorem ptrsOutcome_meas (hL : lib.OnReals) (h : 30 ≤ μ) (o : Option ℕ) : MeasurableSet (ptrsOutcome lib μ o) := by
  cases o with
  | some k => exact ptrsOutcome_some_meas hL h k
  | none =>
    rw [ptrsOutcome_none_eq]
    exact unit_meas.diff (MeasurableSet.iUnion fun k => ptrsOutcome_some_meas hL h k)

/-- At most 9 / 20 of the rounds are repeated. -/
theorem ptrs_reject_le (hL : lib.OnReals) (h : 30 ≤ μ) : unitSquare (ptrsOutcome lib μ none) ≤ 9 / 20 := by
  set Q : Set (ℝ × ℝ) := Set.Icc 0.07 0.93 ×ˢ Set.Icc 0 0.64 with hQ
  have hQm : MeasurableSet Q := measurableSet_Icc.prod measurableSet_Icc
  have hsub : ptrsOutcome lib μ none ⊆ Qᶜ := by
    rintro ⟨u, v⟩ ⟨-, -, hn⟩ ⟨hu, hv⟩
    have hu : (0.07 : ℝ) ≤ u ∧ u ≤ 0.93 := hu
    have hv : (0 : ℝ) ≤ v ∧ v ≤ 0.64 := hv
    have := C81_quick hL h hu.1 hu.2 hv.1 hv.2
    rw [this] at hn
    cases hn
  refine (measure_mono hsub).trans ?_
  rw [prob_compl_eq_one_sub hQm]
  have hq : unitSquare Q = ENNReal.ofReal (0.86 * 0.64) := by
    unfold unitSquare
    rw [hQ, Measure.prod_prod, Measure.restrict_apply measurableSet_Icc, Measure.restrict_apply measurableSet_Icc,
      Set.inter_eq_left.mpr (show Set.Icc (0.07 : ℝ) 0.93 ⊆ Set.Ico 0 1 from fun x hx => ⟨by linarith [hx.1], by linarith [hx.2]⟩),
      Set.inter_eq_left.mpr (show Set.Icc (0 : ℝ) 0.64 ⊆ Set.Ico 0 1 from fun x hx => ⟨hx.1, by linarith [hx.2]⟩),
      Real.volume_Icc, Real.volume_Icc, ← ENNReal.ofReal_mul (by norm_num)]
    norm_num
  rw [hq, show (9 / 20 : ENNReal) = ENNReal.ofReal (9 / 20) by
    rw [ENNReal.ofReal_div_of_pos (by norm_num)]; norm_num, ← ENNReal.ofReal_one, ← ENNReal.ofReal_sub _ (by norm_num)]
  exact ENNReal.ofReal_le_ofReal (by norm_num)

theorem ptrs_run (h : 30 ≤ μ) (n : ℕ) : poissonSample (Rounding.exact ℝ) lib (ptrsCandidate (Rounding.exact ℝ) lib) n (.fin μ) =
    ptrsLoop (ptrsCandidate (Rounding.exact ℝ) lib (.fin μ)) n := by
  unfold poissonSample
  have e1 : ¬ ((!(Fl.fin μ).isFinite || (Fl.fin μ).le (.fin 0)) = true) := by
    have : ¬ μ ≤ 0 := by linarith
    simp [Fl.isFinite, Fl.le, this]
  have e2 : ¬ (Fl.fin μ).lt ((Rounding.exact ℝ).ofNat 30) = true := by
    simpa [Fl.lt, Rounding.ofNat, Rounding.exact] using h
  rw [if_neg e1, if_neg e2]

theorem returns_rounds (hf : FairFloats P U) (h : 30 ≤ μ) (n k : ℕ) :
    Returns (poissonSample (Rounding.exact ℝ) lib (ptrsCandidate (Rounding.exact ℝ) lib) n (.fin μ)) (streamOf I U) k =
      ⋃ i ∈ Finset.range n, {ω | ∀ j < i, roundPair U j ω ∈ ptrsOutcome lib μ none} ∩
        {ω | roundPair U i ω ∈ ptrsOutcome lib μ (some k)} := by
  ext ω
  unfold Returns
  rw [ptrs_run h]
  simp only [Set.mem_setOf_eq, Set.mem_iUnion, Finset.mem_range, Set.mem_inter_iff, exists_prop]
  rw [ptrsLoop_iff]
  have hu : ∀ j, U j ω ∈ Set.Ico (0 : ℝ) 1 := fun j => hf.unit j ω
  have e : ∀ i o, roundPair U i ω ∈ ptrsOutcome lib μ o ↔ ptrsCandidate (Rounding.exact ℝ) lib (.fin μ)
      ((streamOf I U ω).floats (2 * i)) ((streamOf I U ω).floats (2 * i + 1)) = o := by
    intro i o
    exact ⟨fun hh => hh.2.2, fun hh => ⟨hu _, hu _, hh⟩⟩
  simp only [e]

/-- C81: with fair draws and exact arithmetic, within `n` rounds the sampler returns `k` with the probability that one round
returns `k`, times the sum of the powers of the probability that a round is repeated. -/
theorem C81_law [IsProbabilityMeasure P] (hf : FairFloats P U) (hL : lib.OnReals) (h : 30 ≤ μ) (n k : ℕ) :
    P (Returns (poissonSample (Rounding.exact ℝ) lib (ptrsCandidate (Rounding.exact ℝ) lib) n (.fin μ)) (streamOf I U) k) =
      unitSquare (ptrsOutcome lib μ (some k)) * ∑ i ∈ Finset.range n, unitSquare (ptrsOutcome lib μ none) ^ i := by
  rw [returns_rounds hf h, measure_biUnion_finset, Finset.mul_sum]
  · refine Finset.sum_congr rfl fun i _ => ?_
    rw [hf.rounds (ptrsOutcome_meas hL h none) i (ptrsOutcome_meas hL h _), mul_comm]
  · intro i _ j _ hij
    rw [Function.onFun, Set.disjoint_left]
    rintro ω ⟨h1, h2⟩ ⟨h3, h4⟩
    rcases lt_or_gt_of_ne hij with hlt | hlt
    · have := (h3 i hlt).2.2.symm.trans h2.2.2
      cases this
    · have := (h1 j hlt).2.2.symm.trans h4.2.2
      cases this
  · intro i _
    refine MeasurableSet.inter ?_ (hf.roundPair_meas i (ptrsOutcome_meas hL h _))
    simp only [Set.setOf_forall]
    exact MeasurableSet.iInter fun j => MeasurableSet.iInter fun _ => hf.roundPair_meas j (ptrsOutcome_meas hL h _)

/-- C81: the probability that `n` rounds have no result is at most `(9/20) ^ n`. -/
theorem C81_rounds [IsProbabilityMeasure P] (hf : FairFloats P U) (hL : lib.OnReals) (h : 30 ≤ μ) (n : ℕ) :
    P {ω | poissonSample (Rounding.exact ℝ) lib (ptrsCandidate (Rounding.exact ℝ) lib) n (.fin μ) (streamOf I U ω) = none} ≤
      (9 / 20) ^ n := by
  have hsub : {ω | poissonSample (Rounding.exact ℝ) lib (ptrsCandidate (Rounding.exact ℝ) lib) n (.fin μ) (streamOf I U ω) = none} ⊆
      {ω | ∀ j < n, roundPair U j ω ∈ ptrsOutcome lib μ none} ∩ {ω | roundPair U n ω ∈ (Set.univ : Set (ℝ × ℝ))} := by
    intro ω hω
    refine ⟨?_, Set.mem_univ _⟩
    rw [Set.mem_setOf_eq, ptrs_run h] at hω
    by_contra hc
    simp only [Set.mem_setOf_eq, not_forall] at hc
    have hex : ∃ j, j < n ∧ roundPair U j ω ∉ ptrsOutcome lib μ none := by
      obtain ⟨j, hj, hh⟩ := hc; exact ⟨j, hj, hh⟩
    classical
    obtain ⟨h1, h2⟩ := Nat.find_spec hex
    have hmin := fun j (hj : j < Nat.find hex) => Nat.find_min hex hj
    set i := Nat.find hex
    have hnone : ∀ j < i, roundPair U j ω ∈ ptrsOutcome lib μ none := fun j hj => by
      have := hmin j hj
      by_contra hcc
      exact this ⟨by omega, hcc⟩
    cases hc : ptrsCandidate (Rounding.exact ℝ) lib (.fin μ) (.fin (U (2 * i) ω)) (.fin (U (2 * i + 1) ω)) with
    | none => exact h2 ⟨hf.unit _ ω, hf.unit _ ω, hc⟩
    | some k =>
      obtain ⟨g', hg⟩ := (ptrsLoop_iff (ptrsCandidate (Rounding.exact ℝ) lib (.fin μ)) n k (streamOf I U ω)).mpr
        ⟨i, h1, fun j hj => (hnone j hj).2.2, hc⟩
      rw [hg] at hω
      cases hω
  refine (measure_mono hsub).trans ?_
  rw [hf.rounds (ptrsOutcome_meas hL h none) n MeasurableSet.univ, measure_univ, mul_one]
  exact pow_le_pow_left' (ptrs_reject_le hL h) n

/-- C81: with no bound on the rounds, the result is `k` with the probability that a round that returns returns `k`. -/
theorem C81_distribution [IsProbabilityMeasure P] (hf : FairFloats P U) (hL : lib.OnReals) (h : 30 ≤ μ) (k : ℕ) :
    P {ω | ∃ n, ω ∈ Returns (poissonSample (Rounding.exact ℝ) lib (ptrsCandidate (Rounding.exact ℝ) lib) n (.fin μ)) (streamOf I U) k} =
      unitSquare (ptrsOutcome lib μ (some k)) / (1 - unitSquare (ptrsOutcome lib μ none)) := by
  have e : {ω | ∃ n, ω ∈ Returns (poissonSample (Rounding.exact ℝ) lib (ptrsCandidate (Rounding.exact ℝ) lib) n (.fin μ)) (streamOf I U) k} =
      ⋃ i, {ω | ∀ j < i, roundPair U j ω ∈ ptrsOutcome lib μ none} ∩ {ω | roundPair U i ω ∈ ptrsOutcome lib μ (some k)} := by
    ext ω
    simp only [returns_rounds hf h, Set.mem_setOf_eq, Set.mem_iUnion, Finset.mem_range, exists_prop]
    exact ⟨fun ⟨n, i, _, hi⟩ => ⟨i, hi⟩, fun ⟨i, hi⟩ => ⟨i + 1, i, by omega, hi⟩⟩
  rw [e, measure_iUnion]
  · have : ∀ i, P ({ω | ∀ j < i, roundPair U j ω ∈ ptrsOutcome lib μ none} ∩ {ω | roundPair U i ω ∈ ptrsOutcome lib μ (some k)}) =
        unitSquare (ptrsOutcome lib μ none) ^ i * unitSquare (ptrsOutcome lib μ (some k)) := fun i =>
      hf.rounds (ptrsOutcome_meas hL h none) i (ptrsOutcome_meas hL h _)
    simp only [this]
    rw [ENNReal.tsum_mul_right, ENNReal.tsum_geometric, mul_comm, ENNReal.div_eq_inv_mul, mul_comm]
  · intro i j hij
    rw [Function.onFun, Set.disjoint_left]
    rintro ω ⟨h1, h2⟩ ⟨h3, h4⟩
    rcases lt_or_gt_of_ne hij with hlt | hlt
    · have := (h3 i hlt).2.2.symm.trans h2.2.2
      cases this
    · have := (h1 j hlt).2.2.symm.trans h4.2.2
      cases this
  · intro i
    refine MeasurableSet.inter ?_ (hf.roundPair_meas i (ptrsOutcome_meas hL h _))
    simp only [Set.setOf_forall]
    exact MeasurableSet.iInter fun j => MeasurableSet.iInter fun _ => hf.roundPair_meas j (ptrsOutcome_meas hL h _)

/-! ## The sampler ends -/

theorem productTail_tendsto {t : ℝ} (h0 : 0 < t) : Filter.Tendsto (fun k => productTail k t) Filter.atTop (nhds 0) := by
  have hs := (NormedSpace.expSeries_div_hasSum_exp (-Real.log t)).tendsto_sum_nat
  rw [← Real.exp_eq_exp_ℝ, Real.exp_neg, Real.exp_log h0] at hs
  have := (hs.const_mul t).const_sub 1
  rw [mul_inv_cancel₀ h0.ne', sub_self] at this
  exact this

/-- C81: with fair draws and exact arithmetic the sampler returns with probability 1, whatever the mean. -/
theorem C81_ends [IsProbabilityMeasure P] (hf : FairFloats P U) (hL : lib.OnReals) (mean : Fl ℝ) :
    P (EndsOn (fun n => poissonSample (Rounding.exact ℝ) lib (ptrsCandidate (Rounding.exact ℝ) lib) n mean) (streamOf I U))ᶜ = 0 := by
  by_cases h1 : (!mean.isFinite || mean.le (.fin 0)) = true
  · have : EndsOn (fun n => poissonSample (Rounding.exact ℝ) lib (ptrsCandidate (Rounding.exact ℝ) lib) n mean) (streamOf I U) = Set.univ := by
      ext ω
      simp only [EndsOn, Set.mem_setOf_eq, Set.mem_univ, iff_true]
      refine ⟨0, (0, streamOf I U ω), ?_⟩
      unfold poissonSample
      rw [if_pos h1]; rfl
    rw [this, Set.compl_univ, measure_empty]
  obtain ⟨μ, rfl, hμ⟩ : ∃ μ : ℝ, mean = .fin μ ∧ 0 < μ := by
    cases mean with
    | fin μ => exact ⟨μ, rfl, by simpa [Fl.isFinite, Fl.le] using h1⟩
    | _ => simp [Fl.isFinite] at h1
  rcases lt_or_ge μ 30 with h30 | h30
  · set L := Real.exp (-μ) with hLd
    have hL0 : 0 < L := Real.exp_pos _
    have hL1 : L < 1 := by rw [hLd, Real.exp_lt_one_iff]; linarith
    have hrun : ∀ n, poissonSample (Rounding.exact ℝ) lib (ptrsCandidate (Rounding.exact ℝ) lib) n (.fin μ) =
        knuthLoop (Rounding.exact ℝ) (.fin L) n 0 (.fin 1) := by
      intro n
      unfold poissonSample
      have e2 : (Fl.fin μ).lt ((Rounding.exact ℝ).ofNat 30) = true := by
        simpa [Fl.lt, Rounding.ofNat, Rounding.exact] using h30
      rw [if_neg h1, if_pos e2]
      congr 1
      exact hL.exp _
    have hbound : ∀ k, P (EndsOn (fun n => poissonSample (Rounding.exact ℝ) lib (ptrsCandidate (Rounding.exact ℝ) lib) n (.fin μ))
        (streamOf I U))ᶜ ≤ ENNReal.ofReal (productTail k L) := by
      intro k
      rw [← hf.tail k L hL0 hL1, ofReal_measureReal]
      refine measure_mono fun ω hω => ?_
      have hall : ∀ n, L < drawProduct U (n + 1) ω := by
        intro n
        induction n using Nat.strong_induction_on with
        | _ n ih =>
          by_contra hc
          have key := knuthLoop_exact L (n + 1) 0 1 (fun j => U j ω) (fun j => I j ω) n (by omega)
            (fun j => ⟨(hf.unit j ω).1, (hf.unit j ω).2.le⟩) zero_le_one
          simp only [zero_add, one_mul] at key
          obtain ⟨g', hg⟩ := key.mpr ⟨fun j hj => ih j hj, not_lt.mp hc⟩
          refine hω ⟨n + 1, (n, g'), ?_⟩
          show poissonSample (Rounding.exact ℝ) lib (ptrsCandidate (Rounding.exact ℝ) lib) (n + 1) (.fin μ) (streamOf I U ω) = _
          rw [hrun]
          exact hg
      cases k with
      | zero => simpa [drawProduct] using hL1
      | succ k => exact hall k
    refine le_antisymm (ge_of_tendsto' (x := Filter.atTop) ?_ hbound) zero_le
    have := ENNReal.tendsto_ofReal (productTail_tendsto hL0)
    rwa [ENNReal.ofReal_zero] at this
  · have hbound : ∀ n, P (EndsOn (fun n => poissonSample (Rounding.exact ℝ) lib (ptrsCandidate (Rounding.exact ℝ) lib) n (.fin μ))
        (streamOf I U))ᶜ ≤ (9 / 20) ^ n := by
      intro n
      refine le_trans (measure_mono fun ω hω => ?_) (C81_rounds (I := I) hf hL h30 n)
      cases hc : poissonSample (Rounding.exact ℝ) lib (ptrsCandidate (Rounding.exact ℝ) lib) n (.fin μ) (streamOf I U ω) with
      | none => exact hc
      | some r => exact absurd ⟨n, r, hc⟩ hω
    refine le_antisymm (ge_of_tendsto' (x := Filter.atTop) ?_ hbound) zero_le
    refine ENNReal.tendsto_pow_atTop_nhds_zero_of_lt_one ?_
    rw [ENNReal.div_lt_iff (by simp) (by simp)]
    norm_num

/-- A library with the real functions exists, and fair draws exist (C76): a mean of 100 has a result with probability 1. -/
noncomputable def realLibm : Libm ℝ where
  exp | .fin x => .fin (Real.exp x) | x => x
  ln | .fin x => if x = 0 then .ninf else .fin (Real.log x) | x => x
  sqrt | .fin x => .fin (√x) | x => x
  floor | .fin x => .fin ⌊x⌋ | x => x
  toNat | .fin x => if x < 0 then none else some (min ⌊x⌋₊ (2 ^ 63 - 1)) | _ => none

theorem realLibm_onReals : realLibm.OnReals where
  exp _ := rfl
  ln x h := by simp [realLibm, h.ne']
  ln_zero := by simp [realLibm]
  sqrt _ _ := rfl
  floor _ := rfl
  toNat_neg x h := by simp [realLibm, h]
  toNat_nonneg x h := by simp [realLibm, not_lt.mpr h]

/-- For a mean of 100 the draws 1/2, 1/2 return 100, and the draws 1/100, 1/2 are repeated. -/
example : ptrsCandidate (Rounding.exact ℝ) realLibm (.fin 100) (.fin (1 / 2)) (.fin (1 / 2)) = some 100 ∧
    ptrsCandidate (Rounding.exact ℝ) realLibm (.fin 100) (.fin (1 / 100)) (.fin (1 / 2)) = none := by
  constructor
  · rw [C81_quick realLibm_onReals (by norm_num) (by norm_num) (by norm_num) (by norm_num) (by norm_num)]
    have : ⌊hatX 100 (1 / 2)⌋₊ = 100 := by
      rw [Nat.floor_eq_iff (by unfold hatX border; norm_num)]
      unfold hatX border
      norm_num
    rw [this]; norm_num
  · obtain ⟨L, -, hr⟩ := C81_round (μ := 100) realLibm_onReals (by norm_num)
    have hb : border (1 / 100) = 1 / 100 := by
      unfold border
      rw [abs_of_neg (by norm_num)]; norm_num
    rw [Option.eq_none_iff_forall_ne_some]
    intro k hk
    obtain ⟨-, -, -, h | h⟩ := (hr _ _ (by norm_num) (by norm_num) (by norm_num) k).mp hk
    · rw [hb] at h; norm_num at h
    · rw [hb] at h; norm_num at h

/-- The hypotheses of `C81_ends` can be met. -/
example : ∃ (Q : Measure (ℕ → ℝ)) (V : ℕ → (ℕ → ℝ) → ℝ),
    Q (EndsOn (fun n => poissonSample (Rounding.exact ℝ) realLibm (ptrsCandidate (Rounding.exact ℝ) realLibm) n (.fin 100))
      (streamOf (fun _ _ => 0) V))ᶜ = 0 := by
  obtain ⟨Q, V, _, hf⟩ := fairFloats_exist
  exact ⟨Q, V, C81_ends hf realLibm_onReals _⟩

end SR
