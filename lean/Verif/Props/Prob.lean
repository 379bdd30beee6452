import Verif.Spec.Prob
import Verif.Props.Random
import Verif.Props.Tournament
import Verif.Props.MutChoice
import Verif.Props.Accept
import Mathlib.Probability.Distributions.Poisson.Basic
import Mathlib.Probability.Independence.InfinitePi
import Mathlib.Analysis.SpecialFunctions.Integrals.Basic
import Mathlib.Probability.UniformOn
import Mathlib.Data.Int.CardIntervalMod
import Mathlib.MeasureTheory.Function.Floor
/-
C76: the random choices have the documented distributions.
-/
namespace SR
open MeasureTheory ProbabilityTheory

variable {Ω : Type} [MeasurableSpace Ω] {P : Measure Ω} {U : ℕ → Ω → ℝ} {I : ℕ → Ω → ℕ}

theorem FairFloats.between (h : FairFloats P U) (k : ℕ) {a b : ℝ} (ha : 0 ≤ a) (hb : b ≤ 1) :
    P {ω | a ≤ U k ω ∧ U k ω < b} = ENNReal.ofReal (b - a) := by
  have e : {ω | a ≤ U k ω ∧ U k ω < b} = U k ⁻¹' Set.Ico a b := rfl
  rw [e, ← Measure.map_apply (h.meas k) measurableSet_Ico, h.law k, Measure.restrict_apply measurableSet_Ico,
    Set.inter_eq_left.mpr (Set.Ico_subset_Ico ha hb), Real.volume_Ico]

/-- C76: a weighted choice (exact arithmetic) picks entry `i` with probability `w i / sum w`. -/
theorem C76_weighted (h : FairFloats P U) (ws : List ℝ) (hw : ∀ w ∈ ws, 0 ≤ w) (hs : 0 < ws.sum) (i : ℕ) (w : ℝ)
    (hi : ws[i]? = some w) :
    P (Returns (weightedIndex (Rounding.exact ℝ) (ws.map .fin)) (streamOf I U) i) = ENNReal.ofReal (w / ws.sum) := by
  have hlt : i < ws.length := (List.getElem?_eq_some_iff.mp hi).1
  have e : Returns (weightedIndex (Rounding.exact ℝ) (ws.map .fin)) (streamOf I U) i =
      {ω | (ws.take i).sum / ws.sum ≤ U 0 ω ∧ U 0 ω < (ws.take (i + 1)).sum / ws.sum} := by
    ext ω
    have key := C32_interval ws hw hs (streamOf I U ω) (U 0 ω) rfl (h.unit 0 ω).1 (h.unit 0 ω).2 i
    constructor
    · rintro ⟨g', e⟩
      obtain ⟨k, v, e', -⟩ := C32_zero_never ws hw hs (streamOf I U ω) (U 0 ω) rfl (h.unit 0 ω).1 (h.unit 0 ω).2
      rw [e] at e'
      cases e'
      exact (key.mp e).2
    · intro hω
      exact ⟨_, key.mpr ⟨hlt, hω⟩⟩
  have hnn : ∀ l : List ℝ, (∀ w ∈ l, 0 ≤ w) → 0 ≤ l.sum := fun l hl => List.sum_nonneg hl
  have htake : (ws.take (i + 1)).sum = (ws.take i).sum + w := by
    rw [List.take_succ, hi, List.sum_append]; simp
  have hle : (ws.take (i + 1)).sum ≤ ws.sum := by
    have := List.sum_take_add_sum_drop ws (i + 1)
    have := hnn (ws.drop (i + 1)) fun x hx => hw x (List.mem_of_mem_drop hx)
    linarith
  rw [e, h.between 0 (div_nonneg (hnn _ fun x hx => hw x (List.mem_of_mem_take hx)) hs.le) (by rwa [div_le_one hs])]
  congr 1
  rw [htake]; ring

/-! ### Products of independent uniform draws -/

/-- The probability that a product of `k` uniform draws exceeds `t`. -/
noncomputable def productTail (k : ℕ) (t : ℝ) : ℝ := 1 - t * ∑ j ∈ Finset.range k, (-Real.log t) ^ j / (j.factorial : ℝ)

theorem productTail_succ (k : ℕ) {t : ℝ} (h0 : 0 < t) (h1 : t < 1) :
    ∫ u in t..1, productTail k (t / u) = productTail (k + 1) t := by
  have hpos : ∀ u ∈ Set.uIcc t 1, 0 < u := by
    intro u hu
    rw [Set.uIcc_of_le h1.le] at hu
    exact lt_of_lt_of_le h0 hu.1
  have hderiv : ∀ u ∈ Set.uIcc t 1,
      HasDerivAt (fun u => u - t * ∑ j ∈ Finset.range k, (-Real.log (t / u)) ^ (j + 1) / ((j + 1).factorial : ℝ))
        (productTail k (t / u)) u := by
    intro u hu
    have hu0 := hpos u hu
    have hl : HasDerivAt (fun u => -Real.log (t / u)) (1 / u) u := by
      have h2 : HasDerivAt (fun u : ℝ => t / u) (-t / u ^ 2) u := by
        refine ((hasDerivAt_inv hu0.ne').const_mul t).congr_deriv ?_
        rw [div_eq_mul_inv, neg_mul, mul_neg]
      refine (h2.log (div_ne_zero h0.ne' hu0.ne')).neg.congr_deriv ?_
      field_simp
    have hs : HasDerivAt (fun u => ∑ j ∈ Finset.range k, (-Real.log (t / u)) ^ (j + 1) / ((j + 1).factorial : ℝ))
        (∑ j ∈ Finset.range k, (-Real.log (t / u)) ^ j / (j.factorial : ℝ) * (1 / u)) u := by
      have : HasDerivAt (∑ j ∈ Finset.range k, fun u => (-Real.log (t / u)) ^ (j + 1) / ((j + 1).factorial : ℝ))
        (∑ j ∈ Finset.range k, (-Real.log (t / u)) ^ j / (j.factorial : ℝ) * (1 / u)) u := by
        refine HasDerivAt.sum fun j _ => ?_
        refine ((hl.pow (j + 1)).div_const ((j + 1).factorial : ℝ)).congr_deriv ?_
        rw [Nat.factorial_succ]
        have : (j.factorial : ℝ) ≠ 0 := by exact_mod_cast j.factorial_ne_zero
        push_cast
        have : (j : ℝ) + 1 ≠ 0 := by positivity
        field_simp
      have ef : (∑ j ∈ Finset.range k, fun u => (-Real.log (t / u)) ^ (j + 1) / ((j + 1).factorial : ℝ)) =
          fun u => ∑ j ∈ Finset.range k, (-Real.log (t / u)) ^ (j + 1) / ((j + 1).factorial : ℝ) := by
        ext v; simp
      rwa [ef] at this
    refine ((hasDerivAt_id u).sub (hs.const_mul t)).congr_deriv ?_
    unfold productTail
    rw [← Finset.sum_mul]
    field_simp
  have hcont : ContinuousOn (fun u => productTail k (t / u)) (Set.uIcc t 1) := by
    unfold productTail
    refine continuousOn_const.sub (ContinuousOn.mul ?_ (continuousOn_finset_sum _ fun j _ => ?_))
    · exact continuousOn_const.div continuousOn_id fun u hu => (hpos u hu).ne'
    · refine ((ContinuousOn.neg (ContinuousOn.log ?_ ?_)).pow j).div_const _
      · exact continuousOn_const.div continuousOn_id fun u hu => (hpos u hu).ne'
      · exact fun u hu => div_ne_zero h0.ne' (hpos u hu).ne'
  rw [intervalIntegral.integral_eq_sub_of_hasDerivAt hderiv hcont.intervalIntegrable]
  unfold productTail
  rw [Finset.sum_range_succ', div_self h0.ne', div_one]
  simp
  ring

/-- The product of the first `k` draws. -/
def drawProduct (U : ℕ → Ω → ℝ) (k : ℕ) (ω : Ω) : ℝ := ∏ j ∈ Finset.range k, U j ω

theorem FairFloats.product (h : FairFloats P U) [IsProbabilityMeasure P] (k : ℕ) :
    Measurable (drawProduct U k) ∧ (∀ ω, 0 ≤ drawProduct U k ω ∧ drawProduct U k ω ≤ 1) := by
  refine ⟨?_, fun ω => ⟨Finset.prod_nonneg fun j _ => (h.unit j ω).1, Finset.prod_le_one (fun j _ => (h.unit j ω).1)
    fun j _ => (h.unit j ω).2.le⟩⟩
  exact Finset.measurable_prod _ fun j _ => h.meas j

theorem FairFloats.product_anti (h : FairFloats P U) {j k : ℕ} (hjk : j ≤ k) (ω : Ω) : drawProduct U k ω ≤ drawProduct U j ω := by
  induction hjk with
  | refl => exact le_rfl
  | step _ ih =>
    refine le_trans ?_ ih
    unfold drawProduct
    rw [Finset.prod_range_succ]
    exact mul_le_of_le_one_right (Finset.prod_nonneg fun j _ => (h.unit j ω).1) (h.unit _ ω).2.le

theorem FairFloats.tail (h : FairFloats P U) [IsProbabilityMeasure P] (k : ℕ) :
    ∀ t : ℝ, 0 < t → t < 1 → P.real {ω | t < drawProduct U k ω} = productTail k t := by
  induction k with
  | zero =>
    intro t _ h1
    have : {ω | t < drawProduct U 0 ω} = Set.univ := by
      ext ω; simpa [drawProduct] using h1
    rw [this]; simp [productTail]
  | succ k ih =>
    intro t h0 h1
    obtain ⟨hm, hb⟩ := h.product k
    have hind : IndepFun (drawProduct U k) (U k) P := by
      have := h.indep.indepFun_prod_range_succ h.meas k
      convert this using 1
      ext ω; simp [drawProduct]
    have hjoint := (indepFun_iff_map_prod_eq_prod_map_map hm.aemeasurable (h.meas k).aemeasurable).mp hind
    have hset : MeasurableSet {p : ℝ × ℝ | t < p.1 * p.2} := measurableSet_lt measurable_const (by fun_prop)
    have e : P {ω | t < drawProduct U (k + 1) ω} =
        (P.map (drawProduct U k)).prod (volume.restrict (Set.Ico 0 1)) {p : ℝ × ℝ | t < p.1 * p.2} := by
      rw [← h.law k, ← hjoint, Measure.map_apply (by exact hm.prodMk (h.meas k)) hset]
      congr 1
      ext ω
      simp [drawProduct, Finset.prod_range_succ]
    have : IsProbabilityMeasure (P.map (drawProduct U k)) := Measure.isProbabilityMeasure_map hm.aemeasurable
    have hsec : ∀ u : ℝ, 0 ≤ u → (P.map (drawProduct U k)) ((fun x => (x, u)) ⁻¹' {p : ℝ × ℝ | t < p.1 * p.2}) =
        if t < u then ENNReal.ofReal (productTail k (t / u)) else 0 := by
      intro u hu
      rw [Measure.map_apply hm (measurableSet_preimage (by fun_prop) hset)]
      split
      · next hlt =>
        have hu0 : 0 < u := h0.trans hlt
        rw [← ih (t / u) (by positivity) (by rwa [div_lt_one hu0]), ofReal_measureReal]
        congr 1
        ext ω
        simp only [Set.mem_preimage, Set.mem_setOf_eq]
        rw [div_lt_iff₀ hu0]
      · next hlt =>
        have : drawProduct U k ⁻¹' ((fun x => (x, u)) ⁻¹' {p : ℝ × ℝ | t < p.1 * p.2}) = ∅ := by
          ext ω
          simp only [Set.mem_preimage, Set.mem_setOf_eq, Set.mem_empty_iff_false, iff_false, not_lt]
          have := hb ω
          nlinarith
        rw [this, measure_empty]
    have hnn : ∀ u, t < u → 0 ≤ productTail k (t / u) := by
      intro u hu
      have hu0 : 0 < u := h0.trans hu
      rw [← ih (t / u) (by positivity) (by rwa [div_lt_one hu0])]
      exact measureReal_nonneg
    have hcont : ContinuousOn (fun u => productTail k (t / u)) (Set.Icc t 1) := by
      have hpos : ∀ u ∈ Set.Icc t 1, 0 < u := fun u hu => lt_of_lt_of_le h0 hu.1
      unfold productTail
      refine continuousOn_const.sub (ContinuousOn.mul ?_ (continuousOn_finset_sum _ fun j _ => ?_))
      · exact continuousOn_const.div continuousOn_id fun u hu => (hpos u hu).ne'
      · refine ((ContinuousOn.neg (ContinuousOn.log ?_ ?_)).pow j).div_const _
        · exact continuousOn_const.div continuousOn_id fun u hu => (hpos u hu).ne'
        · exact fun u hu => div_ne_zero h0.ne' (hpos u hu).ne'
    have key : P {ω | t < drawProduct U (k + 1) ω} = ENNReal.ofReal (∫ u in t..1, productTail k (t / u)) := by
      rw [e, Measure.prod_apply_symm hset]
      have : ∫⁻ u in Set.Ico (0 : ℝ) 1, (P.map (drawProduct U k)) ((fun x => (x, u)) ⁻¹' {p : ℝ × ℝ | t < p.1 * p.2}) =
          ∫⁻ u in Set.Ico (0 : ℝ) 1, (Set.Ioo t 1).indicator (fun u => ENNReal.ofReal (productTail k (t / u))) u := by
        refine setLIntegral_congr_fun measurableSet_Ico fun u hu => ?_
        rw [hsec u hu.1]
        by_cases hlt : t < u
        · rw [if_pos hlt, Set.indicator_of_mem (show u ∈ Set.Ioo t 1 from ⟨hlt, hu.2⟩)]
        · rw [if_neg hlt, Set.indicator_of_notMem (fun hh => hlt hh.1)]
      rw [this, lintegral_indicator measurableSet_Ioo, Measure.restrict_restrict measurableSet_Ioo,
        Set.inter_eq_left.mpr (show Set.Ioo t 1 ⊆ Set.Ico 0 1 from fun u hu => ⟨h0.le.trans hu.1.le, hu.2⟩),
        intervalIntegral.integral_of_le h1.le, integral_Ioc_eq_integral_Ioo]
      rw [ofReal_integral_eq_lintegral_ofReal]
      · exact (hcont.integrableOn_Icc).mono_set Set.Ioo_subset_Icc_self
      · exact (ae_restrict_iff' measurableSet_Ioo).mpr (Filter.Eventually.of_forall fun u hu => hnn u hu.1)
    rw [measureReal_def, key, productTail_succ k h0 h1, ENNReal.toReal_ofReal]
    rw [← productTail_succ k h0 h1]
    rw [intervalIntegral.integral_of_le h1.le]
    exact setIntegral_nonneg measurableSet_Ioc fun u hu => hnn u hu.1

theorem knuthLoop_ge {K : Type} [Field K] [LinearOrder K] (R : Rounding K) (limit : Fl K) (fuel : ℕ) :
    ∀ (k : ℕ) (p : Fl K) (g : Rng (Fl K)) (r : ℕ) (g' : Rng (Fl K)), knuthLoop R limit fuel k p g = some (r, g') → k ≤ r := by
  induction fuel with
  | zero => intro k p g r g' e; cases e
  | succ fuel ih =>
    intro k p g r g' e
    rw [knuthLoop, Rand.run_bind] at e
    simp only [Rand.float] at e
    split at e
    · cases e; exact le_rfl
    · have := ih _ _ _ _ _ e; omega

/-- Knuth's loop in exact arithmetic: the number of draws after which the product has reached the limit. -/
theorem knuthLoop_exact (limit : ℝ) (fuel : ℕ) : ∀ (k : ℕ) (p : ℝ) (u : ℕ → ℝ) (ints : ℕ → ℕ) (n : ℕ), n < fuel →
    (∀ j, 0 ≤ u j ∧ u j ≤ 1) → 0 ≤ p →
    ((∃ g', knuthLoop (Rounding.exact ℝ) (.fin limit) fuel k (.fin p) ⟨ints, fun j => .fin (u j)⟩ = some (k + n, g')) ↔
      (∀ j < n, limit < p * ∏ i ∈ Finset.range (j + 1), u i) ∧ p * ∏ i ∈ Finset.range (n + 1), u i ≤ limit) := by
  induction fuel with
  | zero => intro k p u ints n h; omega
  | succ fuel ih =>
    intro k p u ints n hn hu hp
    have hstep : knuthLoop (Rounding.exact ℝ) (.fin limit) (fuel + 1) k (.fin p) ⟨ints, fun j => .fin (u j)⟩ =
        if p * u 0 ≤ limit then some (k, ⟨ints, fun j => .fin (u (j + 1))⟩)
        else knuthLoop (Rounding.exact ℝ) (.fin limit) fuel (k + 1) (.fin (p * u 0)) ⟨ints, fun j => .fin (u (j + 1))⟩ := by
      rw [knuthLoop, Rand.run_bind]
      show (if Fl.le (.fin (p * u 0)) (.fin limit) = true then _ else _ : Rand (Fl ℝ) ℕ) _ = _
      by_cases h : p * u 0 ≤ limit
      · rw [if_pos (by simpa [Fl.le] using h), if_pos h]; rfl
      · rw [if_neg (by simpa [Fl.le] using h), if_neg h]; rfl
    rw [hstep]
    by_cases h : p * u 0 ≤ limit
    · rw [if_pos h]
      cases n with
      | zero => simp [h]
      | succ n =>
        constructor
        · rintro ⟨g', e⟩
          simp at e
        · rintro ⟨h1, -⟩
          have := h1 0 (by omega)
          simp at this
          linarith
    · rw [if_neg h]
      cases n with
      | zero =>
        constructor
        · rintro ⟨g', e⟩
          exfalso
          have := knuthLoop_ge _ _ _ _ _ _ _ _ e
          omega
        · rintro ⟨-, h2⟩
          simp at h2
          exact absurd h2 h
      | succ n =>
        have := ih (k + 1) (p * u 0) (fun j => u (j + 1)) ints n (by omega) (fun j => hu (j + 1)) (mul_nonneg hp (hu 0).1)
        rw [show k + (n + 1) = k + 1 + n by omega, this]
        have hprod : ∀ j, p * u 0 * ∏ i ∈ Finset.range j, u (i + 1) = p * ∏ i ∈ Finset.range (j + 1), u i := by
          intro j
          rw [Finset.prod_range_succ']; ring
        simp only [hprod]
        constructor
        · rintro ⟨h1, h2⟩
          refine ⟨fun j hj => ?_, h2⟩
          cases j with
          | zero => simpa using h
          | succ j => exact h1 j (by omega)
        · rintro ⟨h1, h2⟩
          exact ⟨fun j hj => h1 (j + 1) (by omega), h2⟩

/-- C76: the number of migrants.  With fair draws, exact arithmetic and the exponential function, the sampler for a mean
below 30 returns `k` (within the iterations allowed) with the Poisson probability `e ^ (-mean) mean ^ k / k!`. -/
theorem C76_poisson [IsProbabilityMeasure P] (h : FairFloats P U) (lib : Libm ℝ) (hexp : ∀ x : ℝ, lib.exp (.fin x) = .fin (Real.exp x))
    (cand : Fl ℝ → Fl ℝ → Fl ℝ → Option ℕ) (fuel : ℕ) (mean : NNReal) (h0 : 0 < mean) (h30 : mean < 30) (k : ℕ) (hk : k < fuel) :
    P (Returns (poissonSample (Rounding.exact ℝ) lib cand fuel (.fin mean)) (streamOf I U) k) = poissonMeasure mean {k} := by
  have hm : (0 : ℝ) < mean := h0
  have hm30 : (mean : ℝ) < 30 := by exact_mod_cast h30
  set L := Real.exp (-(mean : ℝ)) with hL
  have hL0 : 0 < L := Real.exp_pos _
  have hL1 : L < 1 := by rw [hL, Real.exp_lt_one_iff]; linarith
  have e : Returns (poissonSample (Rounding.exact ℝ) lib cand fuel (.fin mean)) (streamOf I U) k =
      {ω | L < drawProduct U k ω} \ {ω | L < drawProduct U (k + 1) ω} := by
    ext ω
    have hrun : poissonSample (Rounding.exact ℝ) lib cand fuel (.fin (mean : ℝ)) =
        knuthLoop (Rounding.exact ℝ) (.fin L) fuel 0 (.fin 1) := by
      unfold poissonSample
      have e1 : ¬ ((!(Fl.fin (mean : ℝ)).isFinite || (Fl.fin (mean : ℝ)).le (.fin 0)) = true) := by
        simp [Fl.isFinite, Fl.le, hm]
      have e2 : (Fl.fin (mean : ℝ)).lt ((Rounding.exact ℝ).ofNat 30) = true := by
        simpa [Fl.lt, Rounding.ofNat, Rounding.exact] using hm30
      rw [if_neg e1, if_pos e2]
      congr 1
      exact hexp _
    have key := knuthLoop_exact L fuel 0 1 (fun j => U j ω) (fun j => I j ω) k hk
      (fun j => ⟨(h.unit j ω).1, (h.unit j ω).2.le⟩) zero_le_one
    have : ω ∈ Returns (poissonSample (Rounding.exact ℝ) lib cand fuel (.fin (mean : ℝ))) (streamOf I U) k ↔
        (∀ j < k, L < drawProduct U (j + 1) ω) ∧ drawProduct U (k + 1) ω ≤ L := by
      unfold Returns
      rw [hrun]
      simp only [zero_add, one_mul] at key
      exact key
    rw [this]
    simp only [Set.mem_diff, Set.mem_setOf_eq, not_lt]
    refine and_congr_left fun _ => ?_
    constructor
    · intro hj
      cases k with
      | zero => simpa [drawProduct] using hL1
      | succ k => exact hj k (by omega)
    · intro hj j hjk
      refine lt_of_lt_of_le hj ?_
      exact h.product_anti hjk ω
  obtain ⟨hm1, -⟩ := h.product (P := P) (k + 1)
  have hsub : {ω | L < drawProduct U (k + 1) ω} ⊆ {ω | L < drawProduct U k ω} := by
    intro ω hω
    exact lt_of_lt_of_le (show L < drawProduct U (k + 1) ω from hω) (h.product_anti (Nat.le_succ k) ω)
  have hval : P.real (Returns (poissonSample (Rounding.exact ℝ) lib cand fuel (.fin mean)) (streamOf I U) k) =
      Real.exp (-(mean : ℝ)) * (mean : ℝ) ^ k / (k.factorial : ℝ) := by
    rw [e, measureReal_diff hsub (measurableSet_lt measurable_const hm1), h.tail k L hL0 hL1, h.tail (k + 1) L hL0 hL1]
    unfold productTail
    rw [Finset.sum_range_succ, hL, Real.log_exp, neg_neg]
    ring
  rw [poissonMeasure_singleton, ← hval, ofReal_measureReal]

/-! ### Kinds of mutation, places in a tournament -/

/-- C76: the kind of mutation is drawn with probability proportional to the weights (exact arithmetic). -/
theorem C76_mutation [E : Env ℝ] (hR : E.R = Rounding.exact ℝ) (h : FairFloats P U) (w : MutWeights ℝ) (v : Mutation → ℝ)
    (hv : ∀ k, w.of k = .fin (v k)) (h0 : ∀ k, 0 ≤ v k) (hex : ∃ k, 0 < v k) (k : Mutation) :
    P (Returns (sampleMutation w) (streamOf I U) k) =
      ENNReal.ofReal (v k / (v .mutateConstant + v .mutateOperator + v .mutateFeature + v .swapOperands + v .rotateTree +
        v .addNode + v .insertNode + v .deleteNode + v .simplify + v .randomize + v .doNothing + v .optimize)) := by
  have hws : w.choices.map Prod.snd = (w.choices.map fun c => v c.1).map Fl.fin := by
    rw [List.map_map]
    apply List.map_congr_left
    intro c hc
    obtain ⟨i, hi⟩ := List.getElem?_of_mem hc
    rw [(choices_of w hi).1, hv]
    rfl
  have hnn : ∀ x ∈ w.choices.map fun c => v c.1, 0 ≤ x := by
    intro x hx
    obtain ⟨c, -, rfl⟩ := List.mem_map.mp hx
    exact h0 _
  have hk : ∀ k : Mutation, ∃ i : Nat, w.choices[i]? = some (k, w.of k) ∧
      ∀ j : Nat, ∀ c, w.choices[j]? = some c → c.1 = k → j = i := by
    intro k
    have hlt : ∀ (j : Nat) c, w.choices[j]? = some c → j < 12 := fun j c hj => (List.getElem?_eq_some_iff.mp hj).1
    have key : ∀ i, i < 12 → (∀ j, j < 12 → j ≠ i → (w.choices[j]?.map Prod.fst) ≠ (w.choices[i]?.map Prod.fst)) := by
      intro i hi j hj hji
      have e : ∀ j : Nat, w.choices[j]?.map Prod.fst = ([.mutateConstant, .mutateOperator, .mutateFeature, .swapOperands,
          .rotateTree, .addNode, .insertNode, .deleteNode, .simplify, .randomize, .doNothing, .optimize] : List Mutation)[j]? := by
        intro j
        rw [← List.getElem?_map]
        rfl
      rw [e, e]
      revert hji
      revert j
      revert i
      decide
    have fin : ∀ i, i < 12 → w.choices[i]? = some (k, w.of k) → ∃ i : Nat, w.choices[i]? = some (k, w.of k) ∧
      ∀ j : Nat, ∀ c, w.choices[j]? = some c → c.1 = k → j = i := by
      intro i hi e
      refine ⟨i, e, fun j c hj hc => ?_⟩
      by_contra hne
      refine key i hi j (hlt j c hj) hne ?_
      rw [hj, e]
      simp [hc]
    cases k
    · exact fin 0 (by omega) rfl
    · exact fin 1 (by omega) rfl
    · exact fin 2 (by omega) rfl
    · exact fin 3 (by omega) rfl
    · exact fin 4 (by omega) rfl
    · exact fin 5 (by omega) rfl
    · exact fin 6 (by omega) rfl
    · exact fin 7 (by omega) rfl
    · exact fin 8 (by omega) rfl
    · exact fin 9 (by omega) rfl
    · exact fin 10 (by omega) rfl
    · exact fin 11 (by omega) rfl
  have hsum : (w.choices.map fun c => v c.1).sum =
      v .mutateConstant + v .mutateOperator + v .mutateFeature + v .swapOperands + v .rotateTree +
        v .addNode + v .insertNode + v .deleteNode + v .simplify + v .randomize + v .doNothing + v .optimize := by
    simp only [MutWeights.choices, List.map_cons, List.map_nil, List.sum_cons, List.sum_nil]
    ring
  have hpos : 0 < (w.choices.map fun c => v c.1).sum := by
    obtain ⟨k0, hk0⟩ := hex
    obtain ⟨i, hi, -⟩ := hk k0
    exact lt_of_lt_of_le hk0 (List.single_le_sum hnn _ (List.mem_map.mpr ⟨_, List.mem_of_getElem? hi, rfl⟩))
  obtain ⟨i, hi, huniq⟩ := hk k
  have e : Returns (sampleMutation w) (streamOf I U) k =
      Returns (weightedIndex (Rounding.exact ℝ) ((w.choices.map fun c => v c.1).map .fin)) (streamOf I U) i := by
    ext ω
    unfold Returns
    simp only [Set.mem_setOf_eq]
    unfold sampleMutation
    rw [hR, hws]
    constructor
    · rintro ⟨g', e⟩
      obtain ⟨j, g1, e1, e2⟩ := Rand.bind_inv e
      obtain ⟨c, g2, e3, e4⟩ := Rand.bind_inv e2
      obtain ⟨e5, rfl⟩ := Rand.lift_inv e3
      obtain ⟨e6, rfl⟩ := Rand.pure_inv e4
      rw [huniq j c e5 e6.symm] at e1
      exact ⟨_, e1⟩
    · rintro ⟨g', e⟩
      refine ⟨g', ?_⟩
      rw [Rand.run_bind, e]
      simp only [Rand.run_bind, Rand.lift, hi]
      rfl
  rw [e, C76_weighted h _ hnn hpos i (v k) (by rw [List.getElem?_map, hi]; rfl), hsum]

/-- C76: in a tournament of `n ≥ 2` entrants with selection probability `0 < p < 1`, the winner is the one in place
`k + 1` with the truncated geometric probability `p (1 - p) ^ k / (1 - (1 - p) ^ n)`. -/
theorem C76_place (h : FairFloats P U) (n : ℕ) (hn : 2 ≤ n) (p : ℝ) (hp0 : 0 < p) (hp1 : p < 1) (k : ℕ) (hk : k < n) :
    P (Returns (sampleTournamentPlace (Rounding.exact ℝ) n (.fin p)) (streamOf I U) (k + 1)) =
      ENNReal.ofReal (p * (1 - p) ^ k / (1 - (1 - p) ^ n)) := by
  have hw : geomWeights (Rounding.exact ℝ) ((Rounding.exact ℝ).sub (.fin 1) (.fin p)) n (.fin p) =
      ((List.range n).map fun k => p * (1 - p) ^ k).map .fin := by
    rw [C31_geometric, List.map_map]; rfl
  have hsum : ((List.range n).map fun k => p * (1 - p) ^ k).sum = 1 - (1 - p) ^ n := by
    have : ((List.range n).map fun k => p * (1 - p) ^ k).sum = ∑ k ∈ Finset.range n, p * (1 - p) ^ k := by
      rw [← List.sum_toFinset _ List.nodup_range, List.toFinset_range]
    rw [this, ← Finset.mul_sum]
    have := mul_neg_geom_sum (1 - p) n
    rw [sub_sub_cancel] at this
    exact this
  have hnn : ∀ x ∈ (List.range n).map fun k => p * (1 - p) ^ k, 0 ≤ x := by
    intro x hx
    obtain ⟨j, -, rfl⟩ := List.mem_map.mp hx
    have : 0 ≤ 1 - p := by linarith
    positivity
  have hpos : 0 < ((List.range n).map fun k => p * (1 - p) ^ k).sum := by
    rw [hsum]
    have : (1 - p) ^ n < 1 := pow_lt_one₀ (by linarith) (by linarith) (by omega)
    linarith
  have e : Returns (sampleTournamentPlace (Rounding.exact ℝ) n (.fin p)) (streamOf I U) (k + 1) =
      Returns (weightedIndex (Rounding.exact ℝ) (((List.range n).map fun k => p * (1 - p) ^ k).map .fin)) (streamOf I U) k := by
    have hrun : sampleTournamentPlace (Rounding.exact ℝ) n (.fin p) = (do
        let i ← weightedIndex (Rounding.exact ℝ) (((List.range n).map fun k => p * (1 - p) ^ k).map .fin)
        pure (i + 1)) := by
      unfold sampleTournamentPlace
      rw [if_neg (by simp [Fl.le]; exact ⟨by omega, hp1⟩), if_neg (by simp [Fl.le, hp0])]
      simp only
      rw [if_neg, hw]
      show ¬ Fl.le (.fin (1 - p)) (.fin 0) = true
      simp [Fl.le, hp1]
    ext ω
    unfold Returns
    simp only [Set.mem_setOf_eq]
    rw [hrun]
    constructor
    · rintro ⟨g', e⟩
      obtain ⟨j, g1, e1, e2⟩ := Rand.bind_inv e
      obtain ⟨e6, rfl⟩ := Rand.pure_inv e2
      obtain rfl : k = j := by omega
      exact ⟨_, e1⟩
    · rintro ⟨g', e⟩
      exact ⟨g', by rw [Rand.run_bind, e]; rfl⟩
  rw [e, C76_weighted h _ hnn hpos k (p * (1 - p) ^ k) (by simp [hk]), hsum]

/-! ### Orders and selections -/

/-- Independent uniform draws. -/
theorem FairInts.all {M : ℕ} (h : FairInts P M I) (m : ℕ) (b d : ℕ → ℕ) (hb : ∀ j < m, d j < b j ∧ b j ≤ M) :
    P {ω | ∀ j < m, I j ω % b j = d j} = ∏ j ∈ Finset.range m, 1 / (b j : ENNReal) := by
  have e : {ω | ∀ j < m, I j ω % b j = d j} = ⋂ j ∈ Finset.range m, I j ⁻¹' {x | x % b j = d j} := by
    ext ω; simp
  rw [e, h.indep.measure_inter_preimage_eq_mul (Finset.range m) (fun _ _ => MeasurableSet.of_discrete)]
  · refine Finset.prod_congr rfl fun j hj => ?_
    exact h.law j (b j) (d j) (hb j (Finset.mem_range.mp hj)).1 (hb j (Finset.mem_range.mp hj)).2

theorem shuffleLoop_congr {F α : Type} (i : ℕ) : ∀ (l l' : List α) (g1 g2 g1' : Rng F), i < l.length →
    (∀ k < i, g1.ints k % (i + 1 - k) = g2.ints k % (i + 1 - k)) → shuffleLoop i l g1 = some (l', g1') →
    ∃ g2', shuffleLoop i l g2 = some (l', g2') := by
  induction i with
  | zero => intro l l' g1 g2 g1' _ _ h; cases h; exact ⟨g2, rfl⟩
  | succ i ih =>
    intro l l' g1 g2 g1' hl hk h
    have h0 : g1.ints 0 % (i + 2) = g2.ints 0 % (i + 2) := hk 0 (by omega)
    have step : ∀ g : Rng F, shuffleLoop (i + 1) l g =
        match swapAt l (i + 1) (g.ints 0 % (i + 2)) with
        | none => none
        | some l1 => shuffleLoop i l1 g.nextInt := by
      intro g
      rw [shuffleLoop, Rand.run_bind]
      simp only [Rand.below, Nat.add_eq_zero_iff, OfNat.ofNat_ne_zero, and_false, if_false]
      rw [Rand.run_bind]
      cases swapAt l (i + 1) (g.ints 0 % (i + 2)) <;> rfl
    rw [step] at h ⊢
    rw [← h0]
    cases e : swapAt l (i + 1) (g1.ints 0 % (i + 2)) with
    | none => rw [e] at h; cases h
    | some l1 =>
      rw [e] at h
      obtain ⟨l1', e', -, hlen, -⟩ := swapAt_spec l (i + 1) (g1.ints 0 % (i + 2)) hl
        (by have := Nat.mod_lt (g1.ints 0) (show i + 2 > 0 by omega); omega)
      rw [e] at e'
      cases e'
      exact ih l1 l' _ g2.nextInt g1' (by omega) (fun k hki => by
        have := hk (k + 1) (by omega)
        rwa [show i + 1 + 1 - (k + 1) = i + 1 - k by omega] at this) h

/-- C76: shuffling a list of `n` different elements gives each order with probability `1 / n!`. -/
theorem C76_shuffle {α : Type} {M : ℕ} (h : FairInts P M I) (l l' : List α) (hn : l.Nodup) (hp : l'.Perm l)
    (hM : l.length ≤ M) [IsProbabilityMeasure P] :
    P (Returns (shuffle l) (streamOf I U) l') = 1 / (l.length.factorial : ENNReal) := by
  by_cases hl : l.length ≤ 1
  · have e : Returns (shuffle l) (streamOf I U) l' = Set.univ := by
      ext ω
      simp only [Returns, Set.mem_setOf_eq, Set.mem_univ, iff_true]
      have : l' = l := by
        cases l with
        | nil => exact List.perm_nil.mp hp
        | cons a l =>
          cases l with
          | nil => exact List.perm_singleton.mp hp
          | cons b l => simp at hl
      rw [shuffle, if_pos hl, this]
      exact ⟨_, rfl⟩
    rw [e, measure_univ]
    have : l.length.factorial = 1 := Nat.factorial_eq_one.mpr hl
    rw [this]; simp
  · obtain ⟨g0, hg0⟩ : ∃ g : Rng (Fl ℝ), ∃ g', shuffle l g = some (l', g') := by
      obtain ⟨g, e⟩ := C33_shuffle_reaches l l' hp (⟨fun _ => 0, fun _ => .fin 0⟩ : Rng (Fl ℝ))
      exact ⟨g, _, e⟩
    obtain ⟨g0', hg0⟩ := hg0
    have e : Returns (shuffle l) (streamOf I U) l' =
        {ω | ∀ j < l.length - 1, I j ω % (l.length - j) = g0.ints j % (l.length - j)} := by
      ext ω
      simp only [Returns, Set.mem_setOf_eq]
      constructor
      · rintro ⟨g', e⟩ j hj
        exact C33_shuffle_unbiased l l' hn (streamOf I U ω) g0 g' g0' e hg0 j (by omega)
      · intro hj
        rw [shuffle, if_neg hl] at hg0 ⊢
        refine shuffleLoop_congr _ l l' g0 (streamOf I U ω) g0' (by omega) (fun k hk => ?_) hg0
        rw [show l.length - 1 + 1 - k = l.length - k by omega]
        exact (hj k hk).symm
    rw [e, h.all (l.length - 1) (fun j => l.length - j) (fun j => g0.ints j % (l.length - j))
      (fun j hj => ⟨Nat.mod_lt _ (by omega), by omega⟩)]
    have hd : (l.length.factorial : ENNReal) = ∏ j ∈ Finset.range (l.length - 1), ((l.length - j : ℕ) : ENNReal) := by
      rw [← Nat.cast_prod, ← Nat.descFactorial_eq_prod_range]
      congr 1
      have := Nat.factorial_mul_descFactorial (show l.length - 1 ≤ l.length by omega)
      rw [show l.length - (l.length - 1) = 1 by omega, Nat.factorial_one, one_mul] at this
      exact this.symm
    rw [hd]
    simp only [one_div]
    rw [ENNReal.prod_inv_distrib]
    intro a _ b _ _
    exact .inr (ENNReal.natCast_ne_top _)

theorem partialShuffle_step {F : Type} (k i : ℕ) (v : List ℕ) (hl : i < v.length) (g : Rng F) :
    ∃ v1, swapAt v i (i + g.ints 0 % (v.length - i)) = some v1 ∧
      (partialShuffle (k + 1) i v : Rand F (List ℕ)) g = partialShuffle k (i + 1) v1 g.nextInt := by
  have hm := Nat.mod_lt (g.ints 0) (show v.length - i > 0 by omega)
  obtain ⟨v1, e, -⟩ := swapAt_spec v i (i + g.ints 0 % (v.length - i)) hl (by omega)
  refine ⟨v1, e, ?_⟩
  rw [partialShuffle, Rand.run_bind]
  simp only [Rand.below, if_neg (show ¬ v.length - i = 0 by omega)]
  rw [Rand.run_bind]
  simp only [Rand.lift, e, Option.map_some]

theorem partialShuffle_fixed {F : Type} (k : ℕ) : ∀ (i : ℕ) (v : List ℕ) (g : Rng F) (r : List ℕ) (g' : Rng F), i + k ≤ v.length →
    (partialShuffle k i v : Rand F (List ℕ)) g = some (r, g') → r.take i = v.take i := by
  induction k with
  | zero => intro i v g r g' _ h; cases h; rfl
  | succ k ih =>
    intro i v g r g' hl h
    obtain ⟨v1, e, h'⟩ := partialShuffle_step k i v (by omega) g
    rw [h'] at h
    have hm := Nat.mod_lt (g.ints 0) (show v.length - i > 0 by omega)
    obtain ⟨v1', e', -, hlen, hget⟩ := swapAt_spec v i (i + g.ints 0 % (v.length - i)) (by omega) (by omega)
    rw [e] at e'
    cases e'
    have h2 := ih (i + 1) v1 _ r g' (by omega) h
    have h3 : r.take i = v1.take i := by
      have := congrArg (List.take i) h2
      rwa [List.take_take, List.take_take, Nat.min_eq_left (by omega)] at this
    rw [h3]
    apply List.ext_getElem?
    intro k
    rw [List.getElem?_take, List.getElem?_take]
    split
    · rw [hget k, if_neg (by omega), if_neg (by omega)]
    · rfl

/-- Each selection of the partial shuffle belongs to exactly one choice of the draws. -/
theorem partialShuffle_draws {F : Type} (s : List ℕ) : ∀ (i : ℕ) (v : List ℕ), i + s.length ≤ v.length → v.Nodup → s.Nodup →
    (∀ x ∈ s, x ∈ v.drop i) → ∃ d : ℕ → ℕ, (∀ j < s.length, d j < v.length - i - j) ∧
      ∀ g : Rng F, (∃ r g', (partialShuffle s.length i v : Rand F (List ℕ)) g = some (r, g') ∧
          r.take (i + s.length) = v.take i ++ s) ↔ ∀ j < s.length, g.ints j % (v.length - i - j) = d j := by
  induction s with
  | nil =>
    intro i v _ _ _ _
    exact ⟨fun _ => 0, by simp, fun g => ⟨by simp, fun _ => ⟨v, g, rfl, by simp⟩⟩⟩
  | cons x s ih =>
    intro i v hl hnd hrn hr
    have hl' : i + (s.length + 1) ≤ v.length := hl
    have hx := hr x (by simp)
    obtain ⟨d0, hd, hdx⟩ := List.mem_iff_getElem.mp hx
    rw [List.length_drop] at hd
    have hdx' : v[i + d0]? = some x := by
      rw [List.getElem?_eq_getElem (by omega), ← hdx, List.getElem_drop]
    obtain ⟨v1, e, hp, hlen, hget⟩ := swapAt_spec v i (i + d0) (by omega) (by omega)
    have hv1i : ∀ d v1, swapAt v i (i + d) = some v1 → d < v.length - i → v1[i]? = v[i + d]? := by
      intro d v1 e hd
      obtain ⟨v1', e', -, -, hget⟩ := swapAt_spec v i (i + d) (by omega) (by omega)
      rw [e] at e'
      cases e'
      rw [hget i]
      split
      · next h => rw [← h]
      · rw [if_pos rfl]
    have htake : v1.take i = v.take i := by
      apply List.ext_getElem?
      intro k
      rw [List.getElem?_take, List.getElem?_take]
      split
      · rw [hget k, if_neg (by omega), if_neg (by omega)]
      · rfl
    have htake1 : v1.take (i + 1) = v.take i ++ [x] := by
      rw [List.take_succ, htake, hv1i d0 v1 e hd, hdx']; rfl
    have hnd1 := hp.nodup_iff.mpr hnd
    obtain ⟨d, hdb, hd2⟩ := ih (i + 1) v1 (by omega) hnd1 (by simp at hrn; exact hrn.2) (by
      intro y hy
      have hyv : y ∈ v1 := hp.mem_iff.mpr (List.mem_of_mem_drop (hr y (by simp [hy])))
      rw [← List.take_append_drop (i + 1) v1, List.mem_append] at hyv
      rcases hyv with hyv | hyv
      · rw [htake1, List.mem_append] at hyv
        exfalso
        rcases hyv with hyv | hyv
        · have h3 := hr y (by simp [hy])
          rw [← List.take_append_drop i v, List.nodup_append] at hnd
          exact hnd.2.2 y hyv y h3 rfl
        · simp at hyv; subst hyv
          simp at hrn; exact hrn.1 hy
      · exact hyv)
    refine ⟨fun j => if j = 0 then d0 else d (j - 1), ?_, fun g => ?_⟩
    · intro j hj
      rcases Nat.eq_zero_or_pos j with rfl | h0
      · simpa using hd
      · simp only [if_neg (show j ≠ 0 by omega)]
        have := hdb (j - 1) (by simp at hj; omega)
        omega
    · obtain ⟨w, ew, hstep⟩ := partialShuffle_step (F := F) s.length i v (by omega) g
      rw [List.length_cons, hstep]
      have hm := Nat.mod_lt (g.ints 0) (show v.length - i > 0 by omega)
      by_cases h0 : g.ints 0 % (v.length - i) = d0
      · rw [h0, e] at ew
        cases ew
        have := hd2 g.nextInt
        rw [htake1] at this
        rw [show i + (s.length + 1) = i + 1 + s.length by omega, show v.take i ++ x :: s = v.take i ++ [x] ++ s by simp, this]
        constructor
        · intro h j hj
          rcases Nat.eq_zero_or_pos j with rfl | hj0
          · simpa using h0
          · have := h (j - 1) (by omega)
            simp only [if_neg (show j ≠ 0 by omega)]
            rw [hlen, show v.length - (i + 1) - (j - 1) = v.length - i - j by omega] at this
            rw [← this]
            show _ = g.ints (j - 1 + 1) % _
            rw [Nat.sub_add_cancel (by omega)]
        · intro h j hj
          have := h (j + 1) (by omega)
          simp only [if_neg (show j + 1 ≠ 0 by omega), Nat.add_sub_cancel] at this
          rw [hlen, show v.length - (i + 1) - j = v.length - i - (j + 1) by omega]
          exact this
      · constructor
        · rintro ⟨r, g', e1, e2⟩
          exfalso
          obtain ⟨w', ew', -, hlw, -⟩ := swapAt_spec v i (i + g.ints 0 % (v.length - i)) (by omega) (by omega)
          rw [ew] at ew'
          cases ew'
          have hf := partialShuffle_fixed _ _ _ _ _ _ (by omega) e1
          have h1 : r[i]? = some x := by
            have := congrArg (fun l => l[i]?) e2
            simp only [List.getElem?_take, if_pos (show i < i + (s.length + 1) by omega)] at this
            rw [this, List.getElem?_append_right (by simp)]
            simp [Nat.min_eq_left (show i ≤ v.length by omega)]
          have h2 : r[i]? = w[i]? := by
            have := congrArg (fun l => l[i]?) hf
            simpa [List.getElem?_take] using this
          rw [h1, hv1i _ _ ew hm, ← hdx', List.getElem?_eq_getElem (by omega), List.getElem?_eq_getElem (by omega)] at h2
          have := (hnd.getElem_inj_iff).mp (Option.some.inj h2)
          omega
        · intro h
          exact absurd (by simpa using h 0 (by simp)) h0

/-- C76: a mini-batch or a tournament larger than the square root of the number of candidates: every ordered selection
of `n` different ones has the same probability `1 / (len (len - 1) ... (len - n + 1))`. -/
theorem C76_sample_large {M : ℕ} (h : FairInts P M I) (fuel len n : ℕ) (s : List ℕ) (hn : n < len) (hsq : len < n * n)
    (hM : len ≤ M) (hl : s.length = n) (hnd : s.Nodup) (hs : ∀ i ∈ s, i < len) :
    P (Returns (sampleIndices fuel len n) (streamOf I U) s) = 1 / (len.descFactorial n : ENNReal) := by
  subst hl
  obtain ⟨d, hdb, hd⟩ := partialShuffle_draws (F := Fl ℝ) s 0 (List.range len) (by simp; omega) List.nodup_range hnd (by simpa using hs)
  have e : Returns (sampleIndices fuel len s.length) (streamOf I U) s = {ω | ∀ j < s.length, I j ω % (len - j) = d j} := by
    ext ω
    have key := hd (streamOf I U ω)
    simp only [List.length_range, Nat.sub_zero, zero_add, List.take_zero, List.nil_append] at key
    have hrun : (sampleIndices fuel len s.length : Rand (Fl ℝ) (List ℕ)) =
        (do let v ← partialShuffle s.length 0 (List.range len); pure (v.take s.length)) := by
      unfold sampleIndices
      simp only [Nat.min_eq_left hn.le]
      rw [if_neg (by rintro (h | h) <;> [omega; (rw [h] at hsq; omega)]), if_neg (by omega), if_neg (by omega)]
    simp only [Returns, Set.mem_setOf_eq]
    rw [hrun]
    refine Iff.trans ?_ key
    constructor
    · rintro ⟨g', e⟩
      obtain ⟨v, g1, e1, e2⟩ := Rand.bind_inv e
      obtain ⟨e6, rfl⟩ := Rand.pure_inv e2
      exact ⟨v, _, e1, e6.symm⟩
    · rintro ⟨v, g', e1, e2⟩
      exact ⟨g', by rw [Rand.run_bind, e1]; show some (v.take s.length, g') = _; rw [e2]⟩
  rw [e, h.all s.length (fun j => len - j) d (fun j hj => ⟨by simpa using hdb j hj, by omega⟩),
    Nat.descFactorial_eq_prod_range, Nat.cast_prod]
  simp only [one_div]
  rw [ENNReal.prod_inv_distrib]
  intro a _ b _ _
  exact .inr (ENNReal.natCast_ne_top _)

/-- Renaming the candidates renames the selection. -/
theorem rejectLoop_rename {F : Type} (len take : ℕ) (π : ℕ → ℕ) (hinj : ∀ a < len, ∀ b < len, π a = π b → a = b) (hlen : 0 < len) (fuel : ℕ) :
    ∀ (out : List ℕ) (g1 g2 : Rng F), (∀ i ∈ out, i < len) → (∀ j < fuel, g2.ints j % len = π (g1.ints j % len)) →
    ∀ (r : List ℕ) (g1' : Rng F), (rejectLoop len take fuel out : Rand F (List ℕ)) g1 = some (r, g1') →
      ∃ g2', (rejectLoop len take fuel (out.map π) : Rand F (List ℕ)) g2 = some (r.map π, g2') := by
  induction fuel with
  | zero => intro out g1 g2 _ _ r g1' h; cases h
  | succ fuel ih =>
    intro out g1 g2 ho hg r g1' h
    rw [rejectLoop] at h ⊢
    rw [List.length_map]
    by_cases hl : out.length < take
    · rw [if_pos hl] at h ⊢
      rw [Rand.run_bind] at h ⊢
      simp only [Rand.below, if_neg (show ¬ len = 0 by omega)] at h ⊢
      have hm := Nat.mod_lt (g1.ints 0) hlen
      rw [hg 0 (by omega)]
      have hc : (out.map π).contains (π (g1.ints 0 % len)) = out.contains (g1.ints 0 % len) := by
        rw [Bool.eq_iff_iff]
        simp only [List.contains_iff_mem, List.mem_map]
        exact ⟨fun ⟨a, ha, e⟩ => hinj a (ho a ha) _ hm e ▸ ha, fun ha => ⟨_, ha, rfl⟩⟩
      rw [hc]
      have e : (if out.contains (g1.ints 0 % len) then out.map π else out.map π ++ [π (g1.ints 0 % len)]) =
          (if out.contains (g1.ints 0 % len) then out else out ++ [g1.ints 0 % len]).map π := by
        split <;> simp
      rw [e]
      refine ih _ g1.nextInt g2.nextInt ?_ (fun j hj => hg (j + 1) (by omega)) r g1' h
      intro i hi
      split at hi
      · exact ho i hi
      · rcases List.mem_append.mp hi with hi | hi
        · exact ho i hi
        · simp at hi; omega
    · rw [if_neg hl] at h ⊢
      cases h
      exact ⟨g2, rfl⟩

/-- The probability of a selection is the share of the sequences of draws that lead to it. -/
theorem reject_count {M : ℕ} [IsProbabilityMeasure P] (h : FairInts P M I) (len take fuel : ℕ) (hlen : 0 < len) (hM : len ≤ M) (s : List ℕ) :
    P (Returns (rejectLoop len take fuel []) (streamOf I U) s) =
      (Nat.card {x : Fin fuel → Fin len // ∃ g', (rejectLoop len take fuel [] : Rand (Fl ℝ) (List ℕ))
        ⟨fun j => if hj : j < fuel then x ⟨j, hj⟩ else 0, fun _ => .fin 0⟩ = some (s, g')} : ENNReal) * (1 / (len : ENNReal)) ^ fuel := by
  classical
  set S : Finset (Fin fuel → Fin len) := Finset.univ.filter fun x => ∃ g', (rejectLoop len take fuel [] : Rand (Fl ℝ) (List ℕ))
        ⟨fun j => if hj : j < fuel then x ⟨j, hj⟩ else 0, fun _ => .fin 0⟩ = some (s, g') with hS
  have hcard : Nat.card {x : Fin fuel → Fin len // ∃ g', (rejectLoop len take fuel [] : Rand (Fl ℝ) (List ℕ))
        ⟨fun j => if hj : j < fuel then x ⟨j, hj⟩ else 0, fun _ => .fin 0⟩ = some (s, g')} = S.card := by
    rw [Nat.card_eq_fintype_card, Fintype.card_subtype]
  set A : (Fin fuel → Fin len) → Set Ω := fun x => {ω | ∀ j < fuel, I j ω % len = if hj : j < fuel then (x ⟨j, hj⟩ : ℕ) else 0} with hA
  have hid : ∀ (g1 g2 : Rng (Fl ℝ)), (∀ j < fuel, g1.ints j % len = g2.ints j % len) →
      (∃ g', (rejectLoop len take fuel [] : Rand (Fl ℝ) (List ℕ)) g1 = some (s, g')) →
      (∃ g', (rejectLoop len take fuel [] : Rand (Fl ℝ) (List ℕ)) g2 = some (s, g')) := by
    rintro g1 g2 hj ⟨g', e⟩
    have := rejectLoop_rename len take id (fun a _ b _ h => h) hlen fuel [] g1 g2 (by simp) (fun j hj' => (hj j hj').symm) s g' e
    simpa using this
  have e : Returns (rejectLoop len take fuel []) (streamOf I U) s = ⋃ x ∈ S, A x := by
    ext ω
    simp only [Returns, Set.mem_setOf_eq, Set.mem_iUnion, exists_prop, hS, Finset.mem_filter, Finset.mem_univ, true_and, hA]
    constructor
    · intro hr
      refine ⟨fun j => ⟨I j ω % len, Nat.mod_lt _ hlen⟩, ?_, ?_⟩
      · refine hid _ _ (fun j hj => ?_) hr
        show I j ω % len = _
        simp [hj]
      · intro j hj
        simp [hj]
    · rintro ⟨x, hx, hj⟩
      refine hid _ _ (fun j hj' => ?_) hx
      show _ = I j ω % len
      rw [hj j hj']
      simp only [dif_pos hj']
      exact Nat.mod_eq_of_lt (x ⟨j, hj'⟩).isLt
  have hmeas : ∀ x, MeasurableSet (A x) := by
    intro x
    have : A x = ⋂ j ∈ Finset.range fuel, I j ⁻¹' {y | y % len = if hj : j < fuel then (x ⟨j, hj⟩ : ℕ) else 0} := by
      ext ω; simp [hA]
    rw [this]
    exact Finset.measurableSet_biInter _ fun j _ => h.meas j MeasurableSet.of_discrete
  have hdisj : (S : Set (Fin fuel → Fin len)).PairwiseDisjoint A := by
    intro x _ y _ hxy
    refine Set.disjoint_left.mpr fun ω hx hy => hxy ?_
    funext j
    have h1 := hx j j.isLt
    have h2 := hy j j.isLt
    simp only [j.isLt, dif_pos] at h1 h2
    exact Fin.ext (h1.symm.trans h2)
  rw [e, measure_biUnion_finset hdisj fun x _ => hmeas x, hcard]
  have hP : ∀ x ∈ S, P (A x) = (1 / (len : ENNReal)) ^ fuel := by
    intro x _
    rw [hA]
    simp only
    rw [h.all fuel (fun _ => len) (fun j => if hj : j < fuel then (x ⟨j, hj⟩ : ℕ) else 0) (fun j hj => ⟨by simp [hj], hM⟩)]
    simp
  rw [Finset.sum_congr rfl hP, Finset.sum_const, nsmul_eq_mul]

/-- C76: a mini-batch or a tournament of at most the square root of the number of candidates (and not empty): any two
ordered selections of `n` different ones have the same probability, whatever the number of draws allowed. -/
theorem C76_sample_small {M : ℕ} [IsProbabilityMeasure P] (h : FairInts P M I) (fuel len n : ℕ) (s s' : List ℕ) (h0 : 0 < n) (hn : n < len)
    (hsq : n * n ≤ len) (hM : len ≤ M) (hl : s.length = n) (hl' : s'.length = n) (hnd : s.Nodup) (hnd' : s'.Nodup)
    (hs : ∀ i ∈ s, i < len) (hs' : ∀ i ∈ s', i < len) :
    P (Returns (sampleIndices fuel len n) (streamOf I U) s) = P (Returns (sampleIndices fuel len n) (streamOf I U) s') := by
  have hrun : (sampleIndices fuel len n : Rand (Fl ℝ) (List ℕ)) = rejectLoop len n fuel [] := by
    unfold sampleIndices
    simp only [Nat.min_eq_left hn.le]
    rw [if_neg (by omega), if_neg (by omega), if_pos (by omega)]
  rw [hrun, reject_count h len n fuel (by omega) hM, reject_count h len n fuel (by omega) hM]
  congr 2
  -- a permutation of the candidates that takes one selection to the other
  obtain ⟨π, hπ⟩ : ∃ π : Equiv.Perm (Fin len), ∀ (j : ℕ) (hj : j < n), ((π ⟨s[j], hs _ (List.getElem_mem (by omega))⟩ : Fin len) : ℕ) = s'[j] := by
    let f : Fin n → Fin len := fun j => ⟨s[j], hs _ (List.getElem_mem (by omega))⟩
    let f' : Fin n → Fin len := fun j => ⟨s'[j], hs' _ (List.getElem_mem (by omega))⟩
    have hf : Function.Injective f := by
      intro a b e
      simp only [f, Fin.mk.injEq] at e
      exact Fin.ext ((hnd.getElem_inj_iff).mp e)
    have hf' : Function.Injective f' := by
      intro a b e
      simp only [f', Fin.mk.injEq] at e
      exact Fin.ext ((hnd'.getElem_inj_iff).mp e)
    let e := (Equiv.ofInjective f hf).symm.trans (Equiv.ofInjective f' hf')
    refine ⟨e.extendSubtype, fun j hj => ?_⟩
    have hmem : f ⟨j, hj⟩ ∈ Set.range f := ⟨_, rfl⟩
    have h1 := e.extendSubtype_apply_of_mem (f ⟨j, hj⟩) hmem
    have h2 : e ⟨f ⟨j, hj⟩, hmem⟩ = Equiv.ofInjective f' hf' ⟨j, hj⟩ := by
      simp only [e, Equiv.trans_apply]
      congr 1
      rw [Equiv.symm_apply_eq]
      rfl
    rw [h2] at h1
    exact congrArg Fin.val h1
  have hmap : ∀ (σ : Equiv.Perm (Fin len)) (t t' : List ℕ), (∀ i ∈ t, i < len) → t.map (fun i => if hi : i < len then (σ ⟨i, hi⟩ : ℕ) else 0) = t' →
      ∀ x : Fin fuel → Fin len, (∃ g', (rejectLoop len n fuel [] : Rand (Fl ℝ) (List ℕ))
        ⟨fun j => if hj : j < fuel then x ⟨j, hj⟩ else 0, fun _ => .fin 0⟩ = some (t, g')) →
      ∃ g', (rejectLoop len n fuel [] : Rand (Fl ℝ) (List ℕ))
        ⟨fun j => if hj : j < fuel then (fun k => σ (x k)) ⟨j, hj⟩ else 0, fun _ => .fin 0⟩ = some (t', g') := by
    rintro σ t t' ht rfl x ⟨g', e⟩
    have := rejectLoop_rename len n (fun i => if hi : i < len then (σ ⟨i, hi⟩ : ℕ) else 0) ?_ (by omega) fuel []
      _ ⟨fun j => if hj : j < fuel then (σ (x ⟨j, hj⟩) : ℕ) else 0, fun _ => .fin 0⟩ (by simp) ?_ t g' e
    · simpa using this
    · intro a ha b hb e
      simp only [ha, hb, dif_pos] at e
      exact congrArg Fin.val (σ.injective (Fin.ext e))
    · intro j hj
      simp [hj, Nat.mod_eq_of_lt, (x ⟨j, hj⟩).isLt]
  have hst : s.map (fun i => if hi : i < len then (π ⟨i, hi⟩ : ℕ) else 0) = s' := by
    apply List.ext_getElem
    · simp [hl, hl']
    · intro j h1 h2
      have hj : j < n := by omega
      rw [List.getElem_map, dif_pos (hs _ (List.getElem_mem _))]
      exact hπ j hj
  have hst' : s'.map (fun i => if hi : i < len then (π.symm ⟨i, hi⟩ : ℕ) else 0) = s := by
    apply List.ext_getElem
    · simp [hl, hl']
    · intro j h1 h2
      have hj : j < n := by omega
      rw [List.getElem_map, dif_pos (hs' _ (List.getElem_mem _))]
      have : (⟨s'[j], hs' _ (List.getElem_mem _)⟩ : Fin len) = π ⟨s[j], hs _ (List.getElem_mem _)⟩ := Fin.ext (hπ j hj).symm
      rw [this, Equiv.symm_apply_apply]
  refine Nat.card_congr ⟨fun x => ⟨fun k => π (x.1 k), hmap π s s' hs hst x.1 x.2⟩,
    fun x => ⟨fun k => π.symm (x.1 k), hmap π.symm s' s hs' hst' x.1 x.2⟩, ?_, ?_⟩
  · rintro ⟨x, hx⟩; simp
  · rintro ⟨x, hx⟩; simp

/-! ### Coins -/

theorem FairFloats.upto [IsProbabilityMeasure P] (h : FairFloats P U) (k : ℕ) (p : ℝ) (hp : 0 ≤ p) :
    P {ω | U k ω ≤ p} = ENNReal.ofReal (min 1 p) := by
  have e : {ω | U k ω ≤ p} = U k ⁻¹' Set.Iic p := rfl
  rw [e, ← Measure.map_apply (h.meas k) measurableSet_Iic, h.law k, Measure.restrict_apply measurableSet_Iic]
  by_cases h1 : p < 1
  · have : Set.Iic p ∩ Set.Ico 0 1 = Set.Icc 0 p := by
      ext x
      simp only [Set.mem_inter_iff, Set.mem_Iic, Set.mem_Ico, Set.mem_Icc]
      exact ⟨fun ⟨a, b, _⟩ => ⟨b, a⟩, fun ⟨a, b⟩ => ⟨b, a, b.trans_lt h1⟩⟩
    rw [this, Real.volume_Icc, min_eq_right h1.le, sub_zero]
  · have : Set.Iic p ∩ Set.Ico 0 1 = Set.Ico 0 1 := by
      ext x
      simp only [Set.mem_inter_iff, Set.mem_Iic, Set.mem_Ico, and_iff_right_iff_imp]
      intro hx
      linarith [hx.2]
    rw [this, Real.volume_Ico, min_eq_left (by linarith), sub_zero]

/-- C76: a pass of the evolution loop is a crossover with the configured probability (cut at 1), otherwise a mutation. -/
theorem C76_crossover [E : Env ℝ] [IsProbabilityMeasure P] (h : FairFloats P U) (o : SOptions ℝ) (p : ℝ) (hp : 0 ≤ p)
    (ho : o.crossoverProbability = .fin p) (d : Dataset ℝ) (cur : ℕ) (T : Fl ℝ) (s : Stats ℝ) (st : EvolState ℝ) :
    ∃ A : Set Ω, P A = ENNReal.ofReal (min 1 p) ∧
      (∀ ω ∈ A, evolStep o d cur T s st (streamOf I U ω) = crossoverStep o d cur s st (streamOf I U ω).nextFloat) ∧
      (∀ ω ∉ A, evolStep o d cur T s st (streamOf I U ω) = mutationStep o d cur T s st (streamOf I U ω).nextFloat) := by
  refine ⟨{ω | U 0 ω ≤ p}, h.upto 0 p hp, fun ω hω => ?_, fun ω hω => ?_⟩
  · unfold evolStep
    rw [Rand.run_bind]
    simp only [Rand.float]
    rw [if_neg]
    rw [ho]
    have : U 0 ω ≤ p := hω
    simpa [streamOf, Fl.lt] using this
  · unfold evolStep
    rw [Rand.run_bind]
    simp only [Rand.float]
    rw [if_pos]
    rw [ho]
    have : ¬ U 0 ω ≤ p := hω
    simpa [streamOf, Fl.lt] using this

/-- C76: the draw by which C72 decides on a candidate accepts it with the Metropolis probability (cut at 1). -/
theorem C76_accept [IsProbabilityMeasure P] (h : FairFloats P U) (k : ℕ) (an fr : Bool) (T al delta wp wc : ℝ)
    (hp : 0 ≤ wp) (hc : 0 ≤ wc) :
    P {ω | (Fl.fin (metropolis Real.exp an fr T al delta wp wc)).lt ((streamOf I U ω).floats k) = false} =
      ENNReal.ofReal (min 1 ((if an then Real.exp (-delta / (T * al)) else 1) * (if fr then wp / wc else 1))) := by
  have hm : 0 ≤ metropolis Real.exp an fr T al delta wp wc := by
    unfold metropolis
    have := (Real.exp_pos (-delta / (T * al))).le
    have := div_nonneg hp hc
    cases an <;> cases fr <;> simp <;> positivity
  show _ = ENNReal.ofReal (min 1 (metropolis Real.exp an fr T al delta wp wc))
  rw [← h.upto k _ hm]
  congr 1
  ext ω
  simp [streamOf, Fl.lt]

/-- C76: choosing from a list of different elements gives each the same probability. -/
theorem C76_choose {α : Type} {M : ℕ} (h : FairInts P M I) (l : List α) (hn : l.Nodup) (hM : l.length ≤ M) (x : α) (hx : x ∈ l) :
    P (Returns (choose l) (streamOf I U) (some x)) = 1 / (l.length : ENNReal) := by
  obtain ⟨i, hi, rfl⟩ := List.mem_iff_getElem.mp hx
  rw [← h.law 0 l.length i hi hM]
  congr 1
  ext ω
  have hm := Nat.mod_lt (I 0 ω) (show l.length > 0 by omega)
  have e : choose l (streamOf I U ω) = some (some (l[I 0 ω % l.length]), (streamOf I U ω).nextInt) := by
    unfold choose
    rw [if_neg (by simp; rintro rfl; simp at hi), Rand.run_bind]
    simp only [Rand.below, if_neg (show ¬ l.length = 0 by omega)]
    rw [Rand.run_bind]
    have : l[(streamOf I U ω).ints 0 % l.length]? = some l[I 0 ω % l.length] := List.getElem?_eq_getElem hm
    simp only [Rand.lift, this, Option.map_some]
    rfl
  simp only [Returns, Set.mem_setOf_eq]
  rw [e]
  simp only [Option.some.injEq, Prod.mk.injEq, exists_eq_right']
  rw [hn.getElem_inj_iff]

/-! ### There are fair generators -/

instance : IsProbabilityMeasure (volume.restrict (Set.Ico (0 : ℝ) 1)) := ⟨by simp⟩

/-- Independent draws from `[0, 1)`. -/
theorem fairFloats_exist : ∃ (Q : Measure (ℕ → ℝ)) (V : ℕ → (ℕ → ℝ) → ℝ), IsProbabilityMeasure Q ∧ FairFloats Q V := by
  refine ⟨Measure.infinitePi fun _ => volume.restrict (Set.Ico (0 : ℝ) 1), fun k ω => Int.fract (ω k), inferInstance,
    fun k => measurable_fract.comp (measurable_pi_apply k), fun k ω => ⟨Int.fract_nonneg _, Int.fract_lt_one _⟩, fun k => ?_,
    iIndepFun_infinitePi (X := fun _ => (Int.fract : ℝ → ℝ)) fun _ => measurable_fract⟩
  have e : (Measure.infinitePi fun _ : ℕ => volume.restrict (Set.Ico (0 : ℝ) 1)).map (fun ω => Int.fract (ω k)) =
      ((Measure.infinitePi fun _ : ℕ => volume.restrict (Set.Ico (0 : ℝ) 1)).map fun ω => ω k).map Int.fract :=
    (Measure.map_map measurable_fract (measurable_pi_apply k)).symm
  rw [e, Measure.infinitePi_map_eval]
  have : (Int.fract : ℝ → ℝ) =ᵐ[volume.restrict (Set.Ico (0 : ℝ) 1)] id :=
    (ae_restrict_iff' measurableSet_Ico).mpr (Filter.Eventually.of_forall fun x hx => Int.fract_eq_self.mpr hx)
  rw [Measure.map_congr this, Measure.map_id]

/-- Independent draws that are uniform modulo every `n ≤ M`. -/
theorem fairInts_exist (M : ℕ) : ∃ (Q : Measure (ℕ → ℕ)) (J : ℕ → (ℕ → ℕ) → ℕ), IsProbabilityMeasure Q ∧ FairInts Q M J := by
  set N := M.factorial
  have hN : 0 < N := M.factorial_pos
  have hfin : (Set.Iio N).Finite := Set.finite_Iio N
  have : IsProbabilityMeasure (uniformOn (Set.Iio N)) := isProbabilityMeasure_uniformOn hfin ⟨0, hN⟩
  refine ⟨Measure.infinitePi fun _ => uniformOn (Set.Iio N), fun k ω => ω k, inferInstance,
    fun k => measurable_pi_apply k, fun k n r hr hn => ?_,
    iIndepFun_infinitePi (X := fun _ => (id : ℕ → ℕ)) fun _ => measurable_id⟩
  have hdvd : n ∣ N := Nat.dvd_factorial (by omega) hn
  have e : {ω : ℕ → ℕ | ω k % n = r} = (fun ω => ω k) ⁻¹' {x | x % n = r} := rfl
  rw [e, ← Measure.map_apply (measurable_pi_apply k) MeasurableSet.of_discrete, Measure.infinitePi_map_eval, uniformOn,
    cond_apply MeasurableSet.of_discrete]
  have h1 : Measure.count (Set.Iio N) = N := by
    rw [← Finset.coe_range, Measure.count_apply_finset]; simp
  have h2 : Measure.count (Set.Iio N ∩ {x | x % n = r}) = (N / n : ℕ) := by
    have : Set.Iio N ∩ {x | x % n = r} = ((Finset.range N).filter fun x => x ≡ r [MOD n] : Finset ℕ) := by
      ext x
      simp [Nat.ModEq, Nat.mod_eq_of_lt hr]
    rw [this, Measure.count_apply_finset, ← Nat.count_eq_card_filter_range, Nat.count_modEq_card _ (by omega)]
    simp [Nat.mod_eq_zero_of_dvd hdvd]
  rw [h1, h2]
  obtain ⟨m, hm⟩ := hdvd
  have hm0 : m ≠ 0 := by rintro rfl; omega
  have hn0 : n ≠ 0 := by omega
  rw [hm, Nat.mul_div_cancel_left _ (by omega), Nat.cast_mul, ENNReal.mul_inv (by simp [hn0]) (by simp), mul_assoc,
    ENNReal.inv_mul_cancel (by simp [hm0]) (by simp), mul_one, one_div]

/-- Two migrants of a mean of one: probability `e ^ (-1) / 2`. -/
example (lib : Libm ℝ) (hexp : ∀ x : ℝ, lib.exp (.fin x) = .fin (Real.exp x)) (cand : Fl ℝ → Fl ℝ → Fl ℝ → Option ℕ) :
    ∃ (Q : Measure (ℕ → ℝ)) (V : ℕ → (ℕ → ℝ) → ℝ), Q (Returns (poissonSample (Rounding.exact ℝ) lib cand 5 (.fin 1))
      (streamOf (fun _ _ => 0) V) 2) = ENNReal.ofReal (Real.exp (-1) / 2) := by
  obtain ⟨Q, V, hQ, h⟩ := fairFloats_exist
  refine ⟨Q, V, ?_⟩
  have := C76_poisson (I := fun _ _ => 0) h lib hexp cand 5 1 one_pos (by norm_num) 2 (by norm_num)
  rw [poissonMeasure_singleton] at this
  simpa using this

/-- One of the six orders of three elements. -/
example : ∃ (Q : Measure (ℕ → ℕ)) (J : ℕ → (ℕ → ℕ) → ℕ),
    Q (Returns (shuffle [7, 8, 9]) (streamOf J fun _ _ => 0) [8, 9, 7]) = 1 / 6 := by
  obtain ⟨Q, J, hQ, h⟩ := fairInts_exist 3
  refine ⟨Q, J, ?_⟩
  have := C76_shuffle (U := fun _ _ => 0) h [7, 8, 9] [8, 9, 7] (by decide) (by decide) (by decide)
  simpa [Nat.factorial] using this

/-- One of the sixty ordered triples of five rows, and two of the pairs. -/
example : ∃ (Q : Measure (ℕ → ℕ)) (J : ℕ → (ℕ → ℕ) → ℕ),
    Q (Returns (sampleIndices 9 5 3) (streamOf J fun _ _ => 0) [4, 0, 2]) = 1 / 60 ∧
    Q (Returns (sampleIndices 9 5 2) (streamOf J fun _ _ => 0) [4, 0]) = Q (Returns (sampleIndices 9 5 2) (streamOf J fun _ _ => 0) [1, 4]) := by
  obtain ⟨Q, J, hQ, h⟩ := fairInts_exist 5
  refine ⟨Q, J, ?_, ?_⟩
  · have := C76_sample_large (U := fun _ _ => 0) h 9 5 3 [4, 0, 2] (by decide) (by decide) (by decide) (by decide) (by decide) (by decide)
    simpa [Nat.descFactorial] using this
  · exact C76_sample_small (U := fun _ _ => 0) h 9 5 2 [4, 0] [1, 4] (by decide) (by decide) (by decide) (by decide) (by decide) (by decide)
      (by decide) (by decide) (by decide) (by decide)

end SR
