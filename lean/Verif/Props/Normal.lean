import Verif.Model.Normal
import Verif.Spec.Prob
import Verif.Spec.Normal
import Verif.Props.Prob
import Mathlib.Probability.Distributions.Gaussian.Real
import Mathlib.Analysis.SpecialFunctions.PolarCoord
import Mathlib.MeasureTheory.Function.JacobianOneDim
import Mathlib.MeasureTheory.Measure.Prod
import Mathlib.MeasureTheory.Group.LIntegral
import Mathlib.Analysis.Complex.ExponentialBounds
/-
C79: the noise is standard normal.
-/
namespace SR
open MeasureTheory ProbabilityTheory Real
open scoped ENNReal

/-- The Box-Muller transform on the reals. -/
noncomputable def boxMuller (u v : ℝ) : ℝ := √(-2 * log u) * cos (2 * π * v)

theorem angle_integral (h : ℝ → ℝ≥0∞) :
    ∫⁻ v in Set.Ico (0 : ℝ) 1, h (cos (2 * π * v)) = ∫⁻ θ in Set.Ioo (-π) π, ENNReal.ofReal (1 / (2 * π)) * h (-cos θ) := by
  have hpi := pi_pos
  have himg : (fun θ : ℝ => (θ + π) / (2 * π)) '' Set.Ioo (-π) π = Set.Ioo 0 1 := by
    ext y
    simp only [Set.mem_image, Set.mem_Ioo]
    constructor
    · rintro ⟨θ, ⟨h1, h2⟩, rfl⟩
      exact ⟨div_pos (by linarith) (by linarith), by rw [div_lt_one (by linarith)]; linarith⟩
    · rintro ⟨h1, h2⟩
      refine ⟨2 * π * y - π, ⟨by nlinarith, by nlinarith⟩, ?_⟩
      field_simp; ring
  rw [setLIntegral_congr Ioo_ae_eq_Ico.symm, ← himg,
    lintegral_image_eq_lintegral_abs_deriv_mul measurableSet_Ioo (f := fun θ : ℝ => (θ + π) / (2 * π)) (f' := fun _ => 1 / (2 * π))
      (fun x _ => (((hasDerivAt_id x).add_const π).div_const (2 * π)).hasDerivWithinAt)
      (fun a _ b _ hab => by
        have : (a + π) / (2 * π) = (b + π) / (2 * π) := hab
        field_simp at this; linarith)]
  refine setLIntegral_congr_fun measurableSet_Ioo fun θ _ => ?_
  rw [abs_of_pos (by positivity), show 2 * π * ((θ + π) / (2 * π)) = θ + π by field_simp, cos_add_pi]

theorem radius_integral (G : ℝ → ℝ≥0∞) :
    ∫⁻ u in Set.Ico (0 : ℝ) 1, G u = ∫⁻ r in Set.Ioi (0 : ℝ), ENNReal.ofReal (r * exp (-r ^ 2 / 2)) * G (exp (-r ^ 2 / 2)) := by
  have himg : (fun r : ℝ => exp (-r ^ 2 / 2)) '' Set.Ioi 0 = Set.Ioo 0 1 := by
    ext y
    simp only [Set.mem_image, Set.mem_Ioi, Set.mem_Ioo]
    constructor
    · rintro ⟨r, hr, rfl⟩
      exact ⟨exp_pos _, by rw [exp_lt_one_iff]; nlinarith [sq_pos_of_pos hr]⟩
    · rintro ⟨h1, h2⟩
      have hl := log_neg h1 h2
      refine ⟨√(-2 * log y), sqrt_pos.mpr (by linarith), ?_⟩
      rw [sq_sqrt (by linarith), show -(-2 * log y) / 2 = log y by ring, exp_log h1]
  have hder : ∀ x ∈ Set.Ioi (0 : ℝ), HasDerivWithinAt (fun r : ℝ => exp (-r ^ 2 / 2)) (exp (-x ^ 2 / 2) * (-x)) (Set.Ioi 0) x := by
    intro x _
    have h : HasDerivAt (fun r : ℝ => -r ^ 2 / 2) (-x) x := by
      have := (((hasDerivAt_id x).pow 2).neg).div_const 2
      refine this.congr_deriv ?_
      simp only [id, Nat.cast_ofNat, Nat.add_one_sub_one, pow_one, mul_one]
      ring
    exact h.exp.hasDerivWithinAt
  have hinj : Set.InjOn (fun r : ℝ => exp (-r ^ 2 / 2)) (Set.Ioi 0) := by
    intro a ha b hb hab
    have ha : 0 < a := ha
    have hb : 0 < b := hb
    have := exp_injective hab
    have h2 : a ^ 2 = b ^ 2 := by linarith
    exact (pow_left_inj₀ ha.le hb.le (by norm_num)).mp h2
  rw [setLIntegral_congr Ioo_ae_eq_Ico.symm, ← himg,
    lintegral_image_eq_lintegral_abs_deriv_mul measurableSet_Ioi (f' := fun r => exp (-r ^ 2 / 2) * (-r)) hder hinj]
  · refine setLIntegral_congr_fun measurableSet_Ioi fun r hr => ?_
    have hr : 0 < r := hr
    rw [abs_mul, abs_of_pos (exp_pos _), abs_neg, abs_of_pos hr, mul_comm r]

theorem gaussian_product (x y : ℝ) : gaussianPDF 0 1 x * gaussianPDF 0 1 y = ENNReal.ofReal (1 / (2 * π) * exp (-(x ^ 2 + y ^ 2) / 2)) := by
  rw [gaussianPDF, gaussianPDF, ← ENNReal.ofReal_mul (gaussianPDFReal_nonneg _ _ _)]
  congr 1
  simp only [gaussianPDFReal, NNReal.coe_one, mul_one, sub_zero]
  rw [show (√(2 * π))⁻¹ * exp (-x ^ 2 / 2) * ((√(2 * π))⁻¹ * exp (-y ^ 2 / 2)) = (√(2 * π) * √(2 * π))⁻¹ * (exp (-x ^ 2 / 2) * exp (-y ^ 2 / 2)) by
    rw [mul_inv]; ring, mul_self_sqrt (by positivity), ← exp_add]
  congr 1
  · rw [one_div]
  · congr 1; ring

theorem boxMuller_integral (f : ℝ → ℝ≥0∞) (hf : Measurable f) :
    ∫⁻ u in Set.Ico (0 : ℝ) 1, ∫⁻ v in Set.Ico (0 : ℝ) 1, f (boxMuller u v) = ∫⁻ x, f x ∂(gaussianReal 0 1) := by
  have hpdf : Measurable (gaussianPDF 0 1) := measurable_gaussianPDF 0 1
  have h1 : ∀ u : ℝ, ∫⁻ v in Set.Ico (0 : ℝ) 1, f (boxMuller u v)
      = ∫⁻ θ in Set.Ioo (-π) π, ENNReal.ofReal (1 / (2 * π)) * f (√(-2 * log u) * -cos θ) := fun u =>
    angle_integral fun c => f (√(-2 * log u) * c)
  simp only [h1]
  rw [radius_integral]
  have hcos : Measurable fun p : ℝ × ℝ => f (p.1 * -cos p.2) := hf.comp (by fun_prop)
  calc _ = ∫⁻ r in Set.Ioi (0 : ℝ), ∫⁻ θ in Set.Ioo (-π) π, ENNReal.ofReal (r * exp (-r ^ 2 / 2)) * (ENNReal.ofReal (1 / (2 * π)) * f (r * -cos θ)) := by
        refine setLIntegral_congr_fun measurableSet_Ioi fun r hr => ?_
        have hr : 0 < r := hr
        simp only [log_exp]
        rw [show -2 * (-r ^ 2 / 2) = r ^ 2 by ring, sqrt_sq hr.le]
        have hm : Measurable fun θ : ℝ => f (r * -cos θ) := hf.comp (by fun_prop)
        rw [lintegral_const_mul _ (hm.const_mul _)]
    _ = ∫⁻ p in Set.Ioi (0 : ℝ) ×ˢ Set.Ioo (-π) π, ENNReal.ofReal (p.1 * exp (-p.1 ^ 2 / 2)) * (ENNReal.ofReal (1 / (2 * π)) * f (p.1 * -cos p.2)) := by
        rw [Measure.volume_eq_prod, ← Measure.prod_restrict, lintegral_prod]
        exact (Measurable.mul (by fun_prop) (hcos.const_mul _)).aemeasurable
    _ = ∫⁻ p in polarCoord.target, ENNReal.ofReal p.1 • (fun q : ℝ × ℝ => f (-q.1) * (gaussianPDF 0 1 q.1 * gaussianPDF 0 1 q.2)) (polarCoord.symm p) := by
        refine setLIntegral_congr_fun (measurableSet_Ioi.prod measurableSet_Ioo) fun p hp => ?_
        have hr : 0 < p.1 := hp.1
        simp only [polarCoord_symm_apply, smul_eq_mul]
        rw [gaussian_product, show (p.1 * cos p.2) ^ 2 + (p.1 * sin p.2) ^ 2 = p.1 ^ 2 by
          rw [mul_pow, mul_pow, ← mul_add, cos_sq_add_sin_sq, mul_one], ENNReal.ofReal_mul hr.le, mul_neg,
          ENNReal.ofReal_mul (by positivity)]
        ring
    _ = ∫⁻ x, ∫⁻ y, f (-x) * (gaussianPDF 0 1 x * gaussianPDF 0 1 y) := by
        rw [lintegral_comp_polarCoord_symm (fun q : ℝ × ℝ => f (-q.1) * (gaussianPDF 0 1 q.1 * gaussianPDF 0 1 q.2)), Measure.volume_eq_prod, lintegral_prod]
        exact ((hf.comp (by fun_prop)).mul ((hpdf.comp measurable_fst).mul (hpdf.comp measurable_snd))).aemeasurable
    _ = ∫⁻ x, f (-x) * gaussianPDF 0 1 x := by
        refine lintegral_congr fun x => ?_
        rw [lintegral_const_mul _ (hpdf.const_mul _), lintegral_const_mul _ hpdf, lintegral_gaussianPDF_eq_one 0 one_ne_zero, mul_one]
    _ = ∫⁻ x, f x * gaussianPDF 0 1 x := by
        rw [← lintegral_neg_eq_self]
        refine lintegral_congr fun x => ?_
        rw [neg_neg]
        congr 1
        simp [gaussianPDF, gaussianPDFReal]
    _ = _ := by
        rw [gaussianReal_of_var_ne_zero 0 one_ne_zero, lintegral_withDensity_eq_lintegral_mul _ hpdf hf]
        refine lintegral_congr fun x => ?_
        simp [mul_comm]

theorem measurable_boxMuller : Measurable fun p : ℝ × ℝ => boxMuller p.1 p.2 := by
  unfold boxMuller
  have h1 : Measurable fun p : ℝ × ℝ => √(-2 * log p.1) := ((measurable_log.comp measurable_fst).const_mul _).sqrt
  exact h1.mul (by fun_prop)

variable {Ω : Type} [MeasurableSpace Ω] {P : Measure Ω} {U : ℕ → Ω → ℝ} {I : ℕ → Ω → ℕ}

/-- C79: the Box-Muller transform of two independent uniform draws is exactly standard normal. -/
theorem C79_box_muller [IsProbabilityMeasure P] (h : FairFloats P U) {j k : ℕ} (hjk : j ≠ k) :
    P.map (fun ω => boxMuller (U j ω) (U k ω)) = gaussianReal 0 1 := by
  have hind : IndepFun (U j) (U k) P := h.indep.indepFun hjk
  have hpair : P.map (fun ω => (U j ω, U k ω)) = (P.map (U j)).prod (P.map (U k)) :=
    (indepFun_iff_map_prod_eq_prod_map_map (h.meas j).aemeasurable (h.meas k).aemeasurable).mp hind
  have hm := (h.meas j).prodMk (h.meas k)
  ext s hs
  have hcomp : (fun ω => boxMuller (U j ω) (U k ω)) = (fun p : ℝ × ℝ => boxMuller p.1 p.2) ∘ fun ω => (U j ω, U k ω) := rfl
  rw [hcomp, ← Measure.map_map measurable_boxMuller hm, hpair, h.law, h.law, Measure.map_apply measurable_boxMuller hs,
    ← lintegral_indicator_one (measurable_boxMuller hs), lintegral_prod _ (by
      exact (measurable_one.indicator (measurable_boxMuller hs)).aemeasurable), ← lintegral_indicator_one hs,
    ← boxMuller_integral _ (measurable_one.indicator hs)]
  rfl

theorem normal_exact {L : NormalLib ℝ} {δ : ℝ} (hL : L.OnReals δ) (h0 : 0 < δ) (h1 : δ ≤ 1) {u v : ℝ} (hu : u < 1) :
    normalOf (Rounding.exact ℝ) L (.fin u) (.fin v) = .fin (boxMuller (max u δ) v) := by
  have hmax : (Fl.fin u).max (.fin δ) = .fin (max u δ) := by
    simp only [Fl.max, Fl.isNan, Fl.lt, Bool.false_eq_true, if_false, decide_eq_true_eq]
    split
    · next h => rw [max_eq_right h.le]
    · next h => rw [max_eq_left (not_lt.mp h)]
  have hpos : 0 < max u δ := lt_max_of_lt_right h0
  have hle : max u δ ≤ 1 := max_le hu.le h1
  have hlog : log (max u δ) ≤ 0 := log_nonpos hpos.le hle
  unfold normalOf
  rw [hL.minPositive, hmax, hL.ln _ hpos, hL.pi]
  simp only [exact_mul]
  rw [hL.sqrt _ (by linarith), hL.cos]
  simp only [exact_mul, boxMuller]

/-- The value returned by the noise generator on draws in `[0, 1)`. -/
theorem C79_value {L : NormalLib ℝ} {δ : ℝ} (hL : L.OnReals δ) (h0 : 0 < δ) (h1 : δ ≤ 1) (g : Rng (Fl ℝ)) (u v : ℝ)
    (hu : g.floats 0 = .fin u) (hv : g.floats 1 = .fin v) (hu1 : u < 1) :
    standardNormal (Rounding.exact ℝ) L g = some (.fin (√(-2 * log (max u δ)) * cos (2 * π * v)), g.nextFloat.nextFloat) := by
  have := normal_exact hL h0 h1 (v := v) hu1
  unfold boxMuller at this
  rw [← this, ← hu, ← hv]
  rfl

/-- C79: it is never larger than `√(-2 ln δ)` in size: less than 38 in double precision. -/
theorem C79_bounded (u v : ℝ) : |√(-2 * log (max u (2 ^ (-1022 : ℤ)))) * cos (2 * π * v)| < 38 := by
  rw [abs_mul, abs_of_nonneg (sqrt_nonneg _)]
  have hd : (0 : ℝ) < 2 ^ (-1022 : ℤ) := by positivity
  have h1 : log (2 ^ (-1022 : ℤ)) ≤ log (max u (2 ^ (-1022 : ℤ))) := log_le_log hd (le_max_right _ _)
  rw [log_zpow] at h1
  have h2 := log_two_lt_d9
  have h3 : √(-2 * log (max u (2 ^ (-1022 : ℤ)))) < 38 := by
    rw [sqrt_lt' (by norm_num)]
    push_cast at h1
    nlinarith
  calc √(-2 * log (max u (2 ^ (-1022 : ℤ)))) * |cos (2 * π * v)| ≤ √(-2 * log (max u (2 ^ (-1022 : ℤ)))) * 1 :=
        mul_le_mul_of_nonneg_left (abs_cos_le_one _) (sqrt_nonneg _)
    _ < 38 := by rw [mul_one]; exact h3

/-- C79: with fair draws the noise is a standard normal variable, except on an event of probability `δ` (the first draw
below the smallest positive number). -/
theorem C79_normal [IsProbabilityMeasure P] (h : FairFloats P U) {L : NormalLib ℝ} {δ : ℝ} (hL : L.OnReals δ) (h0 : 0 < δ) (h1 : δ ≤ 1) :
    ∃ N : Ω → ℝ, Measurable N ∧ P.map N = gaussianReal 0 1 ∧
      P {ω | ¬ ∃ g', standardNormal (Rounding.exact ℝ) L (streamOf I U ω) = some (.fin (N ω), g')} ≤ ENNReal.ofReal δ := by
  refine ⟨fun ω => boxMuller (U 0 ω) (U 1 ω), measurable_boxMuller.comp ((h.meas 0).prodMk (h.meas 1)), C79_box_muller h (by norm_num), ?_⟩
  have hlaw : P {ω | U 0 ω < δ} = ENNReal.ofReal δ := by
    have := h.between 0 (le_refl 0) h1
    rw [sub_zero] at this
    rw [← this]
    congr 1
    ext ω
    exact ⟨fun hlt => ⟨(h.unit 0 ω).1, hlt⟩, fun hlt => hlt.2⟩
  rw [← hlaw]
  refine measure_mono fun ω hω => ?_
  by_contra hge
  simp only [Set.mem_setOf_eq, not_lt] at hge hω
  have := C79_value hL h0 h1 (streamOf I U ω) (U 0 ω) (U 1 ω) rfl rfl (h.unit 0 ω).2
  rw [max_eq_left hge] at this
  exact hω ⟨_, this⟩

/-- C79: hence the probability that the noise falls in a set is that of the standard normal law, up to `δ`. -/
theorem C79_distribution [IsProbabilityMeasure P] (h : FairFloats P U) {L : NormalLib ℝ} {δ : ℝ} (hL : L.OnReals δ) (h0 : 0 < δ) (h1 : δ ≤ 1)
    (A : Set ℝ) (hA : MeasurableSet A) :
    P {ω | ∃ x ∈ A, ∃ g', standardNormal (Rounding.exact ℝ) L (streamOf I U ω) = some (.fin x, g')} ≤ gaussianReal 0 1 A + ENNReal.ofReal δ ∧
    gaussianReal 0 1 A ≤ P {ω | ∃ x ∈ A, ∃ g', standardNormal (Rounding.exact ℝ) L (streamOf I U ω) = some (.fin x, g')} + ENNReal.ofReal δ := by
  obtain ⟨N, hN, hlaw, hex⟩ := C79_normal (I := I) h hL h0 h1
  have hA' : gaussianReal 0 1 A = P (N ⁻¹' A) := by rw [← hlaw, Measure.map_apply hN hA]
  rw [hA']
  constructor
  · refine le_trans ?_ (add_le_add (le_refl _) hex)
    refine le_trans (measure_mono ?_) (measure_union_le _ _)
    rintro ω ⟨x, hx, g', hg⟩
    by_cases hω : ∃ g', standardNormal (Rounding.exact ℝ) L (streamOf I U ω) = some (.fin (N ω), g')
    · obtain ⟨g2, h2⟩ := hω
      rw [hg] at h2
      simp only [Option.some.injEq, Prod.mk.injEq, Fl.fin.injEq] at h2
      left
      show N ω ∈ A
      rw [← h2.1]; exact hx
    · right; exact hω
  · refine le_trans ?_ (add_le_add (le_refl _) hex)
    refine le_trans (measure_mono ?_) (measure_union_le _ _)
    intro ω hω
    by_cases hω' : ∃ g', standardNormal (Rounding.exact ℝ) L (streamOf I U ω) = some (.fin (N ω), g')
    · obtain ⟨g2, h2⟩ := hω'
      left; exact ⟨N ω, hω, g2, h2⟩
    · right; exact hω'

/-- Such a library exists, so the hypotheses can be met (fair draws: `fairFloats_exist`). -/
example : ∃ L : NormalLib ℝ, L.OnReals (2 ^ (-1022 : ℤ)) := by
  refine ⟨⟨fun x => match x with | .fin x => .fin (log x) | _ => .nan, fun x => match x with | .fin x => .fin (√x) | _ => .nan,
    fun x => match x with | .fin x => .fin (cos x) | _ => .nan, .fin (2 ^ (-1022 : ℤ)), .fin π⟩, ?_⟩
  exact ⟨fun _ _ => rfl, fun _ _ => rfl, fun _ => rfl, rfl, rfl⟩

end SR
