import Verif.Model.Builtin
import Verif.Spec.Calculus
import Mathlib.Analysis.SpecialFunctions.Trigonometric.InverseDeriv
import Mathlib.Analysis.SpecialFunctions.Complex.LogDeriv
import Mathlib.Analysis.SpecialFunctions.Pow.Deriv
import Mathlib.Analysis.SpecialFunctions.Sqrt
import Mathlib.Analysis.Calculus.Deriv.Abs
import Mathlib.Analysis.Calculus.Deriv.Inv
/-
Calculus of the built-in operators.
-/
namespace SR
open Real

/-- The model's cube root is a cube root. -/
theorem realCbrt_pow (x : ℝ) : realCbrt x ^ 3 = x := by
  unfold realCbrt
  have h3 : ∀ y : ℝ, 0 ≤ y → (y ^ ((1 : ℝ) / 3)) ^ 3 = y := by
    intro y hy
    rw [← Real.rpow_natCast, ← Real.rpow_mul hy]; norm_num
  split
  · next h => exact h3 x h
  · next h =>
    have hx : 0 ≤ -x := by linarith
    rw [Odd.neg_pow (by decide), h3 _ hx]; ring

theorem realCbrt_deriv {x : ℝ} (hx : x ≠ 0) :
    HasDerivAt realCbrt (1 / (3 * realCbrt x ^ 2)) x := by
  have key : ∀ y : ℝ, 0 < y → HasDerivAt (fun z : ℝ => z ^ ((1 : ℝ) / 3))
      (1 / (3 * (y ^ ((1 : ℝ) / 3)) ^ 2)) y := by
    intro y hy
    have := Real.hasDerivAt_rpow_const (x := y) (p := (1 : ℝ) / 3) (Or.inl hy.ne')
    refine this.congr_deriv ?_
    have : y ^ ((1 : ℝ) / 3 - 1) = ((y ^ ((1 : ℝ) / 3)) ^ 2)⁻¹ := by
      rw [← Real.rpow_natCast, ← Real.rpow_mul hy.le, ← Real.rpow_neg hy.le]
      norm_num
    rw [this]; field_simp
  rcases lt_or_gt_of_ne hx with h | h
  · have h1 := key (-x) (by linarith)
    have h2 := (h1.comp x (hasDerivAt_neg x)).neg
    have e : realCbrt =ᶠ[nhds x] fun z => -((-z) ^ ((1 : ℝ) / 3)) := by
      filter_upwards [gt_mem_nhds h] with z hz
      simp [realCbrt, not_le.mpr hz]
    have := h2.congr_of_eventuallyEq e
    refine this.congr_deriv ?_
    have hc : realCbrt x = -((-x) ^ ((1 : ℝ) / 3)) := by simp [realCbrt, not_le.mpr h]
    rw [hc]; ring
  · have h1 := key x h
    have e : realCbrt =ᶠ[nhds x] fun z => z ^ ((1 : ℝ) / 3) := by
      filter_upwards [lt_mem_nhds h] with z hz
      simp [realCbrt, hz.le]
    have := h1.congr_of_eventuallyEq e
    refine this.congr_deriv ?_
    simp [realCbrt, h.le]

theorem artanh_deriv {x : ℝ} (h1 : -1 < x) (h2 : x < 1) :
    HasDerivAt Real.artanh (1 / (1 - x * x)) x := by
  have e : Real.artanh =ᶠ[nhds x] fun y => 1 / 2 * (Real.log ((1 + y) / (1 - y))) := by
    filter_upwards [lt_mem_nhds h1, gt_mem_nhds h2] with y hy1 hy2
    exact Real.artanh_eq_half_log ⟨hy1.le, hy2.le⟩
  have hp : 0 < 1 - x := by linarith
  have hq : 0 < 1 + x := by linarith
  have hd : HasDerivAt (fun y : ℝ => (1 + y) / (1 - y)) ((1 * (1 - x) - (1 + x) * (-1)) / (1 - x) ^ 2) x :=
    ((hasDerivAt_id x).const_add 1).div ((hasDerivAt_id x).const_sub 1) hp.ne'
  have hl := (hd.log (by positivity)).const_mul (1 / 2 : ℝ)
  have := hl.congr_of_eventuallyEq e
  refine this.congr_deriv ?_
  have : 1 - x * x = (1 - x) * (1 + x) := by ring
  rw [this]
  field_simp
  ring

theorem un_deriv (u : Un) (x : ℝ) (hd : u.dom x) : HasDerivAt u.eval (u.partial_ x) x := by
  cases u with
  | abs =>
    simp only [Un.dom] at hd
    rcases lt_or_gt_of_ne hd with h | h
    · exact (hasDerivAt_abs_neg h).congr_deriv (by simp [Un.partial_, h, not_lt.mpr h.le])
    · exact (hasDerivAt_abs_pos h).congr_deriv (by simp [Un.partial_, h])
  | abs2 =>
    have := (hasDerivAt_id x).mul (hasDerivAt_id x)
    refine this.congr_deriv ?_
    simp [Un.partial_]; ring
  | acos =>
    have := Real.hasDerivAt_arccos (x := x) hd.1.ne' hd.2.ne
    refine this.congr_deriv ?_
    simp [Un.partial_]; ring_nf
  | acosh =>
    simp only [Un.dom] at hd
    have := Real.hasDerivAt_arcosh (x := x) hd
    refine this.congr_deriv ?_
    have : √(x ^ 2 - 1) = √(x - 1) * √(x + 1) := by
      rw [← Real.sqrt_mul (by linarith)]; congr 1; ring
    simp [Un.partial_, this]
  | asin =>
    have := Real.hasDerivAt_arcsin (x := x) hd.1.ne' hd.2.ne
    refine this.congr_deriv ?_
    simp [Un.partial_]; ring_nf
  | asinh =>
    have := Real.hasDerivAt_arsinh x
    refine this.congr_deriv ?_
    simp [Un.partial_]; ring_nf
  | atan =>
    have := Real.hasDerivAt_arctan x
    refine this.congr_deriv ?_
    simp [Un.partial_]; ring
  | atanh => exact artanh_deriv hd.1 hd.2
  | cbrt => exact realCbrt_deriv hd
  | cos => exact Real.hasDerivAt_cos x
  | cosh => exact Real.hasDerivAt_cosh x
  | cot =>
    simp only [Un.dom] at hd
    have h := (Real.hasDerivAt_cos x).div (Real.hasDerivAt_sin x) hd
    have e : Un.eval .cot = fun y => Real.cos y / Real.sin y := by
      funext y; simp [Un.eval, Real.tan_eq_sin_div_cos]
    rw [e]
    refine h.congr_deriv ?_
    have := Real.sin_sq_add_cos_sq x
    simp only [Un.partial_]
    rw [div_eq_div_iff (by positivity) (by positivity)]
    nlinarith
  | csc =>
    simp only [Un.dom] at hd
    have h := (Real.hasDerivAt_sin x).inv hd
    have e : Un.eval .csc = fun y => (Real.sin y)⁻¹ := by funext y; simp [Un.eval]
    rw [e]
    refine h.congr_deriv ?_
    simp only [Un.partial_, Real.tan_eq_sin_div_cos]
    field_simp
  | exp => exact Real.hasDerivAt_exp x
  | exp2 =>
    have := (hasDerivAt_id x).const_rpow (a := 2) (by norm_num)
    refine this.congr_deriv ?_
    simp [Un.partial_]; ring
  | expm1 => exact (Real.hasDerivAt_exp x).sub_const 1
  | identity => exact hasDerivAt_id x
  | inv =>
    simp only [Un.dom] at hd
    have := hasDerivAt_inv hd
    refine this.congr_deriv ?_
    simp only [Un.partial_]; field_simp
  | log =>
    simp only [Un.dom] at hd
    have := Real.hasDerivAt_log hd.ne'
    refine this.congr_deriv ?_
    simp [Un.partial_]
  | log1p =>
    simp only [Un.dom] at hd
    have := ((hasDerivAt_id x).const_add 1).log (by simp; linarith)
    exact this.congr_deriv (by simp [Un.partial_])
  | log2 =>
    simp only [Un.dom] at hd
    have := (Real.hasDerivAt_log hd.ne').div_const (Real.log 2)
    refine this.congr_deriv ?_
    simp only [Un.partial_]
    have : Real.log 2 ≠ 0 := by positivity
    field_simp
  | log10 =>
    simp only [Un.dom] at hd
    have := (Real.hasDerivAt_log hd.ne').div_const (Real.log 10)
    refine this.congr_deriv ?_
    simp only [Un.partial_]
    have : Real.log 10 ≠ 0 := by positivity
    field_simp
  | neg => exact hasDerivAt_neg x
  | sec =>
    simp only [Un.dom] at hd
    have h := (Real.hasDerivAt_cos x).inv hd
    have e : Un.eval .sec = fun y => (Real.cos y)⁻¹ := by funext y; simp [Un.eval]
    rw [e]
    refine h.congr_deriv ?_
    simp only [Un.partial_, Real.tan_eq_sin_div_cos]
    field_simp
  | sign =>
    simp only [Un.dom] at hd
    rcases lt_or_gt_of_ne hd with h | h
    · have e : Un.eval .sign =ᶠ[nhds x] fun _ => -1 := by
        filter_upwards [gt_mem_nhds h] with z hz
        simp [Un.eval, hz]
      exact (hasDerivAt_const x (-1 : ℝ)).congr_of_eventuallyEq e
    · have e : Un.eval .sign =ᶠ[nhds x] fun _ => 1 := by
        filter_upwards [lt_mem_nhds h] with z hz
        simp [Un.eval, not_lt.mpr hz.le]
      exact (hasDerivAt_const x (1 : ℝ)).congr_of_eventuallyEq e
  | sin => exact Real.hasDerivAt_sin x
  | sinh => exact Real.hasDerivAt_sinh x
  | sqrt =>
    simp only [Un.dom] at hd
    exact Real.hasDerivAt_sqrt hd.ne'
  | tan =>
    simp only [Un.dom] at hd
    have := Real.hasDerivAt_tan hd
    refine this.congr_deriv ?_
    simp [Un.partial_]; ring
  | tanh =>
    have h := (Real.hasDerivAt_sinh x).div (Real.hasDerivAt_cosh x) (Real.cosh_pos x).ne'
    have e : Un.eval .tanh = fun y => Real.sinh y / Real.cosh y := by
      funext y; simp [Un.eval, Real.tanh_eq_sinh_div_cosh]
    rw [e]
    refine h.congr_deriv ?_
    have := Real.cosh_sq x
    have hp := Real.cosh_pos x
    simp only [Un.partial_]
    rw [div_eq_div_iff (by positivity) (by positivity)]
    nlinarith

abbrev pj {n : Nat} (j : Fin n) : (Fin n → ℝ) →L[ℝ] ℝ := ContinuousLinearMap.proj j

theorem hpj {n : Nat} (j : Fin n) (w : Fin n → ℝ) : HasFDerivAt (fun v : Fin n → ℝ => v j) (pj j) w :=
  hasFDerivAt_apply j w

theorem bin_deriv (b : Bin) (x y : ℝ) (hd : b.dom x y) :
    HasFDerivAt (fun w : Fin 2 → ℝ => b.eval (w 0) (w 1))
      (b.partial_ x y 0 • pj 0 + b.partial_ x y 1 • pj 1) ![x, y] := by
  have h0 := hpj (0 : Fin 2) ![x, y]
  have h1 := hpj (1 : Fin 2) ![x, y]
  cases b with
  | add =>
    refine (h0.add h1).congr_fderiv ?_
    simp [Bin.partial_]
  | sub =>
    refine (h0.sub h1).congr_fderiv ?_
    ext v
    simp [Bin.partial_, sub_eq_add_neg]
  | mul =>
    refine (h0.mul h1).congr_fderiv ?_
    simp [Bin.partial_, add_comm]
  | div =>
    simp only [Bin.dom] at hd
    have hi := (hasDerivAt_inv (x := (![x, y] : Fin 2 → ℝ) 1) (by simpa using hd)).comp_hasFDerivAt
      (f := fun v : Fin 2 → ℝ => v 1) ![x, y] h1
    refine (h0.mul hi).congr_fderiv ?_
    ext v
    simp [Bin.partial_]
    field_simp
    ring
  | max =>
    simp only [Bin.dom] at hd
    rcases lt_or_gt_of_ne hd with h | h
    · have e : (fun w : Fin 2 → ℝ => Bin.eval .max (w 0) (w 1)) =ᶠ[nhds ![x, y]] fun w => w 1 := by
        have := h0.continuousAt.eventually_lt h1.continuousAt (by simpa using h)
        filter_upwards [this] with w hw
        simp [Bin.eval, hw.le]
      refine (h1.congr_of_eventuallyEq e).congr_fderiv ?_
      simp [Bin.partial_, h, not_lt.mpr h.le]
    · have e : (fun w : Fin 2 → ℝ => Bin.eval .max (w 0) (w 1)) =ᶠ[nhds ![x, y]] fun w => w 0 := by
        have := h1.continuousAt.eventually_lt h0.continuousAt (by simpa using h)
        filter_upwards [this] with w hw
        simp [Bin.eval, hw.le]
      refine (h0.congr_of_eventuallyEq e).congr_fderiv ?_
      simp [Bin.partial_, h, not_lt.mpr h.le]
  | min =>
    simp only [Bin.dom] at hd
    rcases lt_or_gt_of_ne hd with h | h
    · have e : (fun w : Fin 2 → ℝ => Bin.eval .min (w 0) (w 1)) =ᶠ[nhds ![x, y]] fun w => w 0 := by
        have := h0.continuousAt.eventually_lt h1.continuousAt (by simpa using h)
        filter_upwards [this] with w hw
        simp [Bin.eval, hw.le]
      refine (h0.congr_of_eventuallyEq e).congr_fderiv ?_
      simp [Bin.partial_, h, not_lt.mpr h.le]
    · have e : (fun w : Fin 2 → ℝ => Bin.eval .min (w 0) (w 1)) =ᶠ[nhds ![x, y]] fun w => w 1 := by
        have := h1.continuousAt.eventually_lt h0.continuousAt (by simpa using h)
        filter_upwards [this] with w hw
        simp [Bin.eval, hw.le]
      refine (h1.congr_of_eventuallyEq e).congr_fderiv ?_
      simp [Bin.partial_, h, not_lt.mpr h.le]
  | pow =>
    simp only [Bin.dom] at hd
    refine (h0.rpow h1 (by simpa using hd)).congr_fderiv ?_
    simp [Bin.partial_]
  | atan2 =>
    simp only [Bin.dom] at hd
    have hz : HasFDerivAt (fun w : Fin 2 → ℝ => ((w 1 : ℂ) + (w 0 : ℂ) * Complex.I))
        (Complex.ofRealCLM.comp (pj 1) + (Complex.I) • Complex.ofRealCLM.comp (pj 0)) ![x, y] := by
      have a := Complex.ofRealCLM.hasFDerivAt.comp ![x, y] h1
      have b := (Complex.ofRealCLM.hasFDerivAt.comp ![x, y] h0).mul_const Complex.I
      exact a.add b
    have hs : ((![x, y] : Fin 2 → ℝ) 1 : ℂ) + (((![x, y] : Fin 2 → ℝ) 0 : ℝ) : ℂ) * Complex.I ∈ Complex.slitPlane := by
      rw [Complex.mem_slitPlane_iff]; simpa using hd
    have hl := (Complex.hasStrictFDerivAt_log_real hs).hasFDerivAt.comp ![x, y] hz
    have hi := Complex.imCLM.hasFDerivAt.comp ![x, y] hl
    have e : (fun w : Fin 2 → ℝ => Bin.eval .atan2 (w 0) (w 1))
        = (Complex.imCLM ∘ fun t : Fin 2 → ℝ => Complex.log ((t 1 : ℂ) + (t 0 : ℂ) * Complex.I)) := by
      funext w
      simp only [Bin.eval, Function.comp, Complex.imCLM_apply, Complex.log_im]
      congr 1
      apply Complex.ext <;> simp
    rw [e]
    refine hi.congr_fderiv ?_
    ext v
    have hn : y * y + x * x ≠ 0 := by
      rcases hd with h | h
      · have := mul_self_nonneg x; positivity
      · have := mul_self_pos.mpr h; have := mul_self_nonneg y; positivity
    simp [Bin.partial_, Complex.inv_re, Complex.inv_im, Complex.normSq_apply]
    field_simp
    ring

theorem ter_deriv (b : Ter) (x y z : ℝ) (hd : b.dom x y z) :
    HasFDerivAt (fun w : Fin 3 → ℝ => b.eval (w 0) (w 1) (w 2))
      (b.partial_ x y z 0 • pj 0 + b.partial_ x y z 1 • pj 1 + b.partial_ x y z 2 • pj 2)
      ![x, y, z] := by
  have h0 := hpj (0 : Fin 3) ![x, y, z]
  have h1 := hpj (1 : Fin 3) ![x, y, z]
  have h2 := hpj (2 : Fin 3) ![x, y, z]
  cases b with
  | fma =>
    refine ((h0.mul h1).add h2).congr_fderiv ?_
    ext v
    simp [Ter.partial_, add_comm]
  | clamp =>
    obtain ⟨hl, hh, hn⟩ := hd
    rcases lt_or_gt_of_ne hl with h | h
    · have hz : x < z := lt_of_le_of_ne (not_lt.mp fun hlt => hn ⟨hlt, h⟩) hh
      have e : (fun w : Fin 3 → ℝ => Ter.eval .clamp (w 0) (w 1) (w 2))
          =ᶠ[nhds ![x, y, z]] fun w => w 1 := by
        have := h0.continuousAt.eventually_lt h1.continuousAt (by simpa using h)
        filter_upwards [this] with w hw
        simp [Ter.eval, hw]
      refine (h1.congr_of_eventuallyEq e).congr_fderiv ?_
      simp [Ter.partial_, h, not_lt.mpr hz.le]
    · have e1 := h1.continuousAt.eventually_lt h0.continuousAt (by simpa using h)
      rcases lt_or_gt_of_ne hh with g | g
      · have e : (fun w : Fin 3 → ℝ => Ter.eval .clamp (w 0) (w 1) (w 2))
            =ᶠ[nhds ![x, y, z]] fun w => w 0 := by
          have := h0.continuousAt.eventually_lt h2.continuousAt (by simpa using g)
          filter_upwards [this, e1] with w hw hw1
          simp [Ter.eval, not_lt.mpr hw.le, not_lt.mpr hw1.le]
        refine (h0.congr_of_eventuallyEq e).congr_fderiv ?_
        simp [Ter.partial_, not_lt.mpr g.le, not_lt.mpr h.le]
      · have e : (fun w : Fin 3 → ℝ => Ter.eval .clamp (w 0) (w 1) (w 2))
            =ᶠ[nhds ![x, y, z]] fun w => w 2 := by
          have := h2.continuousAt.eventually_lt h0.continuousAt (by simpa using g)
          filter_upwards [this, e1] with w hw hw1
          simp [Ter.eval, hw, not_lt.mpr hw1.le]
        refine (h2.congr_of_eventuallyEq e).congr_fderiv ?_
        simp [Ter.partial_, g, not_lt.mpr h.le]

theorem partials1 {f : List ℝ → ℝ} {p : List ℝ → Nat → ℝ} {g : ℝ → ℝ} {x : ℝ}
    (hf : ∀ y, f [y] = g y) (h : HasDerivAt g (p [x] 0) x) : PartialsCorrectAt f p [x] := by
  unfold PartialsCorrectAt
  have h0 := hpj (0 : Fin 1) ![x]
  have := h.comp_hasFDerivAt (f := fun w : Fin 1 → ℝ => w 0) ![x] h0
  have e : (fun w : Fin [x].length → ℝ => f (List.ofFn w)) = (g ∘ fun w : Fin 1 → ℝ => w 0) := by
    funext w
    simp [List.ofFn_succ, hf, Function.comp]
  rw [e]
  have ep : (fun j : Fin [x].length => [x].get j) = (![x] : Fin 1 → ℝ) := by
    funext j; fin_cases j; rfl
  rw [ep]
  refine HasFDerivAt.congr_fderiv (E := Fin 1 → ℝ) this ?_
  simp

theorem partials2 {f : List ℝ → ℝ} {p : List ℝ → Nat → ℝ} {g : ℝ → ℝ → ℝ} {x y : ℝ}
    (hf : ∀ x y, f [x, y] = g x y)
    (h : HasFDerivAt (fun w : Fin 2 → ℝ => g (w 0) (w 1))
      (p [x, y] 0 • pj 0 + p [x, y] 1 • pj 1) ![x, y]) : PartialsCorrectAt f p [x, y] := by
  unfold PartialsCorrectAt
  have e : (fun w : Fin [x, y].length → ℝ => f (List.ofFn w))
      = (fun w : Fin 2 → ℝ => g (w 0) (w 1)) := by
    funext w
    simp [List.ofFn_succ, hf]
  rw [e]
  have ep : (fun j : Fin [x, y].length => [x, y].get j) = (![x, y] : Fin 2 → ℝ) := by
    funext j; fin_cases j <;> rfl
  rw [ep]
  refine HasFDerivAt.congr_fderiv (E := Fin 2 → ℝ) h ?_
  exact (Fin.sum_univ_two (fun j : Fin 2 => p [x, y] j.val • pj j)).symm

theorem partials3 {f : List ℝ → ℝ} {p : List ℝ → Nat → ℝ} {g : ℝ → ℝ → ℝ → ℝ} {x y z : ℝ}
    (hf : ∀ x y z, f [x, y, z] = g x y z)
    (h : HasFDerivAt (fun w : Fin 3 → ℝ => g (w 0) (w 1) (w 2))
      (p [x, y, z] 0 • pj 0 + p [x, y, z] 1 • pj 1 + p [x, y, z] 2 • pj 2) ![x, y, z]) :
    PartialsCorrectAt f p [x, y, z] := by
  unfold PartialsCorrectAt
  have e : (fun w : Fin [x, y, z].length → ℝ => f (List.ofFn w))
      = (fun w : Fin 3 → ℝ => g (w 0) (w 1) (w 2)) := by
    funext w
    simp [List.ofFn_succ, hf]
  rw [e]
  have ep : (fun j : Fin [x, y, z].length => [x, y, z].get j) = (![x, y, z] : Fin 3 → ℝ) := by
    funext j; fin_cases j <;> rfl
  rw [ep]
  refine HasFDerivAt.congr_fderiv (E := Fin 3 → ℝ) h ?_
  exact (Fin.sum_univ_three (fun j : Fin 3 => p [x, y, z] j.val • pj j)).symm

/-- All built-ins: in their domains the declared partials are the mathematical ones. -/
theorem realOps_partials (a o : Nat) (v : List ℝ) (hk : realOps.known a o = true)
    (hv : v.length = a) (hd : inDom a o v) :
    PartialsCorrectAt (realOps.eval a o) (realOps.partial_ a o) v := by
  simp only [realOps, Bool.or_eq_true, Bool.and_eq_true, beq_iff_eq, decide_eq_true_eq] at hk
  rcases hk with (⟨rfl, ho⟩ | ⟨rfl, ho⟩) | ⟨rfl, ho⟩
  · obtain ⟨x, rfl⟩ := List.length_eq_one_iff.mp hv
    have hu := List.getElem?_eq_getElem ho
    refine partials1 (g := (unTable[o]).eval) (fun y => by simp [realOps, hu]) ?_
    have := un_deriv _ x (hd _ hu)
    simpa [realOps, hu] using this
  · obtain ⟨x, y, rfl⟩ := List.length_eq_two.mp hv
    have hu := List.getElem?_eq_getElem ho
    refine partials2 (g := (binTable[o]).eval) (fun x y => by simp [realOps, hu]) ?_
    have := bin_deriv _ x y (hd _ hu)
    simpa [realOps, hu] using this
  · obtain ⟨x, y, z, rfl⟩ := List.length_eq_three.mp hv
    have hu := List.getElem?_eq_getElem ho
    refine partials3 (g := (terTable[o]).eval) (fun x y z => by simp [realOps, hu]) ?_
    have := ter_deriv _ x y z (hd _ hu)
    simpa [realOps, hu] using this

end SR
