import Verif.Props.Loss
import Verif.Spec.LossFormula
import Mathlib.Analysis.SpecialFunctions.Pow.Deriv
import Mathlib.Analysis.SpecialFunctions.Sqrt
import Mathlib.Analysis.SpecialFunctions.Log.Deriv
import Mathlib.Analysis.Calculus.Deriv.Abs
import Mathlib.Analysis.Calculus.Deriv.Slope
import Mathlib.Data.List.Forall2
import Mathlib.Analysis.InnerProductSpace.NormPow
/-
C39 (the losses are the textbook ones) and C56 (loss gradients are true derivatives).
-/
namespace SR

local notation "RX" => Rounding.exact ℝ
local notation "LX" => LossLib.real

/-- C39 (exact arithmetic): each pointwise loss is the textbook formula. -/
theorem C39_textbook (l : RealLoss) (a y : ℝ) :
    l.toModel.loss RX LX (.fin a) (.fin y) = .fin (l.formula a y) := by
  cases l with
  | squared => simp [RealLoss.toModel, PointLoss.loss, RealLoss.formula, exact_sub, exact_mul, sq]
  | abs => simp [RealLoss.toModel, PointLoss.loss, RealLoss.formula, exact_sub, Fl.abs, abs]
  | logCosh => simp [RealLoss.toModel, PointLoss.loss, RealLoss.formula, exact_sub, LossLib.real]
  | lp p => simp [RealLoss.toModel, PointLoss.loss, RealLoss.formula, exact_sub, LossLib.real, Fl.abs, abs]
  | huber d =>
    simp only [RealLoss.toModel, PointLoss.loss, RealLoss.formula, exact_sub]
    have hh : (Rounding.exact ℝ).rnd (1 / 2) = .fin (1 / 2) := rfl
    have ha : (Fl.fin (a - y)).abs = .fin |a - y| := rfl
    rw [ha, hh]
    by_cases h : |a - y| ≤ d
    · rw [if_pos (by simpa [Fl.le] using h), if_pos h, exact_mul, exact_mul]; congr 1; ring
    · rw [if_neg (by simpa [Fl.le] using h), if_neg h, exact_mul, exact_sub, exact_mul]; congr 1; ring
  | quantile t =>
    simp only [RealLoss.toModel, PointLoss.loss, RealLoss.formula, exact_sub]
    by_cases h : a ≤ y
    · rw [if_pos (by simpa [Fl.le] using h), if_pos h, exact_mul]
    · rw [if_neg (by simpa [Fl.le] using h), if_neg h, exact_mul]; congr 1; ring
  | epsIns e =>
    simp only [RealLoss.toModel, PointLoss.loss, RealLoss.formula, exact_sub]
    have ha : (Fl.fin (a - y)).abs = .fin |a - y| := rfl
    rw [ha, exact_sub]
    by_cases h : 0 < |a - y| - e
    · rw [if_pos (by simpa [Fl.lt] using h), max_eq_left h.le]
    · rw [if_neg (by simpa [Fl.lt] using h), max_eq_right (not_lt.mp h)]

theorem hasDerivAt_mul_abs (x : ℝ) : HasDerivAt (fun x => x * |x|) (2 * |x|) x := by
  rcases eq_or_ne x 0 with rfl | hx
  · rw [hasDerivAt_iff_tendsto_slope_zero]
    have h : Filter.Tendsto (fun t : ℝ => |t|) (nhdsWithin 0 {0}ᶜ) (nhds (2 * |0|)) := by
      have : Filter.Tendsto (fun t : ℝ => |t|) (nhds 0) (nhds |0|) := continuous_abs.tendsto 0
      simpa using this.mono_left nhdsWithin_le_nhds
    refine h.congr' ?_
    filter_upwards [self_mem_nhdsWithin] with t ht
    have : t ≠ 0 := ht
    simp [this]
  · have := (hasDerivAt_id x).mul (hasDerivAt_abs hx)
    refine this.congr_deriv ?_
    simp only [id, one_mul]
    rcases lt_or_gt_of_ne hx with h | h
    · rw [abs_of_neg h, sign_neg h]; simp; ring
    · rw [abs_of_pos h, sign_pos h]; simp; ring

theorem hasDerivAt_pos_sq (x : ℝ) : HasDerivAt (fun x => (max x 0) ^ 2) (2 * max x 0) x := by
  have h : (fun x : ℝ => (max x 0) ^ 2) = fun x => (x * |x| + x ^ 2) / 2 := by
    funext x
    rcases le_total 0 x with h | h
    · rw [max_eq_left h, abs_of_nonneg h]; ring
    · rw [max_eq_right h, abs_of_nonpos h]; ring
  rw [h]
  have h1 := ((hasDerivAt_mul_abs x).add (hasDerivAt_pow 2 x)).div_const 2
  refine h1.congr_deriv ?_
  rcases le_total 0 x with h | h
  · rw [max_eq_left h, abs_of_nonneg h]; simp
  · rw [max_eq_right h, abs_of_nonpos h]; simp

/-- The Huber loss through squared positive parts. -/
theorem huber_eq (d r : ℝ) (hd : 0 < d) :
    (if |r| ≤ d then r ^ 2 / 2 else d * (|r| - d / 2))
      = r ^ 2 / 2 - ((max (r - d) 0) ^ 2 + (max (-r - d) 0) ^ 2) / 2 := by
  rcases le_total 0 r with h | h
  · rw [abs_of_nonneg h, max_eq_right (by linarith : -r - d ≤ 0)]
    split
    · rw [max_eq_right (by linarith)]; ring
    · rw [max_eq_left (by linarith)]; ring
  · rw [abs_of_nonpos h, max_eq_right (by linarith : r - d ≤ 0)]
    split
    · rw [max_eq_right (by linarith)]; ring
    · rw [max_eq_left (by linarith)]; ring

/-- C56: where a built-in pointwise loss is differentiable, the declared derivative is its true derivative with
respect to the prediction. -/
theorem C56_pointwise (l : RealLoss) (a y : ℝ) (hs : l.SmoothAt a y) :
    ∃ d, l.toModel.dloss RX LX (.fin a) (.fin y) = .fin d ∧ HasDerivAt (fun t => l.formula t y) d a := by
  have hsub : HasDerivAt (fun t : ℝ => t - y) 1 a := (hasDerivAt_id a).sub_const y
  have hsign : ∀ (r : ℝ) (p n : Fl ℝ), r ≠ 0 → signOr (.fin r) p n = if 0 < r then p else n := by
    intro r p n hr
    unfold signOr
    simp only [Fl.lt, decide_eq_true_eq]
    split
    · rfl
    · next h => rw [if_pos (lt_of_le_of_ne (not_lt.mp h) hr)]
  have habsd : a ≠ y → HasDerivAt (fun t : ℝ => |t - y|) (if 0 < a - y then 1 else -1) a := by
    intro h
    have hr : a - y ≠ 0 := sub_ne_zero.mpr h
    have h1 := (hasDerivAt_abs hr).comp a hsub
    refine h1.congr_deriv ?_
    split
    · next h => rw [sign_pos h]; simp
    · next h => rw [sign_neg (lt_of_le_of_ne (not_lt.mp h) hr)]; simp
  cases l with
  | squared =>
    refine ⟨2 * (a - y), rfl.trans ?_, ?_⟩
    · simp [RealLoss.toModel, PointLoss.dloss, exact_sub, Rounding.exact, Rounding.mul, Rounding.sub, Rounding.add,
        Fl.neg, sub_eq_add_neg]
    · exact (hsub.fun_pow 2).congr_deriv (by simp)
  | abs =>
    refine ⟨if 0 < a - y then 1 else -1, ?_, habsd hs⟩
    simp only [RealLoss.toModel, PointLoss.dloss, exact_sub]
    rw [hsign _ _ _ (sub_ne_zero.mpr hs)]
    split <;> rfl
  | huber d =>
    have hd : 0 < d := hs
    have hf : (fun t => RealLoss.formula (.huber d) t y) = fun t => (t - y) ^ 2 / 2 -
        ((max ((t - y) - d) 0) ^ 2 + (max (-(t - y) - d) 0) ^ 2) / 2 := by
      funext t; exact huber_eq d (t - y) hd
    rw [hf]
    have h1 := (hsub.pow 2).div_const 2
    have h2 := (hasDerivAt_pos_sq (a - y - d)).comp a (hsub.sub_const d)
    have h3 := (hasDerivAt_pos_sq (-(a - y) - d)).comp a (hsub.neg.sub_const d)
    have h4 := h1.sub ((h2.add h3).div_const 2)
    refine ⟨_, ?_, h4⟩
    simp only [RealLoss.toModel, PointLoss.dloss, exact_sub]
    have ha : (Fl.fin (a - y)).abs = .fin |a - y| := rfl
    rw [ha]
    generalize a - y = r
    by_cases h : |r| ≤ d
    · rw [if_pos (by simpa [Fl.le] using h)]
      have := abs_le.mp h
      rw [max_eq_right (by linarith), max_eq_right (by linarith)]
      congr 1; simp
    · rw [if_neg (by simpa [Fl.le] using h)]
      have hr : r ≠ 0 := by rintro rfl; simp at h; linarith
      rw [hsign _ _ _ hr]
      push Not at h
      split
      · next hp =>
        rw [abs_of_pos hp] at h
        rw [max_eq_left (by linarith), max_eq_right (by linarith)]
        congr 1; simp
      · next hp =>
        have hp' : r < 0 := lt_of_le_of_ne (not_lt.mp hp) hr
        rw [abs_of_neg hp'] at h
        rw [max_eq_right (by linarith), max_eq_left (by linarith)]
        show Fl.fin (-d) = _
        congr 1; simp; ring
  | logCosh =>
    refine ⟨Real.tanh (a - y), ?_, ?_⟩
    · simp only [RealLoss.toModel, PointLoss.dloss, exact_sub]; rfl
    · have h1 := (Real.hasDerivAt_cosh (a - y)).comp a hsub
      have h2 := h1.log (Real.cosh_pos _).ne'
      refine h2.congr_deriv ?_
      rw [Real.tanh_eq_sinh_div_cosh]; simp
  | lp p =>
    by_cases hr : a = y
    · subst hr
      have hp : 1 < p := by rcases hs with h | h; exact absurd rfl h; exact h
      refine ⟨0, ?_, ?_⟩
      · simp [RealLoss.toModel, PointLoss.dloss, exact_sub, Fl.feq, Fl.le]
      · have h1 := HasDerivAt.comp (h₂ := fun t => |t| ^ p) (h := fun t => t - a) a (hasDerivAt_abs_rpow (a - a) hp) hsub
        refine h1.congr_deriv ?_
        simp
    · have hr' : a - y ≠ 0 := sub_ne_zero.mpr hr
      have habs : |a - y| ≠ 0 := abs_ne_zero.mpr hr'
      refine ⟨p * |a - y| ^ (p - 1) * (if 0 < a - y then 1 else -1), ?_, ?_⟩
      · simp only [RealLoss.toModel, PointLoss.dloss, exact_sub]
        rw [if_neg]
        · have ha : (Fl.fin (a - y)).abs = .fin |a - y| := rfl
          rw [ha]
          simp only [LossLib.real, exact_mul, Fl.lt, decide_eq_true_eq]
          split <;> rw [exact_mul]
        · simp [Fl.feq, Fl.le]
          intro h
          by_contra h2
          push Not at h2
          exact hr (le_antisymm h h2)
      · have h1 := (habsd hr).rpow_const (p := p) (.inl habs)
        refine h1.congr_deriv ?_
        ring
  | quantile t =>
    have hr : y - a ≠ 0 := sub_ne_zero.mpr (Ne.symm hs)
    simp only [RealLoss.toModel, PointLoss.dloss, exact_sub]
    rw [hsign _ _ _ hr]
    rcases lt_or_gt_of_ne hs with h | h
    · refine ⟨-t, by rw [if_pos (by linarith)]; rfl, ?_⟩
      have h1 : HasDerivAt (fun s : ℝ => t * (y - s)) (-t) a := by
        have := ((hasDerivAt_id a).const_sub y).const_mul t
        refine this.congr_deriv (by ring)
      refine h1.congr_of_eventuallyEq ?_
      filter_upwards [eventually_lt_nhds h] with s hs
      simp [RealLoss.formula, hs.le]
    · refine ⟨1 - t, by rw [if_neg (by linarith)], ?_⟩
      have h1 : HasDerivAt (fun s : ℝ => (1 - t) * (s - y)) (1 - t) a := by
        have := hsub.const_mul (1 - t)
        refine this.congr_deriv (by ring)
      refine h1.congr_of_eventuallyEq ?_
      filter_upwards [eventually_gt_nhds h] with s hs
      simp [RealLoss.formula, not_le.mpr hs]
  | epsIns e =>
    obtain ⟨he, hne⟩ := hs
    simp only [RealLoss.toModel, PointLoss.dloss, exact_sub]
    have ha : (Fl.fin (a - y)).abs = .fin |a - y| := rfl
    rw [ha]
    have hc : ContinuousAt (fun s : ℝ => |s - y|) a := by fun_prop
    rcases lt_or_gt_of_ne hne with h | h
    · refine ⟨0, by rw [if_neg (by simpa [Fl.lt] using h.le)], ?_⟩
      refine (hasDerivAt_const a (0 : ℝ)).congr_of_eventuallyEq ?_
      filter_upwards [hc.eventually_lt_const h] with s hs
      have hs' : |s - y| < e := hs
      simp [RealLoss.formula]
      linarith
    · have hr : a ≠ y := by rintro rfl; simp at h; linarith
      refine ⟨if 0 < a - y then 1 else -1, ?_, ?_⟩
      · rw [if_pos (by simpa [Fl.lt] using h), hsign _ _ _ (sub_ne_zero.mpr hr)]
        split <;> rfl
      · refine ((habsd hr).sub_const e).congr_of_eventuallyEq ?_
        filter_upwards [hc.eventually_const_lt h] with s hs
        have hs' : e < |s - y| := hs
        simp [RealLoss.formula]
        linarith

/-- The pointwise derivatives of a whole vector, and the derivative of the (weighted) total. -/
theorem dloss_vec (l : RealLoss) (t0 : ℝ) (fs : List (ℝ → ℝ)) (vs : List ℝ)
    (hf : List.Forall₂ (fun f v => HasDerivAt f v t0) fs vs) :
    ∀ (ys : List ℝ), fs.length = ys.length →
      (∀ p ∈ fs.zip ys, l.SmoothAt (p.1 t0) p.2) →
      ∃ gs : List ℝ, gs.length = ys.length ∧
        List.zipWith (l.toModel.dloss RX LX) (fs.map fun f => .fin (f t0)) (ys.map .fin) = gs.map .fin ∧
        HasDerivAt (fun t => (List.zipWith l.formula (fs.map fun f => f t) ys).sum)
          ((List.zipWith (· * ·) gs vs).sum) t0 ∧
        ∀ ws : List ℝ, ws.length = ys.length →
          HasDerivAt (fun t => (List.zipWith (· * ·) ws (List.zipWith l.formula (fs.map fun f => f t) ys)).sum)
            ((List.zipWith (fun w p => w * p) ws (List.zipWith (· * ·) gs vs)).sum) t0 := by
  induction hf with
  | nil =>
    intro ys hl _
    cases ys with
    | nil => exact ⟨[], rfl, rfl, by simpa using hasDerivAt_const t0 (0 : ℝ),
        fun ws _ => by simpa using hasDerivAt_const t0 (0 : ℝ)⟩
    | cons y ys => simp at hl
  | @cons f v fs vs hfv _ ih =>
    intro ys hl hs
    cases ys with
    | nil => simp at hl
    | cons y ys =>
      obtain ⟨gs, hgl, hgz, hgs, hgw⟩ := ih ys (by simpa using hl) (fun p hp => hs p (by simp [hp]))
      obtain ⟨d, hd, hder⟩ := C56_pointwise l (f t0) y (hs (f, y) (by simp))
      have hd1 : HasDerivAt (fun t => l.formula (f t) y) (d * v) t0 :=
        HasDerivAt.comp (h₂ := fun s => l.formula s y) (h := f) t0 hder hfv
      refine ⟨d :: gs, by simp [hgl], by simp [hd, hgz], ?_, ?_⟩
      · simpa using hd1.fun_add hgs
      · intro ws hws
        cases ws with
        | nil => simp at hws
        | cons w ws =>
          simpa using (hd1.const_mul w).fun_add (hgw ws (by simpa using hws))

theorem sum_zipWith_scale (c : ℝ) (gs vs : List ℝ) :
    (List.zipWith (· * ·) (gs.map fun g => c * g) vs).sum = c * (List.zipWith (· * ·) gs vs).sum := by
  induction gs generalizing vs with
  | nil => simp
  | cons g gs ih =>
    cases vs with
    | nil => simp
    | cons v vs => simp [ih, mul_add, mul_assoc]

theorem sum_zipWith_wscale (c : ℝ) (ws gs vs : List ℝ) :
    (List.zipWith (· * ·) (List.zipWith (fun w g => w * c * g) ws gs) vs).sum
      = c * (List.zipWith (fun w p => w * p) ws (List.zipWith (· * ·) gs vs)).sum := by
  induction ws generalizing gs vs with
  | nil => simp
  | cons w ws ih =>
    cases gs with
    | nil => simp
    | cons g gs =>
      cases vs with
      | nil => simp
      | cons v vs => simp [ih]; ring

theorem sum_zipWith_zero (ys : List ℝ) (vs : List ℝ) :
    (List.zipWith (· * ·) (ys.map fun _ => (0 : ℝ)) vs).sum = 0 := by
  induction ys generalizing vs with
  | nil => simp
  | cons g gs ih =>
    cases vs with
    | nil => simp
    | cons v vs => simp only [List.map_cons, List.zipWith_cons_cons, List.sum_cons, zero_mul, zero_add, ih]

/-- C56: if every prediction is a differentiable function `f i` of a parameter, with derivative `v i`, then the
vector the loss hands to the optimiser, contracted with the `v i`, is the true derivative of the averaged loss
with respect to the parameter. -/
theorem C56_chain (l : RealLoss) (t0 : ℝ) (fs : List (ℝ → ℝ)) (vs ys : List ℝ) (w : Option (List ℝ))
    (hf : List.Forall₂ (fun f v => HasDerivAt f v t0) fs vs) (hlen : fs.length = ys.length)
    (hw : ∀ ws, w = some ws → ws.length = ys.length)
    (hs : ∀ p ∈ fs.zip ys, l.SmoothAt (p.1 t0) p.2) :
    ∃ ds : List ℝ, ds.length = ys.length ∧
      (LossKind.mean l.toModel).dloss RX LX (fs.map fun f => .fin (f t0)) (ys.map .fin)
        (w.map fun ws => ws.map .fin) = some (ds.map .fin) ∧
      HasDerivAt (fun t => meanFormula l (fs.map fun f => f t) ys w)
        ((List.zipWith (· * ·) ds vs).sum) t0 := by
  obtain ⟨gs, hgl, hgz, hgs, hgw⟩ := dloss_vec l t0 fs vs hf ys hlen hs
  cases w with
  | none =>
    refine ⟨gs.map fun g => 1 / (ys.length : ℝ) * g, by simp [hgl], ?_, ?_⟩
    · simp only [LossKind.dloss, meanDloss, Option.map_none, List.length_map, hlen, ne_eq, not_true,
        if_false, hgz]
      cases ys with
      | nil => simp at hgl; simp [hgl]
      | cons y ys =>
        have h1 : (Rounding.exact ℝ).ofNat (y :: ys).length = .fin ((y :: ys).length : ℝ) := rfl
        have h2 : (((y :: ys).length : ℕ) : ℝ) ≠ 0 := by simp; positivity
        rw [if_neg (by simp), h1, exact_div _ _ h2]
        simp [exact_mul]
    · rw [sum_zipWith_scale]
      refine (hgs.div_const (ys.length : ℝ)).congr_deriv ?_
      ring
  | some ws =>
    have hwl := hw ws rfl
    by_cases h0 : ws.sum = 0
    · refine ⟨ys.map fun _ => 0, by simp, ?_, ?_⟩
      · simp [LossKind.dloss, meanDloss, hlen, hwl, exact_sum, h0, Fl.feq, Fl.le, Function.comp_def]
      · rw [sum_zipWith_zero]
        simp only [meanFormula, h0, div_zero]
        exact hasDerivAt_const _ _
    · refine ⟨List.zipWith (fun w g => w * (1 / ws.sum) * g) ws gs, by simp [hgl, hwl], ?_, ?_⟩
      · simp only [LossKind.dloss, meanDloss, Option.map_some, List.length_map, hlen, hwl, ne_eq, not_true,
          or_self, if_false, hgz, exact_sum]
        rw [if_neg, exact_div _ _ h0]
        · rw [List.zipWith_map, List.map_zipWith]
          simp [exact_mul]
        · simp only [Fl.feq, Fl.le, Bool.and_eq_true, decide_eq_true_eq]
          exact fun h => h0 (le_antisymm h.1 h.2)
      · rw [sum_zipWith_wscale]
        refine ((hgw ws hwl).div_const ws.sum).congr_deriv ?_
        ring

theorem meanLoss_exact (l : RealLoss) (yhat ys : List ℝ) (w : Option (List ℝ)) (hlen : yhat.length = ys.length)
    (hw : ∀ ws, w = some ws → ws.length = ys.length) :
    (LossKind.mean l.toModel).loss RX LX (yhat.map .fin) (ys.map .fin) (w.map fun ws => ws.map .fin)
      = some (.fin (meanFormula l yhat ys w)) := by
  have hz : List.zipWith (l.toModel.loss RX LX) (yhat.map .fin) (ys.map .fin)
      = (List.zipWith l.formula yhat ys).map .fin := by
    rw [List.zipWith_map, List.map_zipWith]
    simp [C39_textbook]
  cases w with
  | none =>
    simp only [LossKind.loss, meanLoss, Option.map_none, List.length_map, hlen, ne_eq, not_true, if_false, hz,
      exact_sum]
    cases ys with
    | nil => simp [meanFormula]
    | cons y ys =>
      have h1 : (Rounding.exact ℝ).ofNat (y :: ys).length = .fin ((y :: ys).length : ℝ) := rfl
      have h2 : (((y :: ys).length : ℕ) : ℝ) ≠ 0 := by simp; positivity
      rw [if_neg (by simp), h1, exact_div _ _ h2]; rfl
  | some ws =>
    have hwl := hw ws rfl
    have hz2 : List.zipWith (Rounding.mul RX) (ws.map .fin) ((List.zipWith l.formula yhat ys).map .fin)
        = (List.zipWith (· * ·) ws (List.zipWith l.formula yhat ys)).map .fin := by
      rw [List.zipWith_map, List.map_zipWith]
      simp [exact_mul]
    simp only [LossKind.loss, meanLoss, Option.map_some, List.length_map, hlen, hwl, ne_eq, not_true, or_self,
      if_false, hz, exact_sum, hz2]
    by_cases h0 : ws.sum = 0
    · rw [if_pos (by simp [Fl.feq, Fl.le, h0])]; simp [meanFormula, h0]
    · rw [if_neg, exact_div _ _ h0]
      · rfl
      · simp only [Fl.feq, Fl.le, Bool.and_eq_true, decide_eq_true_eq]
        exact fun h => h0 (le_antisymm h.1 h.2)

/-- C56, root mean square error: the same for the only loss that is not a plain average, wherever the error is
positive (at a perfect fit the square root has no derivative and the code reports zero). -/
theorem C56_rmse (t0 : ℝ) (fs : List (ℝ → ℝ)) (vs ys : List ℝ) (w : Option (List ℝ))
    (hf : List.Forall₂ (fun f v => HasDerivAt f v t0) fs vs) (hlen : fs.length = ys.length)
    (hw : ∀ ws, w = some ws → ws.length = ys.length)
    (hpos : 0 < meanFormula .squared (fs.map fun f => f t0) ys w) :
    ∃ ds : List ℝ, ds.length = ys.length ∧
      LossKind.rmse.dloss RX LX (fs.map fun f => .fin (f t0)) (ys.map .fin)
        (w.map fun ws => ws.map .fin) = some (ds.map .fin) ∧
      HasDerivAt (fun t => Real.sqrt (meanFormula .squared (fs.map fun f => f t) ys w))
        ((List.zipWith (· * ·) ds vs).sum) t0 := by
  obtain ⟨gs, hgl, hgz, hgs, hgw⟩ := dloss_vec .squared t0 fs vs hf ys hlen (fun _ _ => trivial)
  have hmean := meanLoss_exact .squared (fs.map fun f => f t0) ys w (by simpa using hlen) hw
  rw [List.map_map] at hmean
  have hmean' : meanLoss RX (PointLoss.squared.loss RX LX) (fs.map fun f => .fin (f t0)) (ys.map .fin)
      (w.map fun ws => ws.map .fin) = some (.fin (meanFormula .squared (fs.map fun f => f t0) ys w)) := hmean
  have hr : 0 < Real.sqrt (meanFormula .squared (fs.map fun f => f t0) ys w) := Real.sqrt_pos.mpr hpos
  have hnz : ¬ (((Fl.fin (Real.sqrt (meanFormula .squared (fs.map fun f => f t0) ys w))).feq (.fin 0)
      || !(Fl.fin (Real.sqrt (meanFormula .squared (fs.map fun f => f t0) ys w))).isFinite) = true) := by
    simp only [Fl.feq, Fl.le, Fl.isFinite, Bool.or_eq_true, Bool.and_eq_true, decide_eq_true_eq, Bool.not_true,
      Bool.false_eq_true, or_false]
    intro h; linarith [h.1]
  have hgs' : gs = List.zipWith (fun (f : ℝ → ℝ) y => 2 * (f t0 - y)) fs ys := by
    have : gs.map Fl.fin = (List.zipWith (fun (f : ℝ → ℝ) y => 2 * (f t0 - y)) fs ys).map Fl.fin := by
      rw [← hgz, List.zipWith_map, List.map_zipWith]
      simp [RealLoss.toModel, PointLoss.dloss, Rounding.exact, Rounding.mul, Rounding.sub, Rounding.add,
        Fl.neg, sub_eq_add_neg]
    exact List.map_injective_iff.mpr (fun a b h => by injection h) this
  have hsqrt : (LX).sqrt (.fin (meanFormula .squared (fs.map fun f => f t0) ys w))
      = .fin (Real.sqrt (meanFormula .squared (fs.map fun f => f t0) ys w)) := rfl
  set r := Real.sqrt (meanFormula .squared (fs.map fun f => f t0) ys w) with hrdef
  cases w with
  | none =>
    have hy : (ys.length : ℝ) ≠ 0 := by
      intro h
      simp [meanFormula, h] at hpos
    refine ⟨gs.map fun g => 1 / (ys.length : ℝ) / r / 2 * g, by simp [hgl], ?_, ?_⟩
    · have h1 : (Rounding.exact ℝ).ofNat (ys.map Fl.fin).length = .fin (ys.length : ℝ) := by
        simp [Rounding.ofNat, Rounding.exact]
      simp only [Option.map_none] at hmean'
      simp only [LossKind.dloss, hmean', Option.bind_eq_bind, Option.bind_some, hsqrt, Option.map_none]
      rw [if_neg hnz, h1, exact_div _ _ hy, exact_div _ _ hr.ne', hgs', List.zipWith_map, List.map_zipWith, List.map_zipWith]
      simp only [Option.some.injEq]
      congr 1
      funext f y
      rw [exact_sub, exact_mul]
      congr 1; ring
    · rw [sum_zipWith_scale]
      refine ((hgs.div_const (ys.length : ℝ)).sqrt hpos.ne').congr_deriv ?_
      simp only [meanFormula] at hrdef
      rw [← hrdef]
      field_simp
  | some ws =>
    have hwl := hw ws rfl
    have h0 : ws.sum ≠ 0 := by
      intro h
      simp [meanFormula, h] at hpos
    refine ⟨List.zipWith (fun w g => w * (1 / ws.sum / r / 2) * g) ws gs, by simp [hgl, hwl], ?_, ?_⟩
    · simp only [Option.map_some] at hmean'
      simp only [LossKind.dloss, hmean', Option.bind_eq_bind, Option.bind_some, hsqrt, Option.map_some, exact_sum]
      rw [if_neg hnz, if_neg, exact_div _ _ h0, exact_div _ _ hr.ne', hgs']
      · simp only [List.zipWith_map, List.map_zipWith, exact_sub, Option.some.injEq]
        have e : List.zipWith (fun (f : ℝ → ℝ) y => Fl.fin (f t0 - y)) fs ys
            = (List.zipWith (fun (f : ℝ → ℝ) y => f t0 - y) fs ys).map .fin := by rw [List.map_zipWith]
        have e2 : List.zipWith (fun (f : ℝ → ℝ) y => 2 * (f t0 - y)) fs ys
            = (List.zipWith (fun (f : ℝ → ℝ) y => f t0 - y) fs ys).map (2 * ·) := by rw [List.map_zipWith]
        rw [e, e2, List.zipWith_map, List.zipWith_map_right]
        congr 1
        funext a b
        rw [exact_mul, exact_mul]
        congr 1; ring
      · simp only [Fl.feq, Fl.le, Bool.and_eq_true, decide_eq_true_eq]
        exact fun h => h0 (le_antisymm h.1 h.2)
    · rw [sum_zipWith_wscale]
      refine (((hgw ws hwl).div_const ws.sum).sqrt hpos.ne').congr_deriv ?_
      simp only [meanFormula] at hrdef
      rw [← hrdef]
      field_simp

/-- Non-trivial instance: two rows, weights `1` and `3`, predictions `t` and `t²` at `t = 2`, targets `1` and `7`,
absolute loss. -/
example : ∃ ds : List ℝ, ds.length = 2 ∧
    (LossKind.mean RealLoss.abs.toModel).dloss RX LX [.fin 2, .fin (2 ^ 2)] [.fin 1, .fin 7]
      (some [.fin 1, .fin 3]) = some (ds.map .fin) ∧
    HasDerivAt (fun t : ℝ => meanFormula .abs [t, t ^ 2] [1, 7] (some [1, 3]))
      ((List.zipWith (· * ·) ds [1, 4]).sum) 2 := by
  have h2 : HasDerivAt (fun t : ℝ => t ^ 2) 4 2 := (hasDerivAt_pow 2 (2 : ℝ)).congr_deriv (by norm_num)
  exact C56_chain .abs 2 [fun t => t, fun t => t ^ 2] [1, 4] [1, 7] (some [1, 3])
    (.cons (hasDerivAt_id' 2) (.cons h2 .nil)) rfl (by rintro _ ⟨⟩; rfl)
    (by
      intro p hp
      simp at hp
      rcases hp with rfl | rfl <;> simp [RealLoss.SmoothAt] <;> norm_num)

end SR
