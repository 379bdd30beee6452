import Verif.Props.AccuracyMore
import Mathlib.Tactic.Linarith
/-
C97, gradients: the mean squared error in `f32` and the mean absolute error in `f64`.
-/
namespace SR
namespace Accuracy

/-- C97, the gradient of the mean squared error in `f32`: each finite component differs from `2 (ŷ - y) / n` by at most the relative
amount `2 ^ -21`, whatever the number of rows. -/
theorem _root_.SR.C97_gradient32 (lib : LossLib ℚ) (yhat y : List ℚ) (hlen : yhat.length = y.length)
    (hn : y.length ≤ 2 ^ 23) (hr : Resolved (pow2 (-51)) yhat y) (gs : List (Fl ℚ))
    (hg : (LossKind.mean .squared).dloss binary32 lib (yhat.map .fin) (y.map .fin) none = some gs) :
    gs.length = y.length ∧
    ∀ (i : Nat) (g a b : ℚ), gs[i]? = some (.fin g) → yhat[i]? = some a → y[i]? = some b →
      |g - 2 * (a - b) / (y.length : ℚ)| ≤ pow2 (-21) * |2 * (a - b) / (y.length : ℚ)| := by
  have P : binary32.Precise (pow2 (-24)) (pow2 (-126)) := precise_format (f := fmt32) (by decide) (by decide) (by decide)
  have u0 := P.u_nonneg
  have u1 := P.u_lt
  cases hne : y with
  | nil =>
    subst hne
    have : yhat = [] := by simpa using hlen
    subst this
    have : gs = [] := by simpa [LossKind.dloss, meanDloss] using hg.symm
    subst this
    simp
  | cons y0 ys =>
    rw [← hne]
    have hpos : 0 < y.length := by rw [hne]; simp
    have hnil : (y.map Fl.fin).isEmpty = false := by rw [hne]; rfl
    have hq : (0 : ℚ) < y.length := by exact_mod_cast hpos
    have hnat : binary32.ofNat y.length = .fin (y.length : ℚ) :=
      rnd_nat (f := fmt32) (by decide) (by decide) (by decide) _ (le_trans hn (by decide))
    simp only [LossKind.dloss, meanDloss, List.length_map, hlen, ne_eq, not_true, if_false, hnil, Bool.false_eq_true, Option.some.injEq, hnat] at hg
    subst hg
    refine ⟨by simp [hlen], ?_⟩
    intro i g a b h1 ha hb
    simp only [List.getElem?_map, List.getElem?_zipWith, ha, hb, Option.map_some, Option.some.injEq] at h1
    obtain ⟨c, d, hc, hd, hz⟩ := mul_fin h1
    have hc : binary32.rnd (1 / (y.length : ℚ)) = .fin c := by
      simpa [Rounding.div, hq.ne'] using hc
    simp only [PointLoss.dloss, sub_fin] at hd
    rw [show binary32.rnd 2 = .fin 2 by decide +kernel] at hd
    obtain ⟨two, v, h2, hv, hd⟩ := mul_fin hd
    cases h2
    have hmem : a - b ∈ residuals yhat y := by
      unfold residuals
      rw [List.mem_iff_getElem?]
      exact ⟨i, by simp [List.getElem?_zipWith, ha, hb]⟩
    have hrr := hr _ hmem
    have b1 := residual_big P (ρ := pow2 (-51)) (rnd_pow2 (f := fmt32) (by decide) (-51) (by decide) (by decide)).1
      (rnd_pow2 (f := fmt32) (by decide) (-51) (by decide) (by decide)).2 hrr hv
    have s1 : Scaled (pow2 (-24)) 1 (a - b) v := by
      refine scaled_rnd P ?_ hv
      rcases hrr with h | h
      · exact .inl h
      · exact .inr (le_trans (pow2_le (by decide)) h)
    have s2 : Scaled (pow2 (-24)) 1 (2 * v) d := by
      refine scaled_rnd P ?_ hd
      rcases b1 with h | h
      · left; rw [abs_eq_zero.mp h, mul_zero]
      · right
        rw [abs_mul, abs_of_pos (show (0 : ℚ) < 2 by norm_num)]
        have : pow2 (-126) ≤ pow2 (-51) := pow2_le (by decide)
        linarith [abs_nonneg v]
    have b2 : d = 0 ∨ pow2 (-51) ≤ |d| := by
      have := residual_big P (ρ := pow2 (-51)) (rnd_pow2 (f := fmt32) (by decide) (-51) (by decide) (by decide)).1
        (rnd_pow2 (f := fmt32) (by decide) (-51) (by decide) (by decide)).2 (r := 2 * v) (by
          rcases b1 with h | h
          · left; rw [abs_eq_zero.mp h, mul_zero]
          · right
            rw [abs_mul, abs_of_pos (show (0 : ℚ) < 2 by norm_num)]
            linarith [abs_nonneg v]) hd
      rcases this with h | h
      · exact .inl (abs_eq_zero.mp h)
      · exact .inr h
    have hnq : pow2 (-23) ≤ 1 / (y.length : ℚ) := by
      rw [le_div_iff₀ hq]
      have h1 : (y.length : ℚ) ≤ pow2 23 := by rw [show (23 : Int) = ((23 : Nat) : Int) from rfl, pow2_nat]; exact_mod_cast hn
      have h2 := mul_le_mul_of_nonneg_left h1 (pow2_pos (-23)).le
      rwa [← pow2_add, show pow2 (-23 + 23) = 1 by decide +kernel] at h2
    have s3 : Scaled (pow2 (-24)) 1 (1 / (y.length : ℚ)) c :=
      scaled_rnd P (.inr (by rw [abs_of_pos (by positivity)]; exact le_trans (pow2_le (by decide)) hnq)) hc
    have hc23 : pow2 (-23) ≤ c := by
      have := P.lawful.mono hnq
      rw [hc, show binary32.rnd (pow2 (-23)) = .fin (pow2 (-23)) from (rnd_pow2 (f := fmt32) (by decide) (-23) (by decide) (by decide)).1] at this
      simpa [Fl.le] using this
    have s4 : Scaled (pow2 (-24)) 1 (c * d) g := by
      refine scaled_rnd P ?_ hz
      rcases b2 with h | h
      · left; rw [h, mul_zero]
      · right
        rw [abs_mul, abs_of_pos (lt_of_lt_of_le (pow2_pos _) hc23)]
        have := mul_le_mul hc23 h (pow2_pos _).le (le_trans (pow2_pos _).le hc23)
        rw [← pow2_add] at this
        exact le_trans (pow2_le (by decide)) this
    have t1 : Scaled (pow2 (-24)) (0 + 1) (2 * (a - b)) (2 * v) := scaled_mul u0 u1 ⟨1, by simp, by simp, by simp⟩ s1
    have t2 := scaled_trans u0 u1 t1 s2
    have t3 := scaled_trans u0 u1 (scaled_mul u0 u1 s3 t2) s4
    have t4 := scaled_close u0 u1 (by decide +kernel) t3
    rw [show 1 / (y.length : ℚ) * (2 * (a - b)) = 2 * (a - b) / (y.length : ℚ) by ring] at t4
    refine le_trans t4 (mul_le_mul_of_nonneg_right ?_ (abs_nonneg _))
    decide +kernel

/-- C97, the gradient of the mean absolute error in `f64`: each component is `1 / n`, `-1 / n` or `0` by the side on which the prediction lies, up
to the relative amount `2 ^ -53`. -/
theorem _root_.SR.C97_gradient_abs64 (lib : LossLib ℚ) (yhat y : List ℚ) (hlen : yhat.length = y.length)
    (hn : y.length ≤ 2 ^ 52) (hr : Resolved (pow2 (-484)) yhat y) (gs : List (Fl ℚ))
    (hg : (LossKind.mean .abs).dloss binary64 lib (yhat.map .fin) (y.map .fin) none = some gs) :
    gs.length = y.length ∧
    ∀ (i : Nat) (a b : ℚ), yhat[i]? = some a → y[i]? = some b →
      ∃ g : ℚ, gs[i]? = some (.fin g) ∧ (a = b → g = 0) ∧ (b < a → |g - 1 / (y.length : ℚ)| ≤ pow2 (-53) * (1 / (y.length : ℚ))) ∧
        (a < b → |g + 1 / (y.length : ℚ)| ≤ pow2 (-53) * (1 / (y.length : ℚ))) := by
  have P : binary64.Precise (pow2 (-53)) (pow2 (-1022)) := precise_format (f := fmt64) (by decide) (by decide) (by decide)
  cases hne : y with
  | nil =>
    subst hne
    have : yhat = [] := by simpa using hlen
    subst this
    have : gs = [] := by simpa [LossKind.dloss, meanDloss] using hg.symm
    subst this
    simp
  | cons y0 ys =>
    rw [← hne]
    have hpos : 0 < y.length := by rw [hne]; simp
    have hnil : (y.map Fl.fin).isEmpty = false := by rw [hne]; rfl
    have hq : (0 : ℚ) < y.length := by exact_mod_cast hpos
    have hnat : binary64.ofNat y.length = .fin (y.length : ℚ) :=
      rnd_nat (f := fmt64) (by decide) (by decide) (by decide) _ (le_trans hn (by decide))
    simp only [LossKind.dloss, meanDloss, List.length_map, hlen, ne_eq, not_true, if_false, hnil, Bool.false_eq_true, Option.some.injEq, hnat] at hg
    subst hg
    refine ⟨by simp [hlen], ?_⟩
    intro i a b ha hb
    simp only [List.getElem?_map, List.getElem?_zipWith, ha, hb, Option.map_some, Option.some.injEq]
    have hnq : pow2 (-52) ≤ 1 / (y.length : ℚ) := by
      rw [le_div_iff₀ hq]
      have h1 : (y.length : ℚ) ≤ pow2 52 := by rw [show (52 : Int) = ((52 : Nat) : Int) from rfl, pow2_nat]; exact_mod_cast hn
      have h2 := mul_le_mul_of_nonneg_left h1 (pow2_pos (-52)).le
      rwa [← pow2_add, show pow2 (-52 + 52) = 1 by decide +kernel] at h2
    have hle1 : 1 / (y.length : ℚ) ≤ 1 := by
      rw [div_le_one hq]; exact_mod_cast hpos
    have hL := P.lawful
    have hc : ∃ c : ℚ, binary64.rnd (1 / (y.length : ℚ)) = .fin c := by
      have m1 := hL.mono hnq
      have m2 := hL.mono hle1
      have nn := hL.not_nan (1 / (y.length : ℚ))
      rw [hL.one] at m2
      rw [show binary64.rnd (pow2 (-52)) = .fin (pow2 (-52)) from (rnd_pow2 (f := fmt64) (by decide) (-52) (by decide) (by decide)).1] at m1
      cases hr : binary64.rnd (1 / (y.length : ℚ)) with
      | fin c => exact ⟨c, rfl⟩
      | nan => rw [hr] at nn; cases nn
      | pinf => rw [hr] at m2; simp [Fl.le] at m2
      | ninf => rw [hr] at m1; simp [Fl.le] at m1
    obtain ⟨c, hc⟩ := hc
    have hdiv : binary64.div (.fin 1) (.fin (y.length : ℚ)) = .fin c := by
      simpa [Rounding.div, hq.ne'] using hc
    have hcc : binary64.rnd c = .fin c := hL.idem hc
    have herr := P.error _ c (by rw [abs_of_pos (by positivity)]; exact le_trans (pow2_le (by decide)) hnq) hc
    rw [abs_of_pos (show 0 < 1 / (y.length : ℚ) by positivity)] at herr
    have hnc : binary64.rnd (-c) = .fin (-c) := by
      have c0 : pow2 (-52) ≤ c := by
        have := hL.mono hnq
        rw [hc, show binary64.rnd (pow2 (-52)) = .fin (pow2 (-52)) from (rnd_pow2 (f := fmt64) (by decide) (-52) (by decide) (by decide)).1] at this
        simpa [Fl.le] using this
      exact (neg_half_representable (f := fmt64) (by decide) (le_trans (pow2_le (by decide)) c0) hcc).1
    have hmem : a - b ∈ residuals yhat y := by
      unfold residuals
      rw [List.mem_iff_getElem?]
      exact ⟨i, by simp [List.getElem?_zipWith, ha, hb]⟩
    have hrr := hr _ hmem
    have r484 := rnd_pow2 (f := fmt64) (by decide) (-484) (by decide) (by decide)
    simp only [PointLoss.dloss, sub_fin, hdiv]
    have pos : b < a → signOr (binary64.rnd (a - b)) (.fin 1) (.fin (-1)) = .fin (1 : ℚ) := by
      intro h
      have h1 : pow2 (-484) ≤ a - b := by
        rcases hrr with h0 | h0
        · linarith
        · rwa [abs_of_pos (by linarith)] at h0
      have m := hL.mono h1
      rw [show binary64.rnd (pow2 (-484)) = _ from r484.1] at m
      have p0 := pow2_pos (-484)
      have : Fl.lt (.fin 0) (binary64.rnd (a - b)) = true := by
        cases hr : binary64.rnd (a - b) with
        | fin v => rw [hr] at m; have : pow2 (-484) ≤ v := by simpa [Fl.le] using m
                   simpa [Fl.lt] using lt_of_lt_of_le p0 this
        | pinf => rfl
        | nan => rw [hr] at m; simp [Fl.le] at m
        | ninf => rw [hr] at m; simp [Fl.le] at m
      simp [signOr, this]
    have neg : a < b → signOr (binary64.rnd (a - b)) (.fin 1) (.fin (-1)) = .fin (-1 : ℚ) := by
      intro h
      have h1 : a - b ≤ -pow2 (-484) := by
        rcases hrr with h0 | h0
        · linarith
        · rw [abs_of_neg (by linarith)] at h0; linarith
      have m := hL.mono h1
      rw [show binary64.rnd (-pow2 (-484)) = _ from r484.2] at m
      have p0 := pow2_pos (-484)
      cases hr : binary64.rnd (a - b) with
      | fin v =>
        rw [hr] at m
        have : v ≤ -pow2 (-484) := by simpa [Fl.le] using m
        have hv : v < 0 := by linarith
        simp [signOr, Fl.lt, hv, hv.le]
      | ninf => simp [signOr, Fl.lt]
      | nan => rw [hr] at m; simp [Fl.le] at m
      | pinf => rw [hr] at m; simp [Fl.le] at m
    rcases lt_trichotomy a b with h | h | h
    · rw [neg h]
      refine ⟨-c, ?_, fun e => absurd e h.ne, fun e => absurd e (asymm h), fun _ => ?_⟩
      · simp [Rounding.mul, hnc]
      · rw [show -c + 1 / (y.length : ℚ) = -(c - 1 / (y.length : ℚ)) by ring, abs_neg]; exact herr
    · subst h
      refine ⟨0, ?_, fun _ => rfl, fun e => absurd e (lt_irrefl _), fun e => absurd e (lt_irrefl _)⟩
      simp [Rounding.mul, signOr, Fl.lt, hL.zero]
    · rw [pos h]
      refine ⟨c, ?_, fun e => absurd e h.ne', fun _ => herr, fun e => absurd e (asymm h)⟩
      simp [Rounding.mul, hcc]

/-- The hypotheses are met: three rows, one prediction too large, one right and one too small. -/
example (lib : LossLib ℚ) :
    ∃ g : ℚ, (LossKind.mean .abs).dloss binary64 lib ([2, 1, 3].map .fin) ([1, 1, 5].map .fin) none = some [.fin g, .fin 0, .fin (-g)] ∧ g ≠ 1 / 3 ∧
      Resolved (pow2 (-484)) [2, 1, 3] [1, 1, 5] := by
  refine ⟨6004799503160661 / 18014398509481984, ?_, by decide +kernel, ?_⟩
  · have : meanDloss binary64 (fun a b => signOr (binary64.sub a b) (.fin 1) (.fin (-1))) ([2, 1, 3].map .fin) ([1, 1, 5].map .fin) none =
        some [.fin (6004799503160661 / 18014398509481984), .fin 0, .fin (-(6004799503160661 / 18014398509481984))] := by decide +kernel
    exact this
  · intro r hr
    have h1 : pow2 (-484) ≤ 1 := by decide +kernel
    simp only [residuals, List.zipWith_cons_cons, List.zipWith_nil_left, List.mem_cons, List.not_mem_nil, or_false] at hr
    rcases hr with rfl | rfl | rfl
    · right; exact h1.trans (by decide +kernel)
    · left; norm_num
    · right; exact h1.trans (by decide +kernel)

/-- Those in `f32`. -/
example (lib : LossLib ℚ) :
    ∃ g : ℚ, (LossKind.mean .squared).dloss binary32 lib ([2, 1, 3].map .fin) ([1, 1, 5].map .fin) none = some [.fin g, .fin 0, .fin (-2 * g)] ∧ g ≠ 2 / 3 ∧
      Resolved (pow2 (-51)) [2, 1, 3] [1, 1, 5] := by
  refine ⟨11184811 / 16777216, ?_, by decide +kernel, ?_⟩
  · have : meanDloss binary32 (fun a b => binary32.mul (binary32.rnd 2) (binary32.sub a b)) ([2, 1, 3].map .fin) ([1, 1, 5].map .fin) none =
        some [.fin (11184811 / 16777216), .fin 0, .fin (-2 * (11184811 / 16777216))] := by decide +kernel
    exact this
  · intro r hr
    have h1 : pow2 (-51) ≤ 1 := by decide +kernel
    simp only [residuals, List.zipWith_cons_cons, List.zipWith_nil_left, List.mem_cons, List.not_mem_nil, or_false] at hr
    rcases hr with rfl | rfl | rfl
    · right; exact h1.trans (by decide +kernel)
    · left; norm_num
    · right; exact h1.trans (by decide +kernel)

end Accuracy
end SR
