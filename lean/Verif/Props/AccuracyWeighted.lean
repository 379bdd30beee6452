import Verif.Spec.AccuracyEps
import Verif.Props.AccuracyMore
import Mathlib.Tactic.Linarith
/-
C97, weights: the other losses and `f32`.
-/
namespace SR
namespace Accuracy

/-- The weighted mean of a pointwise loss in a format: weights that are zero or at least `2 ^ σ` and add up to at most `2 ^ B`. -/
theorem weighted_format_of {f : BinFormat} {ρ e σ B : Int} {k : Nat} {F : Fl ℚ → Fl ℚ → Fl ℚ} {g : ℚ → ℚ} {w yhat y : List ℚ}
    (A : PointNear ⟨f.rnd⟩ (pow2 (-f.p)) (pow2 ρ) F g k (pow2 e)) (hp : 1 ≤ f.p) (hmin : f.emin ≤ 0) (hmax : (f.p : Int) < f.emax)
    (hσ : f.emin ≤ σ) (hσ' : σ < f.emax) (he : f.emin + (B + 1) ≤ σ + e) (hB : 0 ≤ B) (he' : σ + e < f.emax) (hB' : B + 1 < f.emax)
    (hw : w.length = y.length) (hlen : yhat.length = y.length)
    (hn : 2 * y.length + (k + 2) ≤ 2 ^ (f.p - 1)) (hws : ∀ a ∈ w, a = 0 ∨ pow2 σ ≤ a) (hpos : 0 < w.sum) (hsum : w.sum ≤ pow2 B)
    (hr : Resolved (pow2 ρ) yhat y) (l : ℚ)
    (hl : meanLoss ⟨f.rnd⟩ F (yhat.map .fin) (y.map .fin) (some (w.map .fin)) = some (.fin l)) :
    |l - exactWeightedMeanOf g w yhat y| ≤ (2 * y.length + (k + 2) : Nat) * pow2 (1 - f.p) * exactWeightedMeanOf g w yhat y := by
  have P := precise_format hp hmin (show 1 ≤ f.emax by omega)
  have u0 := P.u_nonneg
  have u1 := P.u_lt
  have rp : ∀ e : Int, f.emin ≤ e → e < f.emax → f.rnd (pow2 e) = .fin (pow2 e) ∧ f.rnd (-pow2 e) = .fin (-pow2 e) := fun e h1 h2 =>
    rnd_pow2 (f := f) hp e (by omega) h2
  have half : ∀ m : Nat, m ≤ 2 ^ (f.p - 1) → (m : ℚ) * pow2 (-f.p) ≤ 1 / 2 := by
    intro m hm
    have h1 : (m : ℚ) ≤ pow2 ((f.p - 1 : Nat) : Int) := by rw [pow2_nat]; exact_mod_cast hm
    have h2 := mul_le_mul_of_nonneg_right h1 (pow2_pos (-f.p)).le
    rw [← pow2_add, show (((f.p - 1 : Nat) : Int) + -f.p) = -1 by omega] at h2
    rwa [show pow2 (-1) = 1 / 2 by decide +kernel] at h2
  have hgrow : (1 + pow2 (-f.p)) ^ y.length ≤ 2 := by
    have h1 := pow_upper u0 u1 y.length
    have h2 := half y.length (by omega)
    have h3 : 0 < (1 + pow2 (-f.p)) ^ y.length := pow_pos (by linarith) _
    nlinarith
  have htwo : (2 : ℚ) * pow2 B = pow2 (B + 1) := by rw [add_comm, pow2_add]; rfl
  have hgs : (1 + pow2 (-f.p)) ^ y.length * w.sum ≤ pow2 (B + 1) := by
    rw [← htwo]; exact mul_le_mul hgrow hsum hpos.le (by norm_num)
  have hWf : ((⟨f.rnd⟩ : Rounding ℚ).sum (w.map Fl.fin)).isFinite = true := by
    obtain ⟨S, hS⟩ := sum_finite P (B := pow2 (B + 1)) (pow2_le hσ) (rp σ hσ hσ').1 (rp (B + 1) (by omega) hB').1 w w
      (weights_near (u := pow2 (-f.p)) (pow2_pos _) w hws) 0 0 0 (le_refl _) (by simp [Near]) (.inl rfl) (by simpa [hw] using hgs)
    rw [show (⟨f.rnd⟩ : Rounding ℚ).sum (w.map Fl.fin) = .fin S from hS]; rfl
  have hsmall : pow2 f.emin * ((1 + pow2 (-f.p)) ^ y.length * w.sum) ≤ pow2 (σ + e) := by
    calc pow2 f.emin * ((1 + pow2 (-f.p)) ^ y.length * w.sum) ≤ pow2 f.emin * pow2 (B + 1) := mul_le_mul_of_nonneg_left hgs (pow2_pos _).le
      _ = pow2 (f.emin + (B + 1)) := (pow2_add _ _).symm
      _ ≤ pow2 (σ + e) := pow2_le he
  have hw0 : ∀ a ∈ w, 0 ≤ a := by
    intro a ha
    rcases hws a ha with h | h
    · exact h.ge
    · exact le_trans (pow2_pos _).le h
  have hnn : 0 ≤ exactWeightedMeanOf g w yhat y := by
    refine div_nonneg (List.sum_nonneg fun x hx => ?_) hpos.le
    obtain ⟨i, hi, rfl⟩ := List.mem_iff_getElem.mp hx
    rw [List.getElem_zipWith]
    exact mul_nonneg (hw0 _ (List.getElem_mem _)) (A.nonneg _)
  have e52 : pow2 (1 - f.p) = 2 * pow2 (-f.p) := by
    rw [show (1 - f.p : Int) = 1 + (-f.p) by ring, pow2_add]; congr 1
  have e1 : pow2 σ * pow2 e = pow2 (σ + e) := (pow2_add _ _).symm
  obtain ⟨h1, h2⟩ := weighted_near P A (σ := pow2 σ) (pow2_le hσ) (rp σ hσ hσ').1 (pow2_pos _)
    (by rw [e1]; exact pow2_le (by omega)) (by rw [e1]; exact (rp _ (by omega) he').1) w yhat y hw hlen hws hpos hWf
    (by rw [e1]; exact hsmall) hr l hl
  have := close_quotient u0 u1 (m := k + y.length + 2) (n := y.length) (half _ (by omega)) hnn h1 h2
  rw [show k + y.length + 2 + y.length = 2 * y.length + (k + 2) by omega] at this
  rw [e52]
  refine le_trans this (le_of_eq ?_)
  ring

/-- C97, weights, in `f32`: the weighted mean of the squares and that of the distances. -/
theorem _root_.SR.C97_weighted32 (lib : LossLib ℚ) (w yhat y : List ℚ) (hw : w.length = y.length) (hlen : yhat.length = y.length)
    (hn : 2 * y.length + 5 ≤ 2 ^ 23) (hws : ∀ a ∈ w, a = 0 ∨ pow2 (-20) ≤ a) (hpos : 0 < w.sum) (hsum : w.sum ≤ pow2 20)
    (hr : Resolved (pow2 (-40)) yhat y) (l : ℚ) :
    ((LossKind.mean .squared).loss binary32 lib (yhat.map .fin) (y.map .fin) (some (w.map .fin)) = some (.fin l) →
      |l - weightedSquare w yhat y| ≤ (2 * y.length + 5 : Nat) * pow2 (-23) * weightedSquare w yhat y) ∧
    ((LossKind.mean .abs).loss binary32 lib (yhat.map .fin) (y.map .fin) (some (w.map .fin)) = some (.fin l) →
      |l - weightedDistance w yhat y| ≤ (2 * y.length + 3 : Nat) * pow2 (-23) * weightedDistance w yhat y) := by
  have P := precise_format (f := fmt32) (by decide) (by decide) (by decide)
  have r1 := rnd_pow2 (f := fmt32) (by decide) (-40) (by decide) (by decide)
  refine ⟨fun hl => ?_, fun hl => ?_⟩
  · have A := square_near P (lib := lib) (ρ := pow2 (-40)) (pow2_le (by decide)) (by rw [pow2_sq]; exact pow2_le (by decide)) r1.1 r1.2
      (by rw [pow2_sq]; exact (rnd_pow2 (f := fmt32) (by decide) (2 * -40) (by decide) (by decide)).1)
    rw [pow2_sq] at A
    exact weighted_format_of (σ := -20) (B := 20) A (by decide) (by decide) (by decide) (by decide) (by decide) (by decide) (by decide) (by decide)
      (by decide) hw hlen hn hws hpos hsum hr l hl
  · have A := distance_near P (lib := lib) (ρ := pow2 (-40)) (pow2_le (by decide)) r1.1 r1.2
    exact weighted_format_of (σ := -20) (B := 20) A (by decide) (by decide) (by decide) (by decide) (by decide) (by decide) (by decide) (by decide)
      (by decide) hw hlen (by have : 2 * y.length + 5 ≤ 2 ^ (fmt32.p - 1) := hn; omega) hws hpos hsum hr l hl

/-- C97, the weighted quantile loss in `f64`. -/
theorem _root_.SR.C97_weighted_quantile64 (lib : LossLib ℚ) (τ : ℚ) (h1 : pow2 (-20) ≤ τ) (h2 : pow2 (-20) ≤ 1 - τ) (w yhat y : List ℚ)
    (hw : w.length = y.length) (hlen : yhat.length = y.length) (hn : 2 * y.length + 5 ≤ 2 ^ 52) (hws : ∀ a ∈ w, a = 0 ∨ pow2 (-100) ≤ a)
    (hpos : 0 < w.sum) (hsum : w.sum ≤ pow2 100) (hr : Resolved (pow2 (-400)) yhat y) (l : ℚ)
    (hl : (LossKind.mean (.quantile (.fin τ))).loss binary64 lib (yhat.map .fin) (y.map .fin) (some (w.map .fin)) = some (.fin l)) :
    |l - exactWeightedMeanOf (pinball τ) w yhat y| ≤ (2 * y.length + 5 : Nat) * pow2 (-52) * exactWeightedMeanOf (pinball τ) w yhat y :=
  weighted_format_of (f := fmt64) (σ := -100) (B := 100)
    (quantile_format (ρ := -400) (by decide) (by decide) (by decide) (by decide) (by decide) (by decide) lib h1 h2)
    (by decide) (by decide) (by decide) (by decide) (by decide) (by decide) (by decide) (by decide) (by decide) hw hlen hn hws hpos hsum hr l hl

/-- C97, Huber's loss with weights in `f64`. -/
theorem _root_.SR.C97_weighted_huber64 (lib : LossLib ℚ) (δ : ℚ) (h1 : pow2 (-400) ≤ δ) (h2 : rnd64 δ = .fin δ) (w yhat y : List ℚ)
    (hw : w.length = y.length) (hlen : yhat.length = y.length) (hn : 2 * y.length + 7 ≤ 2 ^ 52) (hws : ∀ a ∈ w, a = 0 ∨ pow2 (-100) ≤ a)
    (hpos : 0 < w.sum) (hsum : w.sum ≤ pow2 100) (hr : Resolved (pow2 (-400)) yhat y) (l : ℚ)
    (hl : (LossKind.mean (.huber (.fin δ))).loss binary64 lib (yhat.map .fin) (y.map .fin) (some (w.map .fin)) = some (.fin l)) :
    |l - exactWeightedMeanOf (huberLoss δ) w yhat y| ≤ (2 * y.length + 7 : Nat) * pow2 (-52) * exactWeightedMeanOf (huberLoss δ) w yhat y :=
  weighted_format_of (f := fmt64) (σ := -100) (B := 100)
    (huber_format (ρ := -400) (by decide) (by decide) (by decide) (by decide) (by decide) lib h1 h2)
    (by decide) (by decide) (by decide) (by decide) (by decide) (by decide) (by decide) (by decide) (by decide) hw hlen hn hws hpos hsum hr l hl

/-- The hypotheses are met: weights `1` and `3` for differences of `1` and `-2`. -/
example (lib : LossLib ℚ) :
    (LossKind.mean (.quantile (.fin (1 / 2)))).loss binary64 lib ([2, 1].map .fin) ([1, 3].map .fin) (some ([1, 3].map .fin)) = some (.fin (7 / 8)) ∧
      (∀ a ∈ ([1, 3] : List ℚ), a = 0 ∨ pow2 (-100) ≤ a) ∧ 0 < ([1, 3] : List ℚ).sum ∧ ([1, 3] : List ℚ).sum ≤ pow2 100 ∧
      Resolved (pow2 (-400)) [2, 1] [1, 3] ∧ exactWeightedMeanOf (pinball (1 / 2 : ℚ)) [1, 3] [2, 1] [1, 3] = 7 / 8 := by
  refine ⟨?_, by decide +kernel, by decide +kernel, by decide +kernel, ?_, by decide +kernel⟩
  · have : meanLoss binary64 (fun a b => let u := binary64.sub b a
        if Fl.le (.fin 0) u then binary64.mul (.fin (1 / 2)) u else binary64.mul (binary64.sub (.fin (1 / 2)) (.fin 1)) u)
        ([2, 1].map .fin) ([1, 3].map .fin) (some ([1, 3].map .fin)) = some (.fin (7 / 8)) := by decide +kernel
    exact this
  · intro r hr
    have h1 : pow2 (-400) ≤ 1 := by decide +kernel
    simp only [residuals, List.zipWith_cons_cons, List.zipWith_nil_left, List.mem_cons, List.not_mem_nil, or_false] at hr
    right
    rcases hr with rfl | rfl <;> exact h1.trans (by decide +kernel)

end Accuracy
end SR
