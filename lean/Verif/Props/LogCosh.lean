import Verif.Spec.LogCosh
import Verif.Props.Accuracy
import Mathlib.Analysis.Complex.ExponentialBounds
import Mathlib.Analysis.Complex.Trigonometric
/-
C97, the log-cosh loss in `f64`: infinite as soon as one prediction misses its target by 713.
-/
namespace SR
namespace Accuracy

/-- A sum of terms that are infinite or not negative, one of which is infinite. -/
theorem foldl_pinf {R : Rounding ℚ} (hL : R.Lawful) : ∀ (l : List (Fl ℚ)), (∀ v ∈ l, v = .pinf ∨ ∃ z : ℚ, 0 ≤ z ∧ v = .fin z) →
    ∀ s : Fl ℚ, (s = .pinf ∨ ∃ z : ℚ, 0 ≤ z ∧ s = .fin z) → (s = .pinf ∨ .pinf ∈ l) → l.foldl R.add s = .pinf
  | [], _, s, _, h => by simpa using h
  | v :: l, hl, s, hs, h => by
    have hv := hl v (List.mem_cons_self ..)
    have hl' := fun w hw => hl w (List.mem_cons_of_mem _ hw)
    rw [List.foldl_cons]
    refine foldl_pinf hL l hl' _ ?_ ?_
    · rcases hs with rfl | ⟨x, hx, rfl⟩ <;> rcases hv with rfl | ⟨y, hy, rfl⟩
      · exact .inl rfl
      · exact .inl rfl
      · exact .inl rfl
      · have m := hL.mono (show (0 : ℚ) ≤ x + y by linarith)
        have nn := hL.not_nan (x + y)
        rw [hL.zero] at m
        show R.rnd (x + y) = .pinf ∨ _
        change _ ∨ ∃ z : ℚ, 0 ≤ z ∧ R.rnd (x + y) = .fin z
        cases hr : R.rnd (x + y) with
        | fin z => rw [hr] at m; exact .inr ⟨z, by simpa [Fl.le] using m, rfl⟩
        | pinf => exact .inl rfl
        | nan => rw [hr] at nn; cases nn
        | ninf => rw [hr] at m; simp [Fl.le] at m
    · rcases h with rfl | h
      · left
        rcases hv with rfl | ⟨y, hy, rfl⟩ <;> rfl
      · rcases List.mem_cons.mp h with rfl | h
        · left
          rcases hs with rfl | ⟨x, hx, rfl⟩ <;> rfl
        · exact .inr h

theorem binary64_lawful : binary64.Lawful := (precise_format (f := fmt64) (by decide) (by decide) (by decide)).lawful

theorem rnd_int64 (n : Int) (h : |n| ≤ 2 ^ 53) : binary64.rnd n = .fin n :=
  rnd_representable (f := fmt64) (by decide) n 0 (by simp [pow2_eq]) h (by decide) (by
    have : |(n : ℚ)| ≤ 2 ^ 53 := by exact_mod_cast h
    exact lt_of_le_of_lt this (by decide +kernel))

theorem logCosh_row {lib : LossLib ℚ} (H : CoshOverflows lib) (a b : ℚ) :
    (PointLoss.logCosh.loss binary64 lib (.fin a) (.fin b) = .pinf ∨ ∃ z : ℚ, 0 ≤ z ∧ PointLoss.logCosh.loss binary64 lib (.fin a) (.fin b) = .fin z) ∧
      (713 ≤ |a - b| → PointLoss.logCosh.loss binary64 lib (.fin a) (.fin b) = .pinf) := by
  simp only [PointLoss.loss, sub_fin]
  have nn := binary64_lawful.not_nan (a - b)
  cases hr : binary64.rnd (a - b) with
  | nan => rw [hr] at nn; cases nn
  | pinf => rw [H.pinf, H.ln]; simp
  | ninf => rw [H.ninf, H.ln]; simp
  | fin v =>
    refine ⟨H.nonneg v, fun h => ?_⟩
    have hv : 712 ≤ |v| := by
      rcases le_abs'.mp h with h | h
      · have m := binary64_lawful.mono (show a - b ≤ ((-713 : Int) : ℚ) by push_cast; linarith)
        rw [hr, rnd_int64 (-713) (by decide)] at m
        have : v ≤ ((-713 : Int) : ℚ) := by simpa [Fl.le] using m
        push_cast at this
        rw [abs_of_neg (by linarith)]; linarith
      · have m := binary64_lawful.mono (show ((713 : Int) : ℚ) ≤ a - b by push_cast; linarith)
        rw [hr, rnd_int64 713 (by decide)] at m
        have : ((713 : Int) : ℚ) ≤ v := by simpa [Fl.le] using m
        push_cast at this
        rw [abs_of_pos (by linarith)]; linarith
    rw [H.big v hv, H.ln]

theorem logCosh_rows {lib : LossLib ℚ} (H : CoshOverflows lib) : ∀ (yhat y : List ℚ),
    (∀ v ∈ List.zipWith (PointLoss.logCosh.loss binary64 lib) (yhat.map .fin) (y.map .fin), v = .pinf ∨ ∃ z : ℚ, 0 ≤ z ∧ v = .fin z) ∧
      ((∃ r ∈ residuals yhat y, 713 ≤ |r|) → .pinf ∈ List.zipWith (PointLoss.logCosh.loss binary64 lib) (yhat.map .fin) (y.map .fin))
  | [], y => by simp [residuals]
  | a :: yhat, [] => by simp [residuals]
  | a :: yhat, b :: y => by
    obtain ⟨h1, h2⟩ := logCosh_rows H yhat y
    obtain ⟨r1, r2⟩ := logCosh_row H a b
    simp only [List.map_cons, List.zipWith_cons_cons, List.mem_cons]
    refine ⟨?_, ?_⟩
    · rintro v (rfl | hv)
      · exact r1
      · exact h1 v hv
    · rintro ⟨r, hr, hb⟩
      rcases List.mem_cons.mp hr with rfl | hr
      · exact .inl (r2 hb).symm
      · exact .inr (h2 ⟨r, hr, hb⟩)

/-- C97, the exception for the log-cosh loss: in `f64` it is infinite as soon as one prediction misses its target by 713, however many rows there
are, because `cosh` overflows. -/
theorem _root_.SR.C97_logcosh_overflow {lib : LossLib ℚ} (H : CoshOverflows lib) (yhat y : List ℚ) (hlen : yhat.length = y.length)
    (hn : y.length ≤ 2 ^ 53) (hbig : ∃ r ∈ residuals yhat y, 713 ≤ |r|) :
    (LossKind.mean .logCosh).loss binary64 lib (yhat.map .fin) (y.map .fin) none = some .pinf := by
  have hne : y ≠ [] := by
    rintro rfl
    obtain ⟨r, hr, -⟩ := hbig
    simp [residuals] at hr
  have hpos : (0 : ℚ) < y.length := by exact_mod_cast List.length_pos_iff.mpr hne
  have hnil : (y.map (Fl.fin : ℚ → Fl ℚ)).isEmpty = false := by simpa [List.isEmpty_iff] using hne
  have hnat : binary64.ofNat y.length = .fin (y.length : ℚ) := rnd_nat (f := fmt64) (by decide) (by decide) (by decide) _ hn
  obtain ⟨h1, h2⟩ := logCosh_rows H yhat y
  have hs : binary64.sum (List.zipWith (PointLoss.logCosh.loss binary64 lib) (yhat.map .fin) (y.map .fin)) = .pinf :=
    foldl_pinf binary64_lawful _ h1 _ (.inr ⟨0, le_refl _, rfl⟩) (.inr (h2 hbig))
  simp only [LossKind.loss, meanLoss, List.length_map, hlen, ne_eq, not_true, if_false, hnil, Bool.false_eq_true, hnat, hs]
  simp [Rounding.div]
  try linarith

set_option exponentiation.threshold 5000 in
/-- Why the library behaves so: the real `cosh 712` is beyond every `f64`. -/
theorem cosh_beyond : (2 : ℝ) ^ 1024 < Real.cosh 712 := by
  have h1 : (2.7182818283 : ℝ) ^ 712 ≤ Real.exp 712 := by
    have := pow_le_pow_left₀ (by norm_num : (0 : ℝ) ≤ 2.7182818283) Real.exp_one_gt_d9.le 712
    rwa [← Real.exp_nat_mul, mul_one] at this
  have h2 : (2 : ℝ) ^ 1025 < (2.7182818283 : ℝ) ^ 712 := by norm_num
  rw [Real.cosh_eq]
  have h3 := Real.exp_pos (-712)
  have h4 : (2 : ℝ) ^ 1025 = 2 * 2 ^ 1024 := by rw [pow_succ (2 : ℝ) 1024]; ring
  linarith

/-- The exact log-cosh of a difference is at most its size. -/
theorem _root_.SR.C97_logcosh_exact (r : ℝ) : Real.log (Real.cosh r) ≤ |r| := by
  rw [← Real.cosh_abs, Real.log_le_iff_le_exp (Real.cosh_pos _), Real.cosh_eq]
  have : Real.exp (-|r|) ≤ Real.exp |r| := Real.exp_le_exp.mpr (by linarith [abs_nonneg r])
  linarith

/-- `cosh` of a library that is 1 up to 712, and a logarithm that is 0 on finite numbers. -/
def coshDemo : LossLib ℚ :=
  ⟨fun v => match v with | .fin x => if 712 ≤ |x| then .pinf else .fin 1 | _ => .pinf,
    fun v => match v with | .fin _ => .fin 0 | v => v, id, fun a _ => a, id⟩

/-- Such a library exists, and the hypotheses are met by two rows. -/
example : CoshOverflows coshDemo ∧ ∃ r ∈ residuals [1, 1000] [2, (0 : ℚ)], 713 ≤ |r| := by
  refine ⟨⟨fun x hx => if_pos hx, rfl, rfl, rfl, fun x => ?_⟩, 1000, ?_, ?_⟩
  · by_cases h : 712 ≤ |x|
    · left; simp [coshDemo, h]
    · right; exact ⟨0, le_refl _, by simp [coshDemo, h]⟩
  · decide +kernel
  · decide +kernel

end Accuracy
end SR
