import Verif.Model.Normal
import Mathlib.Analysis.SpecialFunctions.Trigonometric.Basic
import Mathlib.Analysis.SpecialFunctions.Log.Basic
/-
Vocabulary for C79: the library functions on the reals.
-/
namespace SR

/-- The library computes the real logarithm, square root and cosine; the smallest positive number is `δ`. -/
structure NormalLib.OnReals (L : NormalLib ℝ) (δ : ℝ) : Prop where
  ln : ∀ x : ℝ, 0 < x → L.ln (.fin x) = .fin (Real.log x)
  sqrt : ∀ x : ℝ, 0 ≤ x → L.sqrt (.fin x) = .fin (Real.sqrt x)
  cos : ∀ x : ℝ, L.cos (.fin x) = .fin (Real.cos x)
  minPositive : L.minPositive = .fin δ
  pi : L.pi = .fin Real.pi

end SR
