import Verif.Spec.Accuracy
import Verif.Model.Loss
/-
Vocabulary for C97, the log-cosh loss: a library whose `cosh` overflows as that of `f64` does.
-/
namespace SR

/-- What `cosh` and `ln` of `f64` do: `cosh 712` is beyond the largest `f64` (`cosh_beyond`), so that it and the values beyond are infinite; the
logarithm of infinity is infinite; and the logarithm of a `cosh` is not negative. -/
structure CoshOverflows (lib : LossLib ℚ) : Prop where
  big : ∀ x : ℚ, 712 ≤ |x| → lib.cosh (.fin x) = .pinf
  pinf : lib.cosh .pinf = .pinf
  ninf : lib.cosh .ninf = .pinf
  ln : lib.ln .pinf = .pinf
  nonneg : ∀ x : ℚ, lib.ln (lib.cosh (.fin x)) = .pinf ∨ ∃ z : ℚ, 0 ≤ z ∧ lib.ln (lib.cosh (.fin x)) = .fin z

end SR
