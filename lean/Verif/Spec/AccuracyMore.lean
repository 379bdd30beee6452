import Verif.Spec.Accuracy
/-
Vocabulary for C97, the other losses: the exact values.
-/
namespace SR
variable {K : Type} [Field K] [LinearOrder K]

/-- The mean of `g` of the differences between predictions and targets, exactly. -/
def exactMeanOf (g : K → K) (yhat y : List K) : K := ((residuals yhat y).map g).sum / (y.length : K)

/-- The pinball loss for the quantile `τ`, exactly; `r` is the prediction minus the target. -/
def pinball (τ r : K) : K := if r ≤ 0 then τ * |r| else (1 - τ) * |r|

/-- Huber's loss with the threshold `δ`, exactly. -/
def huberLoss (δ r : K) : K := if |r| ≤ δ then r ^ 2 / 2 else δ * (|r| - δ / 2)

/-- The square root has a relative error of at most `u`, as correct rounding guarantees; said without square roots. -/
def SqrtPrecise (sqrt : Fl K → Fl K) (u : K) : Prop :=
  ∀ x y : K, 0 ≤ x → sqrt (.fin x) = .fin y → 0 ≤ y ∧ (1 - u) ^ 2 * x ≤ y ^ 2 ∧ y ^ 2 ≤ (1 + u) ^ 2 * x

end SR
