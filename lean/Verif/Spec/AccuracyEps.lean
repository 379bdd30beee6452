import Verif.Spec.AccuracyMore
/-
Vocabulary for C97, the epsilon-insensitive loss and weighted means: the exact values.
-/
namespace SR
variable {K : Type} [Field K] [LinearOrder K]

/-- The epsilon-insensitive loss of the difference `r`, exactly: what the distance exceeds `ε` by. -/
def epsLoss (ε r : K) : K := max 0 (|r| - ε)

/-- The weighted mean of `g` of the differences between predictions and targets, exactly. -/
def exactWeightedMeanOf (g : K → K) (w yhat y : List K) : K := (List.zipWith (fun a r => a * g r) w (residuals yhat y)).sum / w.sum

end SR
