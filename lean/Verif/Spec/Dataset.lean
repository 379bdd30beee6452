import Verif.Spec.Tree
import Mathlib.Algebra.Order.Field.Basic
import Mathlib.Algebra.BigOperators.Group.List.Basic
/-
The average of a target vector, as in a textbook.
-/
namespace SR
variable {K : Type} [Field K] [LinearOrder K]

/-- Weighted sum of squared errors of the constant prediction `c`; the pairs are (target, weight). -/
def constSSE (l : List (K × K)) (c : K) : K := (l.map fun p => p.2 * (p.1 - c) ^ 2).sum

/-- Total weight. -/
def totalWeight (l : List (K × K)) : K := (l.map Prod.snd).sum

/-- Weighted mean. -/
def weightedMean (l : List (K × K)) : K := (l.map fun p => p.1 * p.2).sum / totalWeight l

end SR
