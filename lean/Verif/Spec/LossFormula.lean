import Verif.Spec.Loss
/-
Textbook formulas of the built-in losses over the reals, independent of the code.
-/
namespace SR

/-- The pointwise losses with real parameters. -/
inductive RealLoss where
  | squared | abs | huber (delta : ℝ) | logCosh | lp (p : ℝ) | quantile (tau : ℝ) | epsIns (eps : ℝ)

/-- The corresponding configured loss. -/
def RealLoss.toModel : RealLoss → PointLoss ℝ
  | .squared => .squared
  | .abs => .abs
  | .huber d => .huber (.fin d)
  | .logCosh => .logCosh
  | .lp p => .lp (.fin p)
  | .quantile t => .quantile (.fin t)
  | .epsIns e => .epsIns (.fin e)

/-- The loss of predicting `a` when the target is `y`. -/
noncomputable def RealLoss.formula : RealLoss → ℝ → ℝ → ℝ
  | .squared, a, y => (a - y) ^ 2
  | .abs, a, y => |a - y|
  | .huber d, a, y => if |a - y| ≤ d then (a - y) ^ 2 / 2 else d * (|a - y| - d / 2)
  | .logCosh, a, y => Real.log (Real.cosh (a - y))
  | .lp p, a, y => |a - y| ^ p
  | .quantile t, a, y => if a ≤ y then t * (y - a) else (1 - t) * (a - y)
  | .epsIns e, a, y => max (|a - y| - e) 0

/-- Where the loss is differentiable in the prediction (for parameters in their usual range). -/
def RealLoss.SmoothAt : RealLoss → ℝ → ℝ → Prop
  | .squared, _, _ => True
  | .abs, a, y => a ≠ y
  | .huber d, _, _ => 0 < d
  | .logCosh, _, _ => True
  | .lp p, a, y => a ≠ y ∨ 1 < p
  | .quantile _, a, y => a ≠ y
  | .epsIns e, a, y => 0 ≤ e ∧ |a - y| ≠ e

/-- The (weighted) average of the pointwise losses; zero when there is nothing to average. -/
noncomputable def meanFormula (l : RealLoss) (yhat y : List ℝ) : Option (List ℝ) → ℝ
  | none => (List.zipWith l.formula yhat y).sum / y.length
  | some w => (List.zipWith (· * ·) w (List.zipWith l.formula yhat y)).sum / w.sum

end SR
