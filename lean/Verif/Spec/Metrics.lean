import Verif.Spec.Loss
import Mathlib.Order.Bounds.Defs
/-
Textbook regression metrics over the reals, independent of the code.  A row is a prediction, a target and a weight;
without weights every weight is 1.
-/
namespace SR

/-- A row with its weight. -/
structure MRow where
  pred : ℝ
  target : ℝ
  weight : ℝ

namespace MRow

/-- The sum over the rows of a quantity. -/
noncomputable def total (l : List MRow) (f : MRow → ℝ) : ℝ := (l.map f).sum

/-- The weighted mean of a quantity. -/
noncomputable def mean (l : List MRow) (f : MRow → ℝ) : ℝ := total l (fun r => r.weight * f r) / total l (·.weight)

/-- The unweighted mean of a quantity. -/
noncomputable def plainMean (l : List MRow) (f : MRow → ℝ) : ℝ := total l f / l.length

/-- The absolute error of a row. -/
noncomputable def absErr (r : MRow) : ℝ := |r.pred - r.target|

/-- The residual sum of squares. -/
noncomputable def sse (l : List MRow) : ℝ := total l fun r => r.weight * (r.pred - r.target) ^ 2

/-- The total sum of squares about the (weighted) mean of the target. -/
noncomputable def sst (l : List MRow) : ℝ := total l fun r => r.weight * (r.target - mean l (·.target)) ^ 2

/-- The coefficient of determination (0 if the target is constant on the rows that count). -/
noncomputable def r2 (l : List MRow) : ℝ := if sst l = 0 then 0 else 1 - sse l / sst l

/-- Pearson's correlation coefficient (0 if one of the variables is constant), unweighted. -/
noncomputable def pearson (l : List MRow) : ℝ :=
  let dp r := pred r - plainMean l (·.pred)
  let dt r := target r - plainMean l (·.target)
  let vp := total l fun r => dp r ^ 2
  let vt := total l fun r => dt r ^ 2
  if vt = 0 ∨ vp = 0 then 0 else total l (fun r => dp r * dt r) / (√vt * √vp)

/-- What the code calls the correlation: as `pearson`, but the deviations of the target are taken from its *weighted*
mean. -/
noncomputable def mixedCorr (l : List MRow) : ℝ :=
  let dp r := pred r - plainMean l (·.pred)
  let dt r := target r - mean l (·.target)
  let vp := total l fun r => dp r ^ 2
  let vt := total l fun r => dt r ^ 2
  if vt = 0 ∨ vp = 0 then 0 else total l (fun r => dp r * dt r) / (√vt * √vp)

/-- The inputs of the metrics computation. -/
def preds (l : List MRow) : List (Fl ℝ) := l.map fun r => .fin r.pred
def targets (l : List MRow) : List (Fl ℝ) := l.map fun r => .fin r.target
def weights (l : List MRow) : List (Fl ℝ) := l.map fun r => .fin r.weight

/-- The weights argument: present, or absent with all weights 1. -/
def WeightsOf (l : List MRow) (w : Option (List (Fl ℝ))) : Prop :=
  w = some (weights l) ∨ w = none ∧ ∀ r ∈ l, r.weight = 1

end MRow
end SR
