import Verif.Spec.Member
import Verif.Spec.Binary64
/-
Vocabulary for C97: rounding with a small relative error, and the exact mean losses.
-/
namespace SR
variable {K : Type} [Field K] [LinearOrder K]

/-- Rounding changes a number that is at least `tiny` by a factor between `1 - u` and `1 + u`. -/
structure Rounding.Precise (R : Rounding K) (u tiny : K) : Prop where
  lawful : R.Lawful
  u_nonneg : 0 ≤ u
  u_lt : u < 1
  tiny_pos : 0 < tiny
  error : ∀ x y : K, tiny ≤ |x| → R.rnd x = .fin y → |y - x| ≤ u * |x|

/-- `y` is `x` up to `k` roundings. -/
def Near (u : K) (k : Nat) (x y : K) : Prop := (1 - u) ^ k * x ≤ y ∧ y ≤ (1 + u) ^ k * x

/-- The differences between predictions and targets, exactly. -/
def residuals (yhat y : List K) : List K := List.zipWith (fun a b => a - b) yhat y

/-- The mean of the squares of the differences, exactly. -/
def meanSquare (yhat y : List K) : K := ((residuals yhat y).map fun r => r ^ 2).sum / (y.length : K)

/-- The mean of the distances, exactly. -/
def meanDistance (yhat y : List K) : K := ((residuals yhat y).map fun r => |r|).sum / (y.length : K)

/-- The weighted mean of the squares of the differences, exactly. -/
def weightedSquare (w yhat y : List K) : K := (List.zipWith (fun w r => w * r ^ 2) w (residuals yhat y)).sum / w.sum

/-- The weighted mean of the distances, exactly. -/
def weightedDistance (w yhat y : List K) : K := (List.zipWith (fun w r => w * |r|) w (residuals yhat y)).sum / w.sum

/-- No difference is so small, without being zero, that its square or the mean would leave the normal range. -/
def Resolved (ρ : K) (yhat y : List K) : Prop := ∀ r ∈ residuals yhat y, r = 0 ∨ ρ ≤ |r|

/-- The loss of a member is the exact mean of the squares of the differences between the predictions of its expression and the targets, up
to the relative amount `(n + 4) / 2 ^ 52` for `n` rows; or infinite. -/
def Member.AccurateLoss [E : Env ℚ] (d : Dataset ℚ) (m : Member ℚ) : Prop :=
  ∃ t : Tree, m.expr.nodes = t.toPostfix ∧ (m.loss = .pinf ∨
    ∃ (l : ℚ) (p q : List ℚ), m.loss = .fin l ∧ predictions d t m.expr.consts = p.map .fin ∧ d.y = q.map .fin ∧
      (Resolved (pow2 (-484)) p q → |l - meanSquare p q| ≤ (d.x.cols + 4 : Nat) * pow2 (-52) * meanSquare p q))

end SR
