import Verif.Model.PageStats
/-
Vocabulary for C96: the finite numbers of a column, their mean and variance, and the speeds measured in a history.
-/
namespace SR
variable {K : Type} [Field K] [LinearOrder K]

/-- The number in a cell, if it is finite. -/
def finiteCell : Option (Fl K) → Option K
  | some (.fin v) => some v
  | _ => none

/-- The finite numbers in column `j`, from top to bottom. -/
def finiteCells (rows : List (List (Fl K))) (j : Nat) : List K := rows.filterMap fun r => finiteCell r[j]?

/-- The arithmetic mean. -/
def meanOf (l : List K) : K := l.sum / (l.length : K)

/-- The mean squared distance from the mean. -/
def varianceOf (l : List K) : K := (l.map fun v => (v - meanOf l) ^ 2).sum / (l.length : K)

/-- The snapshots so far, after one more event. -/
def collect (acc : List (K × K)) : SpeedEvent K → List (K × K)
  | .init => []
  | .resetDone => acc
  | .snapshot t e => (finValue t, finValue e) :: acc

/-- The snapshots since the button `Initialize` was last pressed, the latest first: time in milliseconds and count of evaluations. -/
def snapshots (h : List (SpeedEvent K)) : List (K × K) := h.foldl collect []

/-- The speeds, in evaluations per second, between successive snapshots of which the later one was taken later and has no fewer
evaluations; the latest speed first. -/
def speeds : List (K × K) → List K
  | (t, e) :: (t', e') :: l =>
    if t' < t ∧ e' ≤ e then (e - e') / ((t - t') / 1000) :: speeds ((t', e') :: l) else speeds ((t', e') :: l)
  | _ => []

/-- An average of speeds (the latest first) in which a new speed counts one fifth and what was shown before four fifths. -/
def fading : List K → Option K
  | [] => none
  | v :: l => match fading l with
    | none => some v
    | some a => some (v / 5 + 4 * a / 5)

end SR
