import Verif.Model.Web
import Verif.Spec.Sound
/-
The data set of the web interface: what the caller asks for, and what it means to get it.
-/
namespace SR
variable {K : Type}

/-- A valid request: a table with at least one row and two columns and rows of equal length, a target column `yCol`
(the last by default), weights in another column, and features that are columns other than those. -/
structure ValidRequest (rows : List (List (Fl K))) (o : WebColumns) (nCols yCol : Nat) : Prop where
  nonempty : rows ≠ []
  width : ∀ row ∈ rows, row.length = nCols
  two : 2 ≤ nCols
  target : yCol = o.yColumn.getD (nCols - 1)
  targetLt : yCol < nCols
  weights : ∀ wc, o.weightsColumn = some wc → wc < nCols ∧ wc ≠ yCol
  features : ∀ v, o.xColumns = some v → v ≠ [] ∧ ∀ c ∈ v, c < nCols ∧ c ≠ yCol ∧ some c ≠ o.weightsColumn
  /-- without an explicit choice some column must be left -/
  left : o.xColumns = none → ∃ c, c < nCols ∧ c ≠ yCol ∧ some c ≠ o.weightsColumn

/-- The columns the caller wants as features. -/
def WantsColumn (o : WebColumns) (nCols yCol c : Nat) : Prop :=
  match o.xColumns with
  | some v => c ∈ v
  | none => c < nCols ∧ c ≠ yCol ∧ some c ≠ o.weightsColumn

/-- The data set `f` has the wanted columns as features, in ascending order and each once, the target column as
target, the weights column as weights, and is named after the headers (`x0`, `x1`, ... without them). -/
structure IsTable (headers : List String) (rows : List (List (Fl K))) (o : WebColumns) (nCols yCol : Nat)
    (f : FullData K) (cols : List Nat) : Prop where
  ascending : cols.Pairwise (· < ·)
  wanted : ∀ c, c ∈ cols ↔ WantsColumn o nCols yCol c
  nFeatures : f.x.rows = cols.length
  nRows : f.x.cols = rows.length
  yLen : f.y.length = rows.length
  wLen : ∀ w, f.weights = some w → w.length = rows.length
  x : ∀ (j c i : Nat) (row : List (Fl K)), cols[j]? = some c → rows[i]? = some row → row[c]? = some (f.x.at' j i)
  y : ∀ (i : Nat) (row : List (Fl K)), rows[i]? = some row → f.y[i]? = row[yCol]?
  weighted : f.weights.isSome = o.weightsColumn.isSome
  weights : ∀ w wc, f.weights = some w → o.weightsColumn = some wc → ∀ (i : Nat) (row : List (Fl K)),
    rows[i]? = some row → w[i]? = row[wc]?
  nNames : f.names.length = cols.length
  names : ∀ (j c : Nat), cols[j]? = some c →
    f.names[j]? = if o.hasHeaders && headers.length == nCols then headers[c]? else some ("x" ++ toString j)

/-! ## Evaluation of members -/

variable [Field K] [LinearOrder K] [E : Env K]

/-- The data set on which members are evaluated has the features of the training set. -/
structure SameFeatures (d d' : Dataset K) : Prop where
  rows : d'.x.rows = d.x.rows
  wf : d'.WF
  nonempty : 0 < d'.x.cols

open Classical in
/-- What the evaluation of an expression on a data set should give: its predictions with their metrics, or nothing if
some value is not finite. -/
noncomputable def Answer (d' : Dataset K) (t : Tree) (consts : List (Fl K)) (a : Option (Metrics K × List (Fl K))) : Prop :=
  if Computable d' t consts then
    ∃ metrics, computeMetrics E.RT E.lossLib.sqrt (predictions d' t consts) d'.y d'.weights = some metrics ∧
      a = some (metrics, predictions d' t consts)
  else a = none

/-- A member the interface shows: a point of the front, or the best member. -/
def Shared.Shows (s : Shared K) (m : Member K) : Prop := m ∈ s.hall.paretoFront ∨ m = s.best

end SR
