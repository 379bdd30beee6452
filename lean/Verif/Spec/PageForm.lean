import Verif.Model.PageForm
import Verif.Spec.Web
/-
What the user of the forms of the web page relies on (C88).
-/
namespace SR
variable {K : Type} [Zero K] [One K]

/-- A choice of columns for a table with `n` columns: the target is one of them, the weights another one (if any), and the features are
other ones again, in ascending order and each once. -/
structure GoodColumns (n : Nat) (c : WebColumns) : Prop where
  target : c.yColumn.getD (n - 1) < n
  weights : ∀ w, c.weightsColumn = some w → w < n ∧ w ≠ c.yColumn.getD (n - 1)
  ascending : ∀ x, c.xColumns = some x → x.Pairwise (· < ·)
  features : ∀ x, c.xColumns = some x → ∀ i ∈ x, i < n ∧ i ≠ c.yColumn.getD (n - 1) ∧ some i ≠ c.weightsColumn

/-- A text of which every preview has `n` columns. -/
def HasColumns (n : Nat) (t : Csv K) : Prop := ∀ h p, pageParse h t = some p → ((p.rows.head?).getD []).length = n

/-- Only texts with `n` columns are entered. -/
def FEvent.KeepsWidth (n : Nat) : FEvent K → Prop
  | .setText t => HasColumns n t
  | _ => True

end SR
