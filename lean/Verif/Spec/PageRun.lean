import Verif.Spec.Page
/-
What the user of the web page relies on: to initialise and start a search is all that is needed (C87).
-/
namespace SR
variable {W : Wasm}

/-- The event is the user looking at an equation. -/
def PEvent.IsSelect : PEvent W → Prop
  | .select _ _ => True
  | _ => False

/-- The page after a successful initialisation: nothing but the split is shown. -/
def View.isReady (v : View W) (sp : W.Split) : Prop :=
  v.status = .ready ∧ v.split = some sp ∧ v.snapshot = none ∧ v.front = [] ∧ v.selectedId = none ∧ v.requested = none ∧
  ∀ id which, v.evals id which = none

end SR
