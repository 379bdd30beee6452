import Verif.Model.Page
import Verif.Spec.Worker
/-
What the user of the web page relies on (C84).
-/
namespace SR
variable {W : Wasm}

/-- Events that happen without the user. -/
def PEvent.System : PEvent W → Prop
  | .refresh | .handle _ | .wake _ _ | .loaded _ | .loadFailed _ | .deliver => True
  | _ => False

/-- The user leaves the Run tab and comes back. -/
def PEvent.IsRemount : PEvent W → Prop
  | .remount => True
  | _ => False

/-- Nothing more happens until the user does something. -/
def Page.Settled (p : Page W) : Prop := ∀ e : PEvent W, e.System → p.on e = none

/-- The user asked for a search with this request. -/
def Clicked (es : List (PEvent W)) (r : W.Req) : Prop := PEvent.clickInit r ∈ es

/-- The search was made for a request of this kind and has since done some cycles. -/
inductive Made (opened : W.Req → Prop) : W.Sess → Prop
  | made {r s} : opened r → W.create r = some s → Made opened (W.setParetoK 10000 s)
  | step {n s s' p} : Made opened s → W.step n s = some (s', p) → Made opened s'

/-- Everything in the view is a reply of searches made for a request of this kind. -/
structure View.Genuine (opened : W.Req → Prop) (v : View W) : Prop where
  split : ∀ sp, v.split = some sp → ∃ s, Made opened s ∧ W.split s = sp
  snapshot : ∀ p, v.snapshot = some p → ∃ s s', Made opened s ∧ W.step 0 s = some (s', p)
  front : v.front = [] ∨ ∃ s, Made opened s ∧ W.front 10000 s = some v.front
  evals : ∀ id which a, v.evals id which = some a → ∃ s, Made opened s ∧ W.evaluate id which s = some (.ok a)

/-- The equation of the front that stands for a requested complexity: one of exactly that complexity if there is one, else one of the
largest complexity below, else one of the smallest complexity. -/
def StandsFor (front : List W.Item) (c : Nat) (m : W.Item) : Prop :=
  m ∈ front ∧
  ((∃ x ∈ front, W.complexity x = c) → W.complexity m = c) ∧
  ((∃ x ∈ front, W.complexity x ≤ c) → W.complexity m ≤ c ∧ ∀ x ∈ front, W.complexity x ≤ c → W.complexity x ≤ W.complexity m) ∧
  ((∀ x ∈ front, c < W.complexity x) → ∀ x ∈ front, W.complexity m ≤ W.complexity x)

/-- The messages that change the status, and the status they give. -/
def FromWorker.status : FromWorker W → Option Status
  | .ready _ => some .ready
  | .done => some .done
  | .paused => some .paused
  | .resetDone => some .idle
  | .error false => some .error
  | _ => none

end SR
