import Verif.Model.Worker
import Verif.Model.WebSession
/-
The worker of the web page (Model/Worker.lean) with the sessions of `web/wasm/src/lib.rs` (Model/WebSession.lean).
-/
namespace SR
section
variable {K : Type} [Field K] [LinearOrder K] [Env K]

/-- The text of `which`, protocol.ts:16-21. -/
def Which.text : Which → List Char
  | .train => "train".toList
  | .val => "val".toList

/-- The reply of `evaluate_member`, lib.rs:257-276: the error is "member not found" if the identifier is a number and the data set
exists. -/
def Session.reply (s : Session K) (id which : List Char) : Option (EvalReply (Metrics K × List (Fl K))) :=
  (s.evaluate id which).map fun
    | some a => .ok a
    | none => if (parseU64 id).isSome ∧ (s.dataset which).isSome then .notFound else .error

/-- All that a session is opened with: the request, and the streams of random numbers it starts from. -/
structure OpenArgs (K : Type) where
  request : WebRequest K
  splitRng : Rng (Fl K)
  seeds : Nat → Rng (Fl K)
  orderRng : Rng (Fl K)

/-- `WasmSearch`, lib.rs:174-277, as the worker uses it; `args` are the requests under consideration. -/
def sessionWasm (S : OpTable) (ws : Char → Bool) (T : Texts K) {Rq : Type} (args : Rq → OpenArgs K) : Wasm where
  Req := Rq
  Split := Split
  Sess := Session K
  Snap := Snapshot K
  Item := EqSummary K
  Id := List Char
  Ans := Metrics K × List (Fl K)
  decId := inferInstance
  itemId := EqSummary.id
  complexity := EqSummary.complexity
  hasVal := fun sp => decide (0 < sp.val.length)
  create := fun r => (Session.open S ws (args r).request (args r).splitRng (args r).seeds (args r).orderRng).join
  setParetoK := fun k s => { s with paretoK := k }
  split := Session.split
  finished := fun s => s.engine.shared.finished
  step := fun n s => s.step T n
  front := fun k s => s.bestEquations T k
  evaluate := fun id which s => s.reply id which.text

end
end SR
