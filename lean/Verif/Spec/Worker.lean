import Verif.Model.Worker
/-
What the page may expect of the worker (C83): a specification that knows only the present search and the messages, not
loops and flags.
-/
namespace SR
variable {W : Wasm}

/-- The methods of a search in a state with property `V` do not panic, and `V` holds of new searches and is kept. -/
structure Wasm.Safe (W : Wasm) (V : W.Sess → Prop) : Prop where
  create : ∀ r s, W.create r = some s → V s
  paretoK : ∀ k s, V s → V (W.setParetoK k s)
  step : ∀ n s, V s → ∃ s' p, W.step n s = some (s', p) ∧ V s'
  front : ∀ k s, V s → ∃ f, W.front k s = some f
  evaluate : ∀ id which s, V s → ∃ r, W.evaluate id which s = some r

/-- `left s` is the number of cycles a search (with property `V`) has left: a step of `n` cycles does `n` of them, or all that are
left, and the search is finished when none is left. -/
structure Wasm.Counts (W : Wasm) (V : W.Sess → Prop) (left : W.Sess → Nat) : Prop where
  finished : ∀ s, W.finished s = true ↔ left s = 0
  step : ∀ n s s' p, V s → W.step n s = some (s', p) → left s' = left s - n

/-- A method of the search panics in the state `s`. -/
def Wasm.Panics (W : Wasm) (s : W.Sess) : Prop :=
  (∃ n, W.step n s = none) ∨ (∃ k, W.front k s = none) ∨ ∃ id which, W.evaluate id which s = none

/-- `Tells opened cur out cur'`: beginning with the search `cur` (if there is one), the messages `out` can be posted by a truthful
worker, which then has the search `cur'`.  `ready` belongs to a new search, made for a request that was `opened`; the search may
do cycles at any time; every snapshot, front and answer is the reply of the present search at that moment; `done` is posted only when
it is finished; after `resetDone`, and after a panic, there is no search. -/
inductive Tells (opened : W.Req → Prop) : Option W.Sess → List (FromWorker W) → Option W.Sess → Prop
  | nil (cur) : Tells opened cur [] cur
  | work {n s s' p out cur} : W.step n s = some (s', p) → Tells opened (some s') out cur → Tells opened (some s) out cur
  | panic {s out cur} : W.Panics s → Tells opened none out cur → Tells opened (some s) out cur
  | ready {r s out cur cur'} : opened r → W.create r = some s → Tells opened (some (W.setParetoK 10000 s)) out cur →
      Tells opened cur' (.ready (W.split (W.setParetoK 10000 s)) :: out) cur
  | snapshot {s s' p out cur} : W.step 0 s = some (s', p) → Tells opened (some s') out cur →
      Tells opened (some s) (.snapshot p :: out) cur
  | front {s f out cur} : W.front 10000 s = some f → Tells opened (some s) out cur →
      Tells opened (some s) (.front f :: out) cur
  | answer {s id which a out cur} : W.evaluate id which s = some (.ok a) → Tells opened (some s) out cur →
      Tells opened (some s) (.evalResult id which a :: out) cur
  | done {s out cur} : W.finished s = true → Tells opened (some s) out cur → Tells opened (some s) (.done :: out) cur
  | resetDone {cur' out cur} : Tells opened none out cur → Tells opened cur' (.resetDone :: out) cur
  | paused {cur' out cur} : Tells opened cur' out cur → Tells opened cur' (.paused :: out) cur
  | error {b cur' out cur} : Tells opened cur' out cur → Tells opened cur' (.error b :: out) cur

theorem Tells.append {opened : W.Req → Prop} {a b c : Option W.Sess} {out out' : List (FromWorker W)}
    (h : Tells opened a out b) (h' : Tells opened b out' c) : Tells opened a (out ++ out') c := by
  induction h with
  | nil => exact h'
  | work h1 _ ih => exact .work h1 (ih h')
  | panic h1 _ ih => exact .panic h1 (ih h')
  | ready h1 h2 _ ih => exact .ready h1 h2 (ih h')
  | snapshot h1 _ ih => exact .snapshot h1 (ih h')
  | front h1 _ ih => exact .front h1 (ih h')
  | answer h1 _ ih => exact .answer h1 (ih h')
  | done h1 _ ih => exact .done h1 (ih h')
  | resetDone _ ih => exact .resetDone (ih h')
  | paused _ ih => exact .paused (ih h')
  | error _ ih => exact .error (ih h')

/-- The usable search. -/
def Obj.get : Obj W.Sess → Option W.Sess
  | .live s => some s
  | _ => none

/-- The request was received by the worker in this history. -/
def Asked (es : List (WEvent W)) (r : W.Req) : Prop := ∃ now, WEvent.receive (.init r) now ∈ es

/-- The event is the wake-up of a waiting loop. -/
def WEvent.IsWake : WEvent W → Prop
  | .wake _ _ => True
  | _ => False

/-- The event cannot make a search advance or appear by itself: everything but `start`, `step` and the end of an `init`. -/
def WEvent.Quiet : WEvent W → Prop
  | .receive .start _ => False
  | .receive (.step _) _ => False
  | .loaded _ => False
  | _ => True

/-- The message says something about the progress of a search. -/
def FromWorker.Progress : FromWorker W → Prop
  | .snapshot _ => True
  | .front _ => True
  | .done => True
  | .ready _ => True
  | _ => False

/-- The message says how a run of the loop ended. -/
def FromWorker.isEnd : FromWorker W → Bool
  | .done => true
  | .paused => true
  | _ => false

/-- The passes the waiting loops of a worker still need: while it is running one for every ten cycles left, and one for each
loop to end. -/
def Worker.passes (left : W.Sess → Nat) (w : Worker W) : Nat :=
  w.loops.length + match w.running, w.search with
    | true, .live s => (left s + 9) / 10
    | _, _ => 0

end SR
