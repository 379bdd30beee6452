import Verif.Model.Worker
/-
Model of the Run tab of the web page: `web/ui/src/app/panes/searchSolutions/useSearchController.ts` (the handlers, the buttons
and the effect that keeps an equation selected), the part `runtime` of `web/ui/src/state/sessionStore.ts`, and
`web/ui/src/worker/srWorkerClient.ts`, together with the worker (Model/Worker.lean).  Messages arrive in the order in which they
were posted.  Not modelled: drawing, the CSV text, evaluations per second, texts of errors, the failure of
`loadWasmMetadata`.  Simplified: a handler reads the current state of the store (in the code `selectEquation` reads `split` as
of the last drawing).
-/
namespace SR
variable {W : Wasm}

/-- `runtime.status`, sessionStore.ts:27. -/
inductive Status | idle | initializing | ready | running | paused | done | error
deriving DecidableEq, Repr

/-- `runtime`, sessionStore.ts:26-36. -/
structure View (W : Wasm) where
  status : Status
  split : Option W.Split
  snapshot : Option W.Snap
  front : List W.Item
  selectedId : Option W.Id
  /-- `selectedComplexity`, what the user asked for -/
  requested : Option Nat
  evals : W.Id → Which → Option W.Ans

/-- The state of the store at the beginning, sessionStore.ts:131-141, and after a reset or at the beginning of an initialisation,
useSearchController.ts:149-160 and 176-186, with the given status. -/
def View.cleared (st : Status) : View W := ⟨st, none, none, [], none, none, fun _ _ => none⟩

/-- The handlers of the messages, useSearchController.ts:109-168 (srWorkerClient.ts:21-31 calls them). -/
def View.deliver (v : View W) : FromWorker W → View W
  | .ready sp => { v with status := .ready, split := some sp }
  | .snapshot p => { v with snapshot := some p }
  | .front f => { v with front := f }
  | .evalResult id which a =>
    { v with evals := fun i w => if i = id ∧ w = which then some a else v.evals i w }
  | .done => { v with status := .done }
  | .paused => { v with status := .paused }
  | .resetDone => .cleared .idle
  | .error notFound => if notFound then v else { v with status := .error }

/-- `lower` and `sorted` of the effect, useSearchController.ts:232-242: `sort` of JavaScript is stable. -/
def byComplexity (l : List W.Item) : List W.Item := l.mergeSort fun a b => decide (W.complexity a ≤ W.complexity b)

/-- The equation to be shown for a requested complexity, useSearchController.ts:223-243. -/
def pickShown (front : List W.Item) (c : Nat) : Option W.Item :=
  match front.reverse.find? fun m => decide (W.complexity m = c) with
  | some m => some m
  | none =>
    match (byComplexity (front.filter fun m => decide (W.complexity m ≤ c))).getLast? with
    | some m => some m
    | none => (byComplexity front).head?

/-- The messages of `selectEquation`, useSearchController.ts:210-216. -/
def View.evaluations (v : View W) (id : W.Id) : List (ToWorker W) :=
  .evaluate id .train ::
    match v.split with
    | some sp => if W.hasVal sp then [.evaluate id .val] else []
    | none => []

/-- The effect of useSearchController.ts:219-250, if it has something to do: the equation it selects. -/
def View.refresh (v : View W) : Option W.Item :=
  match v.requested with
  | none => none
  | some c =>
    match pickShown v.front c with
    | none => none
    | some m => if some (W.itemId m) = v.selectedId then none else some m

/-- The page with its worker and the messages on the way. -/
structure Page (W : Wasm) where
  view : View W
  toWorker : List (ToWorker W)
  worker : Worker W
  toPage : List (FromWorker W)

/-- The page when the Run tab is opened for the first time: a new worker, useSearchController.ts:106-108. -/
def Page.fresh : Page W := ⟨.cleared .idle, [], Worker.fresh, []⟩

/-- What can happen: the user clicks a button, or an equation, or leaves the tab and comes back; the effect runs; the worker handles
a message or goes on after a wait; a message arrives at the page. -/
inductive PEvent (W : Wasm) where
  | clickInit (r : W.Req)
  | clickStart
  | clickPause
  | clickReset
  | select (id : W.Id) (complexity : Nat)
  | remount
  | refresh
  | handle (now : ℚ)
  | wake (i : Nat) (now : ℚ)
  | loaded (i : Nat)
  | loadFailed (i : Nat)
  | deliver

/-- The worker handles an event and posts messages. -/
def Page.work (p : Page W) (e : WEvent W) : Option (Page W) :=
  (p.worker.on e).map fun r => { p with worker := r.1, toPage := p.toPage ++ r.2 }

/-- One event (`none`: it cannot happen; a disabled button cannot be clicked, ControlsCard.tsx:25-34). -/
def Page.on (p : Page W) : PEvent W → Option (Page W)
  | .clickInit r => some { p with view := .cleared .initializing, toWorker := p.toWorker ++ [.init r] }
  | .clickStart =>
    if p.view.status = .ready ∨ p.view.status = .paused then
      some { p with view := { p.view with status := .running }, toWorker := p.toWorker ++ [.start] }
    else none
  | .clickPause => if p.view.status = .running then some { p with toWorker := p.toWorker ++ [.pause] } else none
  | .clickReset => some { p with toWorker := p.toWorker ++ [.reset] }
  | .select id c =>
    some { p with view := { p.view with selectedId := some id, requested := some c },
                  toWorker := p.toWorker ++ p.view.evaluations id }
  | .remount => some { p with toWorker := [], worker := Worker.fresh, toPage := [] }
  | .refresh => p.view.refresh.map fun m =>
      { p with view := { p.view with selectedId := some (W.itemId m) },
               toWorker := p.toWorker ++ p.view.evaluations (W.itemId m) }
  | .handle now =>
    match p.toWorker with
    | [] => none
    | m :: ms => { p with toWorker := ms }.work (.receive m now)
  | .wake i now => p.work (.wake i now)
  | .loaded i => p.work (.loaded i)
  | .loadFailed i => p.work (.loadFailed i)
  | .deliver =>
    match p.toPage with
    | [] => none
    | m :: ms => some { p with view := p.view.deliver m, toPage := ms }

/-- A history of the page. -/
def Page.run : List (PEvent W) → Page W → Option (Page W)
  | [], p => some p
  | e :: es, p => do Page.run es (← p.on e)

/-- `getSelectedSummary`, sessionStore.ts:283-286: the equation that is shown; `best` is that of the snapshot. -/
def selectedSummary (front : List W.Item) (best : Option W.Item) (selected : Option W.Id) : Option W.Item :=
  match selected with
  | none => best
  | some id =>
    match front.find? fun m => decide (W.itemId m = id) with
    | some m => some m
    | none =>
      match best with
      | some b => if W.itemId b = id then some b else none
      | none => none

end SR
