import Mathlib.Algebra.Order.Ring.Rat
import Mathlib.Algebra.Field.Rat
import Mathlib.Data.List.Basic
/-
Model of the background worker of the web page, `web/ui/src/worker/srWorker.ts`.

The worker is a JavaScript event loop: it handles one event at a time (a message from the page, the end of an `await`),
runs it up to the next `await`, and in between any other event may be handled.  A `WasmSearch` object
(`web/wasm/src/lib.rs`, Model/WebSession.lean) is used through its methods only; here it is an arbitrary implementation of
these methods.  Not modelled: console warnings, the size of the thread pool, the texts of errors except whether they
contain "member not found".
-/
namespace SR

/-- The reply of `evaluate_member` (lib.rs:257-276): an answer, the error "member not found", or another error. -/
inductive EvalReply (Ans : Type) where
  | ok (a : Ans)
  | notFound
  | error

/-- Which data an equation is evaluated on (`"train" | "val"`, protocol.ts:16-21). -/
inductive Which | train | val
deriving DecidableEq, Repr

/-- `WasmSearch` as the worker uses it.  `none` of a method: it panics.  `none` of the constructor: an error or a panic
(both are exceptions in JavaScript, and no object is made). -/
structure Wasm where
  /-- arguments of the constructor -/
  Req : Type
  Split : Type
  Sess : Type
  Snap : Type
  /-- an `EquationSummary`, with its identifier and complexity -/
  Item : Type
  Id : Type
  Ans : Type
  decId : DecidableEq Id
  itemId : Item → Id
  complexity : Item → Nat
  /-- `split.val.length > 0` -/
  hasVal : Split → Bool
  create : Req → Option Sess
  setParetoK : Nat → Sess → Sess
  split : Sess → Split
  finished : Sess → Bool
  step : Nat → Sess → Option (Sess × Snap)
  front : Nat → Sess → Option (List Item)
  evaluate : Id → Which → Sess → Option (EvalReply Ans)

attribute [instance] Wasm.decId

variable {W : Wasm}

/-- The variable `search`, srWorker.ts:6: `null`, or an object; an object inside which a panic happened throws whenever it
is used (its `RefCell` stays borrowed).  Simplified: also after a panic in a method that only reads. -/
inductive Obj (S : Type) where
  | null
  | broken
  | live (s : S)

/-- `search.step(n)`: the object afterwards and the snapshot (`none`: an exception). -/
def Obj.step (n : Nat) : Obj W.Sess → Obj W.Sess × Option W.Snap
  | .live s => match W.step n s with
    | some (s', p) => (.live s', some p)
    | none => (.broken, none)
  | x => (x, none)

/-- `search.best_equations(k)`. -/
def Obj.front (k : Nat) : Obj W.Sess → Obj W.Sess × Option (List W.Item)
  | .live s => match W.front k s with
    | some f => (.live s, some f)
    | none => (.broken, none)
  | x => (x, none)

/-- `search.is_finished()` (`none`: an exception). -/
def Obj.finished : Obj W.Sess → Option Bool
  | .live s => some (W.finished s)
  | _ => none

/-- Messages to the worker, protocol.ts:3-29.  `evaluate` carries the request identifier, of which the page uses the member
and the data set (useSearchController.ts:149-156, 211-216). -/
inductive ToWorker (W : Wasm) where
  | init (r : W.Req)
  | start
  | pause
  | reset
  | step (cycles : Int)
  | evaluate (id : W.Id) (which : Which)

/-- Messages from the worker, protocol.ts:31-48. -/
inductive FromWorker (W : Wasm) where
  | ready (split : W.Split)
  | snapshot (p : W.Snap)
  | front (f : List W.Item)
  | evalResult (id : W.Id) (which : Which) (a : W.Ans)
  | done
  | paused
  | resetDone
  /-- whether the text contains "member not found" -/
  | error (notFound : Bool)

/-- The local variables of a run of `runLoop` that waits in `await sleep0()`, srWorker.ts:31-32. -/
structure Loop where
  lastSnap : ℚ
  lastFront : ℚ
deriving DecidableEq, Repr

/-- The worker between two events: its two global variables (srWorker.ts:6-7), the runs of `runLoop` that wait in
`await sleep0()` (srWorker.ts:50), and the `init` messages whose handler waits in `await init()` or
`await init_thread_pool(n)` (srWorker.ts:70-77; simplified: one wait). -/
structure Worker (W : Wasm) where
  search : Obj W.Sess
  running : Bool
  loops : List Loop
  inits : List W.Req

/-- A new worker, srWorker.ts:6-7. -/
def Worker.fresh : Worker W := ⟨.null, false, [], []⟩

/-- The snapshot of the loop, srWorker.ts:37-42 (`none`: an exception). -/
def snapPart (now : ℚ) (l : Loop) (x : Obj W.Sess) : Obj W.Sess × Option Loop × List (FromWorker W) :=
  if 200 ≤ now - l.lastSnap then
    match x.step 0 with
    | (x, some p) => (x, some { l with lastSnap := now }, [.snapshot p])
    | (x, none) => (x, none, [])
  else (x, some l, [])

/-- The front of the loop, srWorker.ts:43-47 (`none`: an exception). -/
def frontPart (now : ℚ) (l : Loop) (x : Obj W.Sess) : Obj W.Sess × Option Loop × List (FromWorker W) :=
  if 250 ≤ now - l.lastFront then
    match x.front 10000 with
    | (x, some f) => (x, some { l with lastFront := now }, [.front f])
    | (x, none) => (x, none, [])
  else (x, some l, [])

/-- The body of the `while` loop, srWorker.ts:35-49, up to `await sleep0()`.  An exception ends this run of `runLoop`
(its promise is discarded, srWorker.ts:127, so nobody is told). -/
def Worker.body (now : ℚ) (l : Loop) (w : Worker W) : Worker W × List (FromWorker W) :=
  match w.search.step 10 with
  | (x, none) => ({ w with search := x }, [])
  | (x, some _) =>
    match snapPart now l x with
    | (x, none, ms) => ({ w with search := x }, ms)
    | (x, some l, ms) =>
      match frontPart now l x with
      | (x, none, ms') => ({ w with search := x }, ms ++ ms')
      | (x, some l, ms') => ({ w with search := x, loops := w.loops ++ [l] }, ms ++ ms')

/-- The end of `runLoop` after a finished search, srWorker.ts:58-61. -/
def Worker.finish (w : Worker W) : Worker W × List (FromWorker W) :=
  match w.search.step 0 with
  | (x, none) => ({ w with search := x }, [])
  | (x, some p) =>
    match x.front 10000 with
    | (x, none) => ({ w with search := x }, [.snapshot p])
    | (x, some f) => ({ w with search := x, running := false }, [.snapshot p, .front f, .done])

/-- `runLoop` from the test of the `while` loop on, srWorker.ts:34-62. -/
def Worker.loop (now : ℚ) (l : Loop) (w : Worker W) : Worker W × List (FromWorker W) :=
  if !w.running then (w, [.paused])
  else match w.search.finished with
    | none => (w, [])
    | some true => w.finish
    | some false => w.body now l

/-- `Math.max(0, msg.cycles | 0)`, srWorker.ts:105: the number as a signed 32-bit integer, not below zero. -/
def cyclesArg (n : Int) : Nat := (Int.bmod n (2 ^ 32)).toNat

/-- The handler of `step`, srWorker.ts:100-109, for an object (exceptions are caught, srWorker.ts:131-133). -/
def Worker.onStep (n : Int) (w : Worker W) : Worker W × List (FromWorker W) :=
  match w.search.step (cyclesArg n) with
  | (x, none) => ({ w with search := x }, [.error false])
  | (x, some _) =>
    match x.step 0 with
    | (x, none) => ({ w with search := x }, [.error false])
    | (x, some p) =>
      match x.front 10000 with
      | (x, none) => ({ w with search := x }, [.snapshot p, .error false])
      | (x, some f) => ({ w with search := x }, [.snapshot p, .front f])

/-- The handler of `evaluate`, srWorker.ts:111-119, for an object. -/
def Worker.onEvaluate (id : W.Id) (which : Which) (w : Worker W) : Worker W × List (FromWorker W) :=
  match w.search with
  | .live s => match W.evaluate id which s with
    | some (.ok a) => (w, [.evalResult id which a])
    | some .notFound => (w, [.error true])
    | some .error => (w, [.error false])
    | none => ({ w with search := .broken }, [.error false])
  | _ => (w, [.error false])

/-- `onmessage` up to its first `await`, srWorker.ts:64-134. -/
def Worker.receive (now : ℚ) (w : Worker W) : ToWorker W → Worker W × List (FromWorker W)
  | .init r => ({ w with running := false, inits := w.inits ++ [r] }, [])
  | .reset => ({ w with running := false, search := .null }, [.resetDone])
  | .pause => ({ w with running := false }, [.paused])
  | .step n => match w.search with
    | .null => (w, [.error false])
    | _ => w.onStep n
  | .evaluate id which => w.onEvaluate id which
  | .start => match w.search with
    | .null => (w, [.error false])
    | _ => if w.running then (w, []) else Worker.loop now ⟨0, 0⟩ { w with running := true }

/-- The rest of the handler of `init`, srWorker.ts:82-86, after the wait. -/
def Worker.loaded (r : W.Req) (w : Worker W) : Worker W × List (FromWorker W) :=
  match W.create r with
  | none => (w, [.error false])
  | some s => ({ w with search := .live (W.setParetoK 10000 s) }, [.ready (W.split (W.setParetoK 10000 s))])

/-- What the worker can handle next: a message, the wake-up of the `i`-th waiting loop, the end of the wait of the `i`-th
waiting `init` (which may fail: the module cannot be loaded).  `now` is `performance.now()`. -/
inductive WEvent (W : Wasm) where
  | receive (m : ToWorker W) (now : ℚ)
  | wake (i : Nat) (now : ℚ)
  | loaded (i : Nat)
  | loadFailed (i : Nat)

/-- The handling of one event: the worker afterwards and the messages it posts (`none`: there is no such event). -/
def Worker.on (w : Worker W) : WEvent W → Option (Worker W × List (FromWorker W))
  | .receive m now => some (w.receive now m)
  | .wake i now => w.loops[i]?.map fun l => Worker.loop now l { w with loops := w.loops.eraseIdx i }
  | .loaded i => w.inits[i]?.map fun r => Worker.loaded r { w with inits := w.inits.eraseIdx i }
  | .loadFailed i => w.inits[i]?.map fun _ => ({ w with inits := w.inits.eraseIdx i }, [.error false])

/-- A history of the worker: the events it handles and everything it posts. -/
def Worker.run : List (WEvent W) → Worker W → Option (Worker W × List (FromWorker W))
  | [], w => some (w, [])
  | e :: es, w => do
    let (w, out) ← w.on e
    let (w, out') ← Worker.run es w
    some (w, out ++ out')

end SR
