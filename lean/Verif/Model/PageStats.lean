import Verif.Model.PageData
/-
Model of the figures the web page computes itself: the summary of columns and the inspection plot of the data tab
(`web/ui/src/app/panes/EnterData.tsx`) and the evaluations per second of the run tab
(`web/ui/src/app/panes/searchSolutions/useSearchController.ts`). The numbers of JavaScript are `Fl K` with a rounding `R`;
`Math.sqrt` is an argument.
-/
namespace SR
variable {K : Type} [Field K] [LinearOrder K]

/-- What is accumulated for one column: `sum[j]`, `sumsq[j]`, `min[j]`, `max[j]`, `count[j]`, EnterData.tsx:62-66. -/
structure ColAcc (K : Type) where
  sum : Fl K
  sumsq : Fl K
  min : Fl K
  max : Fl K
  count : Nat

/-- The initial values, EnterData.tsx:62-66. -/
def ColAcc.start : ColAcc K := ⟨.fin 0, .fin 0, .pinf, .ninf, 0⟩

/-- The body of the inner loop, EnterData.tsx:70-76 (`none`: the row has no such cell, `undefined`, which is not finite). -/
def ColAcc.add (R : Rounding K) (a : ColAcc K) : Option (Fl K) → ColAcc K
  | none => a
  | some v =>
    if !v.isFinite then a
    else ⟨R.add a.sum v, R.add a.sumsq (R.mul v v), if v.lt a.min then v else a.min, if a.max.lt v then v else a.max, a.count + 1⟩

/-- One row: the loop over the columns, EnterData.tsx:69-77. -/
def addRow (R : Rounding K) (accs : List (ColAcc K)) (r : List (Fl K)) : List (ColAcc K) :=
  accs.mapIdx fun j a => a.add R r[j]?

/-- A line of the table of columns, EnterData.tsx:60. -/
structure ColSummary (K : Type) where
  name : String
  mean : Fl K
  std : Fl K
  min : Fl K
  max : Fl K

/-- The end of the computation for one column, EnterData.tsx:81-85. -/
def ColAcc.summary (R : Rounding K) (sqrt : Fl K → Fl K) (a : ColAcc K) (name : String) : ColSummary K :=
  let mu := if 0 < a.count then R.div a.sum (R.ofNat a.count) else .nan
  let var := if 0 < a.count then R.sub (R.div a.sumsq (R.ofNat a.count)) (R.mul mu mu) else .nan
  ⟨name, mu, if var.isFinite && Fl.le (.fin 0) var then sqrt var else .nan, a.min, a.max⟩

/-- `columnSummary`, EnterData.tsx:59-87. -/
def columnSummary (R : Rounding K) (sqrt : Fl K → Fl K) (p : Parsed K) : List (ColSummary K) :=
  let accs := p.rows.foldl (addRow R) (p.headers.map fun _ => ColAcc.start)
  p.headers.mapIdx fun j name => ((accs[j]?).getD ColAcc.start).summary R sqrt name

/-- `scatter`, EnterData.tsx:45-57: the two lists of coordinates of the inspection plot. -/
def inspectPlot : List (List (Fl K)) → Nat → Nat → List (Fl K) × List (Fl K)
  | [], _, _ => ([], [])
  | r :: rs, cx, cy =>
    let rest := inspectPlot rs cx cy
    match r[cx]?, r[cy]? with
    | some x, some y => if !x.isFinite || !y.isFinite then rest else (x :: rest.1, y :: rest.2)
    | _, _ => rest

/-- `lastSnapTimeRef`, `lastEvalsRef`, `cpsEmaRef` and `runtime.evalsPerSecond`, useSearchController.ts. -/
structure Speed (K : Type) where
  lastT : Option (Fl K)
  lastE : Option (Fl K)
  ema : Option (Fl K)
  shown : Option (Fl K)

/-- What concerns the speed: a snapshot with the time (`performance.now()`, in milliseconds) and its count of evaluations, the button
`Initialize`, the message that a reset is done. -/
inductive SpeedEvent (K : Type) where
  | snapshot (now evals : Fl K)
  | init
  | resetDone

/-- The average after a new speed, useSearchController.ts:124-127. -/
def nextAverage (R : Rounding K) (prev : Option (Fl K)) (eps : Fl K) : Fl K :=
  match prev with
  | none => eps
  | some e => R.add (R.mul (R.rnd (1 / 5)) eps) (R.mul (R.rnd (4 / 5)) e)

/-- The handlers: a snapshot, useSearchController.ts:115-134; `initSearch`, :170-188; `onResetDone`, :148-160. -/
def Speed.on (R : Rounding K) (s : Speed K) : SpeedEvent K → Speed K
  | .init => ⟨none, none, none, none⟩
  | .resetDone => { s with shown := none }
  | .snapshot now evals =>
    let s' :=
      match s.lastT, s.lastE with
      | some t, some e =>
        let dt := R.div (R.sub now t) (R.rnd 1000)
        let de := R.sub evals e
        if Fl.lt (.fin 0) dt && Fl.le (.fin 0) de then
          let ema := nextAverage R s.ema (R.div de dt)
          { s with ema := some ema, shown := some ema }
        else s
      | _, _ => s
    { s' with lastT := some now, lastE := some evals }

/-- A history of events on the page as it is loaded. -/
def Speed.after (R : Rounding K) (h : List (SpeedEvent K)) : Speed K := h.foldl (Speed.on R) ⟨none, none, none, none⟩

end SR
