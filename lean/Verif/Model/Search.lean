import Verif.Model.Evolve
/-
Model of `symbolic_regression/src/search_utils.rs` (both drivers), `warmup.rs` and the mini-batch part of `dataset.rs`.
The progress display is in Model/Display.lean; here only the flag that records whether it was closed is kept.
-/
namespace SR
variable {K : Type} [Field K] [LinearOrder K] [E : Env K]

/-! ## Mini-batches (dataset.rs) -/

/-- `Dataset::make_batch_buffer`, dataset.rs:112-121 (the baseline is added by `run_iteration_phase`). -/
def makeBatchBuffer (full : Dataset K) (batchSize : Nat) : Option (Dataset K) :=
  if full.x.cols = 0 then none
  else some {
    x := ⟨full.x.rows, max batchSize 1, fun _ _ => .fin 0⟩
    y := List.replicate (max batchSize 1) (.fin 0)
    weights := full.weights.map fun _ => List.replicate (max batchSize 1) (.fin 0)
    baseline := none }

/-- One assignment of the loop of `resample_from`, dataset.rs:138-144: row `src` of `full` is copied to row `dst`
(`none`: index out of range). -/
def copyRow (full b : Dataset K) (dst src : Nat) : Option (Dataset K) := do
  let y ← full.y[src]?
  let weights ← match b.weights, full.weights with
    | some wd, some ws => ws[src]?.map fun w => some (wd.set dst w)
    | wd, _ => some wd
  some { b with
    x := { b.x with at' := fun f r => if r = dst then full.x.at' f src else b.x.at' f r }
    y := b.y.set dst y
    weights }

/-- The loop of `resample_from`, dataset.rs:138-144: `k` rows left, the next is `dst`. -/
def resampleLoop (full : Dataset K) : Nat → Nat → Dataset K → Rand (Fl K) (Dataset K)
  | 0, _, b => pure b
  | k + 1, dst, b => do
    let src ← Rand.below full.x.cols
    let b ← Rand.lift (copyRow full b dst src)
    resampleLoop full k (dst + 1) b

/-- `Dataset::resample_from`, dataset.rs:123-145. -/
def resampleFrom (full b : Dataset K) : Rand (Fl K) (Dataset K) :=
  if full.x.cols = 0 ∨ b.x.rows ≠ full.x.rows ∨ b.y.length ≠ b.x.cols ∨
    (∃ w ∈ b.weights, w.length ≠ b.x.cols) ∨ b.weights.isSome ≠ full.weights.isSome then Rand.fail
  else resampleLoop full b.x.cols 0 b

/-! ## Warm-up (warmup.rs) -/

/-- `get_cur_maxsize`, warmup.rs:5-19, in `f32`.  `none`: `maxsize - 3` underflows (a panic in a debug build). -/
def getCurMaxsize (o : SOptions K) (total remaining : Nat) : Option Nat :=
  let elapsed := total - remaining
  let fraction := E.R32.div (E.R32.ofNat elapsed) (E.R32.ofNat total)
  if Fl.lt (.fin 0) o.warmupMaxsizeBy && fraction.le o.warmupMaxsizeBy then
    if o.maxsize < 3 then none
    else some (3 + E.floorUsize (E.R32.div (E.R32.mul (E.R32.ofNat (o.maxsize - 3)) fraction) o.warmupMaxsizeBy))
  else some o.maxsize

/-! ## Tasks (search_utils.rs) -/

/-- `PopState`, search_utils.rs:56-64. -/
structure PopState (K : Type) where
  pop : Population K
  ev : Evaluator K
  ctx : DContext (Fl K)
  rng : Rng (Fl K)
  batch : Option (Dataset K)
  counters : Counters

/-- The test for a new batch buffer, search_utils.rs:88-91. -/
def needsNewBatch (full : Dataset K) (bs : Nat) : Option (Dataset K) → Bool
  | none => true
  | some b => decide (b.x.cols ≠ bs ∨ b.x.rows ≠ full.x.rows)

/-- The choice of the data set of a phase, `run_iteration_phase`, search_utils.rs:82-103: the data set and the stored
batch. -/
def phaseDataset (o : SOptions K) (full : Dataset K) (batch : Option (Dataset K)) :
    Rand (Fl K) (Dataset K × Option (Dataset K)) :=
  if o.batching then
    if full.x.cols = 0 then Rand.fail
    else do
      let buffer ← Rand.lift (if needsNewBatch full (max o.batchSize 1) batch
        then makeBatchBuffer full (max o.batchSize 1) else batch)
      let b ← resampleFrom full buffer
      pure ({ b with baseline := full.baseline }, some b)
  else pure (full, batch)

/-- A dispatched task: what the closure of `scope.spawn` captures, search_utils.rs:532-545. -/
structure Task (K : Type) where
  popIdx : Nat
  cur : Nat
  stats : Stats K
  ps : PopState K

/-- `SearchTaskResult`, search_utils.rs:47-54. -/
structure TaskResult (K : Type) where
  popIdx : Nat
  cur : Nat
  evals : Nat
  bestSeen : Hall K
  bestSub : List (Member K)
  ps : PopState K

/-- The random part of `execute_task`, search_utils.rs:418-428: the new state of the population, the best members
seen, the evaluations and the members offered for migration.  Simplified: the evaluation counts, which the code adds
as `f64`, are natural numbers. -/
def taskBody (o : SOptions K) (full : Dataset K) (t : Task K) :
    Rand (Fl K) (EvolState K × DContext (Fl K) × Option (Dataset K) × Hall K × List (Member K)) := do
  let (d1, batch) ← phaseDataset o full t.ps.batch
  let (st, seen) ← srCycle o d1 t.cur t.stats ⟨t.ps.pop, t.ps.ev, t.ps.counters, 0⟩
  let (d2, batch) ← phaseDataset o full batch
  let (st, ctx) ← optimizeAndSimplify o full d2 t.ps.ctx st
  let sub ← Rand.lift (bestSubPop E.sort st.pop o.topn)
  pure (st, ctx, batch, seen, sub)

/-- `execute_task`, search_utils.rs:406-438 (`none`: panic). -/
def Task.run (o : SOptions K) (full : Dataset K) (t : Task K) : Option (TaskResult K) :=
  (taskBody o full t t.ps.rng).map fun (r, rng) =>
    ⟨t.popIdx, t.cur, r.1.evals, r.2.2.2.1, r.2.2.2.2, ⟨r.1.pop, r.1.ev, r.2.1, rng, r.2.2.1, r.1.counters⟩⟩

/-! ## Shared state -/

/-- `SearchCounters`, search_utils.rs:24-28. -/
structure SearchCounters where
  total : Nat
  started : Nat
  completed : Nat

/-- `PopPools`, search_utils.rs:122-127, with the counters, statistics and hall of fame that both drivers keep beside
it (`EquationSearchState`, search_utils.rs:129-139; `SearchEngine`, search_utils.rs:220-234). -/
structure Shared (K : Type) where
  counters : SearchCounters
  stats : Stats K
  hall : Hall K
  pops : List (Option (PopState K))
  bestSub : List (List (Member K))
  best : Member K
  totalEvals : Nat

/-- `u64::saturating_add`. -/
def satAdd64 (a b : Nat) : Nat := min (a + b) (2 ^ 64 - 1)

/-- `cycles_remaining() == 0`, search_utils.rs:31-33, 297-299. -/
def Shared.finished (s : Shared K) : Bool := s.counters.total - s.counters.completed == 0

/-- The dispatch of population `i`, search_utils.rs:354-362 and 532-539: the state is taken out of the pool
(`some (none, _)` when it is not there), the started-counter goes up and the size limit and a normalised copy of the
statistics are fixed.  Outer `none`: index out of range. -/
def Shared.dispatch (o : SOptions K) (s : Shared K) (i : Nat) : Option (Option (Task K) × Shared K) := do
  match ← s.pops[i]? with
  | none => some (none, s)
  | some ps =>
    let cur ← getCurMaxsize o s.counters.total (s.counters.total - s.counters.started)
    some (some ⟨i, cur, s.stats.normalize E.R, ps⟩,
      { s with pops := s.pops.set i none, counters := { s.counters with started := s.counters.started + 1 } })

/-- The loop over the members of the returned population, search_utils.rs:467-472: hall of fame and best member. -/
def absorbMembers (o : SOptions K) (cur : Nat) : List (Member K) → Hall K × Member K → Option (Hall K × Member K)
  | [], hb => some hb
  | m :: ms, (hall, best) => do
    let hall ← hall.consider o.cx cur m
    let ok ← checkConstraints o.cx cur m.expr.nodes
    absorbMembers o cur ms (hall, if ok && m.loss.lt best.loss then m else best)

/-- The migration candidates, search_utils.rs:475-480: the best members of the other populations. -/
def migrationCandidates (bestSub : List (List (Member K))) (i : Nat) : List (Member K) :=
  (bestSub.zipIdx.filterMap fun x => if x.2 ≠ i then some x.1 else none).flatten

/-- `migrate_into` with `poisson_sample`. -/
def migrate (dst : Population K) (migrants : List (Member K)) (frac : Fl K) (c : Counters) :
    Rand (Fl K) (Population K × Counters) :=
  migrateInto E.R (poissonSample E.R E.libm E.ptrs E.fuel) dst migrants frac c

/-- The two migrations, search_utils.rs:474-501. -/
def migrations (o : SOptions K) (candidates front : List (Member K)) (pop : Population K) (c : Counters) :
    Rand (Fl K) (Population K × Counters) := do
  let (pop, c) ← if o.migration then migrate pop candidates o.fractionReplaced c else pure (pop, c)
  if o.hofMigration then migrate pop front o.fractionReplacedHof c else pure (pop, c)

/-- `apply_task_result`, search_utils.rs:440-505 (`none`: panic). -/
def Shared.apply (o : SOptions K) (s : Shared K) (r : TaskResult K) : Option (Shared K) := do
  if r.popIdx < s.bestSub.length ∧ r.popIdx < s.pops.length then
    let bestSub := s.bestSub.set r.popIdx r.bestSub
    let stats := (s.stats.updateFromPopulation E.R (r.ps.pop.map (·.complexity))).moveWindow E.R
    let hall ← s.hall.update o.cx r.cur r.bestSeen.members
    let (hall, best) ← absorbMembers o r.cur r.ps.pop (hall, s.best)
    let ((pop, counters), rng) ←
      migrations o (migrationCandidates bestSub r.popIdx) hall.paretoFront r.ps.pop r.ps.counters r.ps.rng
    some {
      counters := { s.counters with completed := s.counters.completed + 1 }
      stats, hall, bestSub, best
      pops := s.pops.set r.popIdx (some { r.ps with pop, counters, rng })
      totalEvals := satAdd64 s.totalEvals r.evals }
  else none

/-! ## The step-wise driver -/

/-- `SearchEngine`, search_utils.rs:220-234 (data set and options are arguments). -/
structure Engine (K : Type) where
  shared : Shared K
  orderRng : Rng (Fl K)
  curIter : Nat
  taskOrder : List Nat
  nextTask : Nat
  progressFinished : Bool

/-- `prepare_iteration`, search_utils.rs:391-403. -/
def Engine.prepare (o : SOptions K) (e : Engine K) : Option (Engine K) :=
  if o.niterations ≤ e.curIter then some e
  else if e.taskOrder ≠ [] ∧ e.nextTask < e.taskOrder.length then some e
  else (shuffle (List.range e.shared.pops.length) e.orderRng).map fun (order, rng) =>
    { e with orderRng := rng, taskOrder := order, nextTask := 0, curIter := e.curIter + 1 }

/-- The execution and application of a dispatched task, search_utils.rs:364-388. -/
def Engine.complete (o : SOptions K) (full : Dataset K) (e : Engine K) (t : Task K) : Option (Engine K) := do
  let r ← t.run o full
  let shared ← e.shared.apply o r
  some { e with shared, progressFinished := e.progressFinished || shared.finished }

/-- The part of `step_one_cycle` after `prepare_iteration`, search_utils.rs:346-388. -/
def Engine.runNext (o : SOptions K) (full : Dataset K) (e : Engine K) : Option (Bool × Engine K) :=
  if e.shared.finished then some (false, e)
  else do
    let i ← e.taskOrder[e.nextTask]?
    let e := { e with nextTask := e.nextTask + 1 }
    match ← e.shared.dispatch o i with
    | (none, _) => some (true, e)
    | (some t, shared) =>
      let e ← Engine.complete o full { e with shared } t
      some (true, e)

/-- `step_one_cycle`, search_utils.rs:336-389 (`none`: panic). -/
def Engine.stepOne (o : SOptions K) (full : Dataset K) (e : Engine K) : Option (Bool × Engine K) :=
  if e.shared.finished then some (false, { e with progressFinished := true })
  else do
    let e ← e.prepare o
    Engine.runNext o full e

/-- `step`, search_utils.rs:317-326: the number of completed cycles and the engine. -/
def Engine.step (o : SOptions K) (full : Dataset K) : Nat → Engine K → Option (Nat × Engine K)
  | 0, e => some (0, e)
  | n + 1, e => do
    let (more, e) ← e.stepOne o full
    if more then
      let (k, e) ← Engine.step o full n e
      some (k + 1, e)
    else some (0, e)

/-- `run_to_completion`, search_utils.rs:328-334: `while step_one_cycle() {}` started at the first engine ends at the
second. -/
inductive Engine.RunsTo (o : SOptions K) (full : Dataset K) : Engine K → Engine K → Prop
  | done {e e' : Engine K} : e.stepOne o full = some (false, e') → RunsTo o full e e'
  | more {e e1 e' : Engine K} : e.stepOne o full = some (true, e1) → RunsTo o full e1 e' → RunsTo o full e e'

/-! ## The multi-worker driver -/

/-- Where the driver of `run_scoped_search` is: before an iteration (or at the end), at the outer `while`
(search_utils.rs:527), or at the inner `while` (search_utils.rs:528) and the receive that follows it. -/
inductive Pc | idle | outer | inner
deriving DecidableEq, Repr

/-- The state of `run_scoped_search`, search_utils.rs:507-562.  `pending` are the spawned tasks whose result has not
been received; a task is a pure function of what it captured, so it is run when its result is received. -/
structure Par (K : Type) where
  shared : Shared K
  orderRng : Rng (Fl K)
  pc : Pc
  /-- iterations begun -/
  iter : Nat
  order : List Nat
  nextTask : Nat
  inFlight : Nat
  pending : List (Task K)

/-- Observable events of the driver. -/
inductive ParEvent | start | dispatch (i : Nat) | receive (i : Nat) | other
deriving DecidableEq, Repr

/-- One step of `run_scoped_search` with `nw` workers.  A spawned task whose execution panics never sends a result:
the driver keeps its own sender, so the channel stays open and `recv` waits. -/
inductive ParStep (o : SOptions K) (full : Dataset K) (nw : Nat) : Par K → ParEvent → Par K → Prop
  /-- the head of an iteration, search_utils.rs:520-525 -/
  | start {p : Par K} {order : List Nat} {rng : Rng (Fl K)} : p.pc = .idle → p.iter < o.niterations →
      shuffle (List.range p.shared.pops.length) p.orderRng = some (order, rng) →
      ParStep o full nw p .start
        { p with orderRng := rng, pc := .outer, iter := p.iter + 1, order, nextTask := 0, inFlight := 0 }
  /-- the outer loop is entered, search_utils.rs:527 -/
  | enter {p : Par K} : p.pc = .outer → (p.nextTask < p.order.length ∨ 0 < p.inFlight) →
      ParStep o full nw p .other { p with pc := .inner }
  /-- the outer loop ends -/
  | leave {p : Par K} : p.pc = .outer → ¬ (p.nextTask < p.order.length ∨ 0 < p.inFlight) →
      ParStep o full nw p .other { p with pc := .idle }
  /-- a task is spawned, search_utils.rs:528-547 -/
  | dispatch {p : Par K} {i : Nat} {t : Task K} {s : Shared K} : p.pc = .inner → p.inFlight < nw →
      p.order[p.nextTask]? = some i → p.shared.dispatch o i = some (some t, s) →
      ParStep o full nw p (.dispatch i)
        { p with shared := s, nextTask := p.nextTask + 1, inFlight := p.inFlight + 1, pending := p.pending ++ [t] }
  /-- a population that is not in the pool is passed over, search_utils.rs:532-534 -/
  | skip {p : Par K} {i : Nat} {s : Shared K} : p.pc = .inner → p.inFlight < nw →
      p.order[p.nextTask]? = some i → p.shared.dispatch o i = some (none, s) →
      ParStep o full nw p .other { p with nextTask := p.nextTask + 1 }
  /-- the result of any spawned task that finished is received and applied, search_utils.rs:549-559 -/
  | receive {p : Par K} {l r : List (Task K)} {t : Task K} {res : TaskResult K} {s : Shared K} : p.pc = .inner →
      ¬ (p.inFlight < nw ∧ p.nextTask < p.order.length) → p.pending = l ++ t :: r → t.run o full = some res →
      p.shared.apply o res = some s →
      ParStep o full nw p (.receive t.popIdx)
        { p with shared := s, pc := .outer, inFlight := p.inFlight - 1, pending := l ++ r }

/-- Runs with their events. -/
inductive ParRun (o : SOptions K) (full : Dataset K) (nw : Nat) : Par K → List ParEvent → Par K → Prop
  | refl (p : Par K) : ParRun o full nw p [] p
  | snoc {p q r : Par K} {tr : List ParEvent} {e : ParEvent} : ParRun o full nw p tr q → ParStep o full nw q e r →
      ParRun o full nw p (tr ++ [e]) r

/-- The search is over: the `for` loop has ended, search_utils.rs:520. -/
def Par.Final (o : SOptions K) (p : Par K) : Prop := p.pc = .idle ∧ o.niterations ≤ p.iter

/-- The driver thread itself panics in its next step (out-of-range index, or a panic while applying a result). -/
inductive Par.Crash (o : SOptions K) (full : Dataset K) (nw : Nat) : Par K → Prop
  | order {p : Par K} : p.pc = .idle → p.iter < o.niterations →
      shuffle (List.range p.shared.pops.length) p.orderRng = none → Par.Crash o full nw p
  | dispatch {p : Par K} {i : Nat} : p.pc = .inner → p.inFlight < nw → p.order[p.nextTask]? = some i →
      p.shared.dispatch o i = none → Par.Crash o full nw p
  | apply {p : Par K} {t : Task K} {res : TaskResult K} : p.pc = .inner →
      ¬ (p.inFlight < nw ∧ p.nextTask < p.order.length) → t ∈ p.pending → t.run o full = some res →
      p.shared.apply o res = none → Par.Crash o full nw p

/-- The number of workers, search_utils.rs:180-195 (`none`: the assertion), from the size of the Rayon pool and
whether the caller is one of its threads. -/
def nWorkers (poolThreads : Nat) (inPool : Bool) (populations : Nat) : Option Nat :=
  let usable := if inPool then poolThreads - 1 else poolThreads
  if 0 < usable then some (max (min usable populations) 1) else none

/-! ## Initialisation -/

/-- The state of the initialisation of one population, search_utils.rs:577-602. -/
structure InitState (K : Type) where
  members : List (Member K)
  ev : Evaluator K
  counters : Counters
  hall : Hall K

/-- One random member, search_utils.rs:588-601. -/
def initMember (o : SOptions K) (full : Dataset K) (st : InitState K) : Rand (Fl K) (InitState K) := do
  let e ← randomExprAppendOps normalT o.operators full.x.rows 3 o.maxsize
  let m ← Rand.lift (Member.fromExpr st.counters.nextId none st.counters.nextBirth e full.x.rows)
  let (m, _, ev) ← Rand.lift (m.evaluate o full st.ev)
  let hall ← Rand.lift (st.hall.consider o.cx o.maxsize m)
  pure ⟨st.members ++ [m], ev, st.counters.tick, hall⟩

/-- The members of one population, search_utils.rs:587-602. -/
def initMembers (o : SOptions K) (full : Dataset K) : Nat → InitState K → Rand (Fl K) (InitState K)
  | 0, st => pure st
  | k + 1, st => do
    let st ← initMember o full st
    initMembers o full k st

/-- Population `i`, search_utils.rs:578-612: `next_id` starts at `i << 32` (wrapping at 2^64). -/
def initPop (o : SOptions K) (full : Dataset K) (i : Nat) (rng : Rng (Fl K)) (hall : Hall K) :
    Option (PopState K × Hall K) :=
  (initMembers o full o.populationSize ⟨[], Evaluator.new full.x.cols, ⟨i * 2 ^ 32 % 2 ^ 64, 0⟩, hall⟩ rng).map
    fun (st, rng) => (⟨st.members, st.ev, DContext.new full.x.cols, rng, none, st.counters⟩, st.hall)

/-- All populations, search_utils.rs:577-613: `k` left, the next is number `i`; `seeds i` is the generator with seed
`seed + i`. -/
def initPops (o : SOptions K) (full : Dataset K) (seeds : Nat → Rng (Fl K)) : Nat → Nat → Hall K →
    Option (List (PopState K) × Hall K)
  | 0, _, hall => some ([], hall)
  | k + 1, i, hall => do
    let (ps, hall) ← initPop o full i (seeds i) hall
    let (rest, hall) ← initPops o full seeds k (i + 1) hall
    some (ps :: rest, hall)

/-- The loop choosing the first best member, search_utils.rs:615-630. -/
def initBestLoop (o : SOptions K) : List (Member K) → Option (Member K) → Option (Option (Member K))
  | [], best => some best
  | m :: ms, best => do
    let ok ← checkConstraints o.cx o.maxsize m.expr.nodes
    if !ok then initBestLoop o ms best
    else match best with
      | none => initBestLoop o ms (some m)
      | some b => initBestLoop o ms (some (if m.loss.lt b.loss then m else b))

/-- The initial best member, search_utils.rs:615-639: the fallback is the first member of the first population. -/
def initBest (o : SOptions K) (pops : List (PopState K)) : Option (Member K) := do
  match ← initBestLoop o (pops.flatMap (·.pop)) none with
  | some b => some b
  | none => (← pops.head?).pop.head?

/-- `init_populations`, search_utils.rs:564-653, with the counters, statistics and hall of fame of the callers
(search_utils.rs:164-176 and 247-260).  Simplified: `niterations * populations` does not overflow. -/
def Shared.init (o : SOptions K) (full : Dataset K) (seeds : Nat → Rng (Fl K)) : Option (Shared K) := do
  let (pops, hall) ← initPops o full seeds o.populations 0 (Hall.new o.maxsize)
  let best ← initBest o pops
  let bestSub ← pops.mapM fun ps => bestSubPop E.sort ps.pop o.topn
  some {
    counters := ⟨o.niterations * o.populations, 0, 0⟩
    stats := Stats.new E.R o.maxsize 100000
    hall
    pops := pops.map some
    bestSub
    best
    totalEvals := o.populations * o.populationSize }

/-- The data set with its baseline loss, search_utils.rs:157-162 and 242-246, 281-283. -/
def tagged (o : SOptions K) (d : Dataset K) : Option (Dataset K) :=
  if o.useBaseline then (baselineLoss o d).map fun b => { d with baseline := b } else some { d with baseline := none }

/-- `SearchEngine::new`, search_utils.rs:241-279, on the tagged data set. -/
def Engine.new (o : SOptions K) (full : Dataset K) (seeds : Nat → Rng (Fl K)) (orderRng : Rng (Fl K)) :
    Option (Engine K) :=
  (Shared.init o full seeds).map fun shared => ⟨shared, orderRng, 0, [], 0, false⟩

/-- The state in which `equation_search_parallel` enters `run_scoped_search`, search_utils.rs:149-211. -/
def Par.new (o : SOptions K) (full : Dataset K) (seeds : Nat → Rng (Fl K)) (orderRng : Rng (Fl K)) :
    Option (Par K) :=
  (Shared.init o full seeds).map fun shared => ⟨shared, orderRng, .idle, 0, [], 0, 0, []⟩

end SR
