import Verif.Model.ConstOpt
import Verif.Model.Mutation
/-
Model of `symbolic_regression/src/mutate.rs`, `regularized_evolution.rs` and `single_iteration.rs`.
Counts of evaluations are natural numbers (the code adds them up as `f64`).  The `f64` conversions of costs are exact.
-/
namespace SR
variable {K : Type} [Field K] [LinearOrder K] [E : Env K]

/-- `MutationChoice`, mutate.rs:21-35. -/
inductive Mutation where
  | mutateConstant | mutateOperator | mutateFeature | swapOperands | rotateTree | addNode | insertNode | deleteNode
  | simplify | randomize | doNothing | optimize
deriving DecidableEq, Repr

/-- `count_constants`, mutate.rs:61-63. -/
def countConstants (nodes : List PNode) : Nat := (nodes.filter PNode.isConst).length

/-- `has_binary_op`, mutate.rs:65-67. -/
def hasBinaryOp (nodes : List PNode) : Bool := nodes.any PNode.isBinary

/-- The leaf branch of `condition_mutation_weights`, mutate.rs:81-92. -/
def MutWeights.leaf (w : MutWeights K) (noConsts : Bool) : MutWeights K :=
  let w := { w with mutateOperator := .fin 0, swapOperands := .fin 0, deleteNode := .fin 0, simplify := .fin 0 }
  if noConsts then { w with optimize := .fin 0, mutateConstant := .fin 0 } else { w with mutateFeature := .fin 0 }

/-- Setting one weight to zero under a condition. -/
def zeroIf (c : Bool) (v : Fl K) : Fl K := if c then .fin 0 else v

/-- `condition_mutation_weights`, mutate.rs:69-119. -/
def conditionWeights (o : SOptions K) (m : Member K) (cur nFeatures : Nat) (w : MutWeights K) : MutWeights K :=
  if m.expr.nodes.all PNode.isLeafNode then w.leaf m.expr.consts.isEmpty
  else
    { w with
      swapOperands := zeroIf (!hasBinaryOp m.expr.nodes) w.swapOperands
      mutateConstant := E.R.mul w.mutateConstant
        (E.R.div (E.R.ofNat (min (countConstants m.expr.nodes) 8)) (E.R.ofNat 8))
      mutateFeature := zeroIf (nFeatures ≤ 1) w.mutateFeature
      addNode := zeroIf (cur ≤ m.complexity) w.addNode
      insertNode := zeroIf (cur ≤ m.complexity) w.insertNode
      simplify := zeroIf (!o.shouldSimplify) w.simplify
      optimize := zeroIf (!o.shouldOptimizeConstants || o.optimizerProbability.feq (.fin 0) || m.expr.consts.isEmpty)
        w.optimize }

/-- The table of `sample_mutation`, mutate.rs:122-135. -/
def MutWeights.choices (w : MutWeights K) : List (Mutation × Fl K) :=
  [(.mutateConstant, w.mutateConstant), (.mutateOperator, w.mutateOperator), (.mutateFeature, w.mutateFeature),
   (.swapOperands, w.swapOperands), (.rotateTree, w.rotateTree), (.addNode, w.addNode), (.insertNode, w.insertNode),
   (.deleteNode, w.deleteNode), (.simplify, w.simplify), (.randomize, w.randomize), (.doNothing, w.doNothing),
   (.optimize, w.optimize)]

/-- `sample_mutation`, mutate.rs:121-139. -/
def sampleMutation (w : MutWeights K) : Rand (Fl K) Mutation := do
  let i ← weightedIndex E.R (w.choices.map Prod.snd)
  let c ← Rand.lift w.choices[i]?
  pure c.1

/-- `MutationOutcome`, mutate.rs:141-146, and the evaluator. -/
structure MutOutcome (K : Type) where
  expr : PostfixExpr (Fl K)
  mutated : Bool
  evals : Nat
  immediate : Bool
  ev : Evaluator K

/-- `standard_normal` converted to the scalar type, random.rs:15-19 and mutation_functions.rs:18-20. -/
def normalT (u1 u2 : Fl K) : Fl K := toT (E.normal u1 u2)

/-- The outcome of a mutation that does not evaluate anything. -/
def MutOutcome.plain (ev : Evaluator K) (r : PostfixExpr (Fl K) × Bool) : MutOutcome K := ⟨r.1, r.2, 0, false, ev⟩

/-- The member handed to `optimize_constants` by the optimisation mutation, mutate.rs:257-266. -/
def optimizeTmp (m : Member K) (fresh : Member K) : Member K :=
  { fresh with plan := m.plan, complexity := m.complexity, loss := m.loss, cost := m.cost }

/-- `MutationChoice::apply`, mutate.rs:160-290. -/
def Mutation.apply (o : SOptions K) (d : Dataset K) (cur : Nat) (temperature : Fl K) (m : Member K)
    (ev : Evaluator K) : Mutation → Rand (Fl K) (MutOutcome K)
  | .mutateConstant => do
    let r ← SR.mutateConstant E.arith toT E.RT.mul o.perturbationFactor temperature o.probNegate m.expr
    pure (.plain ev r)
  | .mutateOperator => do
    let r ← SR.mutateOperator o.operators m.expr
    pure (.plain ev r)
  | .mutateFeature => do
    let r ← SR.mutateFeature d.x.rows m.expr
    pure (.plain ev r)
  | .swapOperands => do
    let r ← SR.swapOperands m.expr
    pure (.plain ev r)
  | .rotateTree => do
    let r ← SR.rotateTree m.expr
    pure (.plain ev r)
  | .addNode => do
    let r ← SR.addNode normalT o.operators d.x.rows m.expr
    pure (.plain ev r)
  | .insertNode => do
    let r ← insertRandomOp normalT o.operators d.x.rows m.expr
    pure (.plain ev r)
  | .deleteNode => do
    let r ← deleteRandomOp m.expr
    pure (.plain ev r)
  | .simplify => do
    let r ← Rand.lift (simplifyInPlace E.ops E.cfg E.D strictOpts m.expr)
    pure ⟨r.1, true, 0, true, ev⟩
  | .randomize => do
    let target ← usizeRangeInclusive 1 (min (max cur 1) (max o.maxsize 1))
    let e ← randomExpr normalT o.operators d.x.rows target
    pure (.plain ev (e, true))
  | .doNothing => pure (.plain ev (m.expr, true))
  | .optimize => do
    let fresh ← Rand.lift (Member.fromExpr 0 none 0 m.expr d.x.rows)
    let r ← optimizeConstants o d ev (DContext.new d.x.cols) 0 (optimizeTmp m fresh)
    pure ⟨r.member.expr, true, r.evals, false, r.ev⟩

/-- What the attempt loop of `next_generation` produces: the accepted expression with its `return_immediately` flag
(if any), the evaluations and the evaluator. -/
structure Attempt (K : Type) where
  found : Option (PostfixExpr (Fl K) × Bool)
  evals : Nat
  ev : Evaluator K

/-- The attempt loop, mutate.rs:325-353, with `k` attempts left. -/
def attemptLoop (o : SOptions K) (d : Dataset K) (cur : Nat) (temperature : Fl K) (m : Member K) (choice : Mutation) :
    Nat → Nat → Evaluator K → Rand (Fl K) (Attempt K)
  | 0, evals, ev => pure ⟨none, evals, ev⟩
  | k + 1, evals, ev => do
    let r ← choice.apply o d cur temperature m ev
    let evals := evals + r.evals
    if !r.mutated then attemptLoop o d cur temperature m choice k evals r.ev
    else
      let (tree, _) ← Rand.lift (compressConstants r.expr)
      let ok ← Rand.lift (checkConstraints o.cx cur tree.nodes)
      if ok then pure ⟨some (tree, r.immediate), evals, r.ev⟩
      else attemptLoop o d cur temperature m choice k evals r.ev

/-- What `next_generation` returns and changes. -/
structure GenOut (K : Type) where
  baby : Member K
  accepted : Bool
  evals : Nat
  ev : Evaluator K
  counters : Counters

/-- `next_id += 1; next_birth += 1`. -/
def Counters.tick (c : Counters) : Counters := ⟨c.nextId + 1, c.nextBirth + 1⟩

/-- The copy of the parent returned when a mutation fails or is rejected, mutate.rs:360-366, 389-395, 418-424. -/
def parentCopy (d : Dataset K) (c : Counters) (m : Member K) : Option (Member K) :=
  (Member.fromExpr c.nextId (some m.id) c.nextBirth m.expr d.x.rows).map fun b =>
    { b with complexity := m.complexity, loss := m.loss, cost := m.cost }

/-- The child of a simplification, mutate.rs:368-381. -/
def simplifiedChild (o : SOptions K) (d : Dataset K) (c : Counters) (m : Member K) (tree : PostfixExpr (Fl K)) :
    Option (Member K) := do
  let b ← Member.fromExpr c.nextId (some m.id) c.nextBirth tree d.x.rows
  let b ← b.rebuildPlan d.x.rows
  let complexity ← computeComplexity o.cx b.expr.nodes
  some { b with
    loss := m.loss
    complexity
    cost := lossToCost E.RT m.loss complexity o.parsimony o.useBaseline d.baseline }

/-- The frequency of a complexity used in the acceptance test, mutate.rs:403-414. -/
def sizeFreq (o : SOptions K) (s : Stats K) (size : Nat) : Fl K :=
  if 0 < size ∧ size ≤ o.maxsize then s.freq E.R size else E.R.rnd (1 / 1000000)

/-- The acceptance probability, mutate.rs:397-416. -/
def acceptProb (o : SOptions K) (s : Stats K) (temperature : Fl K) (m baby : Member K) : Fl K :=
  let prob : Fl K := .fin 1
  let prob := if o.annealing then
      E.R.mul prob (E.libm.exp (E.R.div (E.R.sub baby.cost m.cost).neg (E.R.mul temperature o.alpha)))
    else prob
  if o.useFrequency then E.R.mul prob (E.R.div (sizeFreq o s m.complexity) (sizeFreq o s baby.complexity)) else prob

/-- The part of `next_generation` after the kind of mutation has been drawn, mutate.rs:325-427. -/
def generationWith (o : SOptions K) (d : Dataset K) (cur : Nat) (temperature : Fl K) (s : Stats K) (ev : Evaluator K)
    (c : Counters) (m : Member K) (choice : Mutation) : Rand (Fl K) (GenOut K) := do
  let a ← attemptLoop o d cur temperature m choice 10 0 ev
  match a.found with
  | none =>
    let baby ← Rand.lift (parentCopy d c m)
    pure ⟨baby, false, 0, a.ev, c.tick⟩
  | some (tree, true) =>
    let baby ← Rand.lift (simplifiedChild o d c m tree)
    pure ⟨baby, true, 0, a.ev, c.tick⟩
  | some (tree, false) =>
    let baby ← Rand.lift (Member.fromExpr c.nextId (some m.id) c.nextBirth tree d.x.rows)
    let (baby, ok, ev) ← Rand.lift (baby.evaluate o d a.ev)
    if !ok || !baby.cost.isFinite then
      let baby ← Rand.lift (parentCopy d c m)
      pure ⟨baby, false, 0, ev, c.tick⟩
    else
      let u ← Rand.float
      if (acceptProb o s temperature m baby).lt u then
        let baby ← Rand.lift (parentCopy d c m)
        pure ⟨baby, false, a.evals + 1, ev, c.tick⟩
      else pure ⟨baby, true, a.evals + 1, ev, c.tick⟩

/-- `next_generation`, mutate.rs:293-427. -/
def nextGeneration (o : SOptions K) (d : Dataset K) (cur : Nat) (temperature : Fl K) (s : Stats K) (ev : Evaluator K)
    (c : Counters) (m : Member K) : Rand (Fl K) (GenOut K) := do
  let choice ← sampleMutation (conditionWeights o m cur d.x.rows o.weights)
  generationWith o d cur temperature s ev c m choice

/-- What `crossover_generation` returns and changes. -/
structure CrossOut (K : Type) where
  baby1 : Member K
  baby2 : Member K
  accepted : Bool
  evals : Nat
  ev : Evaluator K
  counters : Counters

/-- The children of a crossover, mutate.rs:453-468. -/
def crossBabies (o : SOptions K) (d : Dataset K) (ev : Evaluator K) (c : Counters) (m1 m2 : Member K)
    (e1 e2 : PostfixExpr (Fl K)) : Option (CrossOut K) := do
  let b1 ← Member.fromExpr c.nextId (some m1.id) c.nextBirth e1 d.x.rows
  let b2 ← Member.fromExpr (c.nextId + 1) (some m2.id) (c.nextBirth + 1) e2 d.x.rows
  let (b1, _, ev) ← b1.evaluate o d ev
  let (b2, _, ev) ← b2.evaluate o d ev
  some ⟨b1, b2, true, 2, ev, c.tick.tick⟩

/-- The loop of `crossover_generation`, mutate.rs:448-474, with `k` tries left (after the last the parents are
returned). -/
def crossLoop (o : SOptions K) (d : Dataset K) (cur : Nat) (ev : Evaluator K) (c : Counters) (m1 m2 : Member K) :
    Nat → Rand (Fl K) (CrossOut K)
  | 0 => pure ⟨m1, m2, false, 0, ev, c⟩
  | k + 1 => do
    let (e1, e2) ← crossoverTrees m1.expr m2.expr
    let ok1 ← Rand.lift (checkConstraints o.cx cur e1.nodes)
    let ok2 ← if ok1 then Rand.lift (checkConstraints o.cx cur e2.nodes) else pure false
    if ok2 then Rand.lift (crossBabies o d ev c m1 m2 e1 e2) else crossLoop o d cur ev c m1 m2 k

/-- `crossover_generation`, mutate.rs:429-475. -/
def crossoverGeneration (o : SOptions K) (d : Dataset K) (cur : Nat) (ev : Evaluator K) (c : Counters)
    (m1 m2 : Member K) : Rand (Fl K) (CrossOut K) := crossLoop o d cur ev c m1 m2 10

/-- The state threaded through evolution: population, evaluator, counters, evaluations so far. -/
structure EvolState (K : Type) where
  pop : Population K
  ev : Evaluator K
  counters : Counters
  evals : Nat

/-- The mutation branch, regularized_evolution.rs:37-58. -/
def mutationStep (o : SOptions K) (d : Dataset K) (cur : Nat) (temperature : Fl K) (s : Stats K) (st : EvolState K) :
    Rand (Fl K) (EvolState K) := do
  let allstar ← bestOfSample E.R E.sort E.libm E.fuel o.tour s st.pop
  let r ← nextGeneration o d cur temperature s st.ev st.counters allstar
  let st : EvolState K := { st with ev := r.ev, counters := r.counters, evals := st.evals + r.evals }
  if !r.accepted && o.skipMutationFailures then pure st
  else
    let pop ← Rand.lift (replaceOldest st.pop r.baby)
    pure { st with pop }

/-- The crossover branch, regularized_evolution.rs:59-80. -/
def crossoverStep (o : SOptions K) (d : Dataset K) (cur : Nat) (s : Stats K) (st : EvolState K) :
    Rand (Fl K) (EvolState K) := do
  let a1 ← bestOfSample E.R E.sort E.libm E.fuel o.tour s st.pop
  let a2 ← bestOfSample E.R E.sort E.libm E.fuel o.tour s st.pop
  let r ← crossoverGeneration o d cur st.ev st.counters a1 a2
  let st : EvolState K := { st with ev := r.ev, counters := r.counters, evals := st.evals + r.evals }
  if !r.accepted && o.skipMutationFailures then pure st
  else
    let pop ← Rand.lift (replaceTwoOldest st.pop r.baby1 r.baby2)
    pure { st with pop }

/-- One pass of the loop of `reg_evol_cycle`, regularized_evolution.rs:35-81. -/
def evolStep (o : SOptions K) (d : Dataset K) (cur : Nat) (temperature : Fl K) (s : Stats K) (st : EvolState K) :
    Rand (Fl K) (EvolState K) := do
  let u ← Rand.float
  if o.crossoverProbability.lt u then mutationStep o d cur temperature s st
  else crossoverStep o d cur s st

/-- `k` passes. -/
def evolLoop (o : SOptions K) (d : Dataset K) (cur : Nat) (temperature : Fl K) (s : Stats K) :
    Nat → EvolState K → Rand (Fl K) (EvolState K)
  | 0, st => pure st
  | k + 1, st => do
    let st ← evolStep o d cur temperature s st
    evolLoop o d cur temperature s k st

/-- The number of passes, regularized_evolution.rs:33: `ceil(len / n)` (with `n = 0` the quotient is `inf` or `NaN`,
which the cast turns into the largest `usize` or 0).  Simplified: the `f64` quotient is exact (both numbers are far
below 2^53). -/
def nEvolCycles (len n : Nat) : Nat :=
  if n = 0 then (if len = 0 then 0 else usizeMax) else (len + n - 1) / n

/-- `reg_evol_cycle`, regularized_evolution.rs:27-84. -/
def regEvolCycle (o : SOptions K) (d : Dataset K) (cur : Nat) (temperature : Fl K) (s : Stats K) (st : EvolState K) :
    Rand (Fl K) (EvolState K) :=
  evolLoop o d cur temperature s (nEvolCycles st.pop.length o.tour.n) st

/-- The temperature of cycle `i` of `n`, single_iteration.rs:45-50. -/
def temperatureAt (o : SOptions K) (n i : Nat) : Fl K :=
  let maxTemp : Fl K := .fin 1
  let minTemp : Fl K := if o.annealing then .fin 0 else .fin 1
  if n ≤ 1 then maxTemp
  else E.R.add maxTemp (E.R.mul (E.R.div (E.R.ofNat i) (E.R.ofNat (n - 1))) (E.R.sub minTemp maxTemp))

/-- The loop of `s_r_cycle`, single_iteration.rs:44-68: `k` of `n` cycles left, the next is number `n - k`. -/
def srLoop (o : SOptions K) (d : Dataset K) (cur : Nat) (s : Stats K) (n : Nat) :
    Nat → EvolState K → Hall K → Rand (Fl K) (EvolState K × Hall K)
  | 0, st, best => pure (st, best)
  | k + 1, st, best => do
    let st ← regEvolCycle o d cur (temperatureAt o n (n - (k + 1))) s st
    let best ← Rand.lift (best.update o.cx cur st.pop)
    srLoop o d cur s n k st best

/-- `s_r_cycle`, single_iteration.rs:28-70. -/
def srCycle (o : SOptions K) (d : Dataset K) (cur : Nat) (s : Stats K) (st : EvolState K) :
    Rand (Fl K) (EvolState K × Hall K) := do
  let n := max o.ncyclesPerIteration 1
  let best ← Rand.lift ((Hall.new o.maxsize).update o.cx cur st.pop)
  srLoop o d cur s n n st best

/-- Simplification of one member, single_iteration.rs:85-90. -/
def simplifyMember (nFeatures : Nat) (m : Member K) : Option (Member K) := do
  let (e, changed) ← simplifyInPlace E.ops E.cfg E.D strictOpts m.expr
  let m : Member K := { m with expr := e }
  if changed then m.rebuildPlan nFeatures else some m

/-- The state of the optimisation loop, single_iteration.rs:97-112. -/
structure OptState (K : Type) where
  ev : Evaluator K
  ctx : DContext (Fl K)
  nextBirth : Nat
  evals : Nat

/-- The optimisation loop, single_iteration.rs:97-112. -/
def optimizeAll (o : SOptions K) (d : Dataset K) : Population K → OptState K → Rand (Fl K) (Population K × OptState K)
  | [], st => pure ([], st)
  | m :: ms, st => do
    let u ← Rand.float
    if u.lt o.optimizerProbability then
      let r ← optimizeConstants o d st.ev st.ctx st.nextBirth m
      let (rest, st) ← optimizeAll o d ms ⟨r.ev, r.ctx, r.nextBirth, st.evals + r.evals⟩
      pure (r.member :: rest, st)
    else
      let (rest, st) ← optimizeAll o d ms st
      pure (m :: rest, st)

/-- The final evaluation loop, single_iteration.rs:115-118. -/
def evaluateAll (o : SOptions K) (d : Dataset K) : Population K → Evaluator K → Option (Population K × Evaluator K)
  | [], ev => some ([], ev)
  | m :: ms, ev => do
    let (m, _, ev) ← m.evaluate o d ev
    let (rest, ev) ← evaluateAll o d ms ev
    some (m :: rest, ev)

/-- The optimisation phase, single_iteration.rs:93-113; the gradient context is resized by assigning its row count. -/
def optimizePhase (o : SOptions K) (dOpt : Dataset K) (ctx : DContext (Fl K)) (st : EvolState K) :
    Rand (Fl K) (EvolState K × DContext (Fl K)) :=
  if o.shouldOptimizeConstants && Fl.lt (.fin 0) o.optimizerProbability then do
    let (pop, r) ← optimizeAll o dOpt st.pop
      ⟨st.ev.ensure dOpt.x.cols, { ctx with nRows := dOpt.x.cols }, st.counters.nextBirth, st.evals⟩
    pure (⟨pop, r.ev, ⟨st.counters.nextId, r.nextBirth⟩, r.evals⟩, r.ctx)
  else pure (st, ctx)

/-- `optimize_and_simplify_population`, single_iteration.rs:72-120 (`dOpt` is `opt_dataset`, `full` the full data
set). -/
def optimizeAndSimplify (o : SOptions K) (full dOpt : Dataset K) (ctx : DContext (Fl K)) (st : EvolState K) :
    Rand (Fl K) (EvolState K × DContext (Fl K)) := do
  let pop ← Rand.lift (if o.shouldSimplify then st.pop.mapM (simplifyMember full.x.rows) else some st.pop)
  let (st, ctx) ← optimizePhase o dOpt ctx { st with pop }
  let (pop, ev) ← Rand.lift (evaluateAll o full st.pop (st.ev.ensure full.x.cols))
  pure ({ st with pop, ev, evals := st.evals + pop.length }, ctx)

end SR
