import Verif.Model.Member
/-
Model of `symbolic_regression/src/constant_optimization.rs`.
Simplification: during one run of a minimiser the scratch memory (prediction vector, slot buffers) is not threaded
through the objective: every call starts from the scratch state at the start of the run.  `lossOnly_spec` and
`lossAndGrad_spec` (Proofs/ConstOpt.lean) show that the values do not depend on it.  A call that panics counts as
`None` here; the same theorems show that it does not panic.
-/
namespace SR
variable {K : Type} [Field K] [LinearOrder K] [E : Env K]

/-- `EvalWorkspace::loss_only`, constant_optimization.rs:45-75: the loss (`to_f64` is exact) or `None`, and the
evaluator; the outer `none` is a panic. -/
def lossOnly (o : SOptions K) (d : Dataset K) (plan : EvalPlan) (e : PostfixExpr (Fl K)) (ev : Evaluator K) :
    Option (Option (Fl K) × Evaluator K) := do
  let (yhat, ok, scratch) ← evalPlanArrayInto E.ops ev.yhat plan e.consts d.x ev.scratch strictOpts
  if !ok then some (none, ⟨yhat, scratch⟩)
  else
    let loss ← o.loss.loss E.RT E.lossLib yhat d.y d.weights
    some (if loss.isFinite then some loss else none, ⟨yhat, scratch⟩)

/-- The gradient loop, constant_optimization.rs:117-129 (`none`: slice out of range). -/
def gradOut (nRows : Nat) (dl dydc : List (Fl K)) : List Nat → Option (List (Fl K))
  | [] => some []
  | ci :: cs => do
    let col ← slice? dydc (ci * nRows) nRows
    let rest ← gradOut nRows dl dydc cs
    some ((List.zipWith E.RT.mul dl col).foldl E.RT.add (.fin 0) :: rest)

/-- `EvalWorkspace::loss_and_grad`, constant_optimization.rs:77-132. -/
def lossAndGrad (o : SOptions K) (d : Dataset K) (e : PostfixExpr (Fl K)) (ctx : DContext (Fl K)) :
    Option (Option (Fl K × List (Fl K)) × DContext (Fl K)) := do
  let (yhat, dydc, ok, ctx') ← evalGradTreeArray E.ops E.hash E.D e d.x false ctx strictOpts
  if !ok then some (none, ctx')
  else if yhat.any (fun v => !v.isFinite) then some (none, ctx')
  else
    let loss ← o.loss.loss E.RT E.lossLib yhat d.y d.weights
    if !loss.isFinite then some (none, ctx')
    else
      let dl ← o.loss.dloss E.RT E.lossLib yhat d.y d.weights
      let g ← gradOut d.x.cols dl dydc (List.range e.consts.length)
      some (some (loss, g), ctx')

/-- Overwriting the constants, constant_optimization.rs:173-175, 181-183, 269-271. -/
def PostfixExpr.withConsts (e : PostfixExpr (Fl K)) (x : List (Fl K)) : PostfixExpr (Fl K) :=
  { e with consts := x.map toT }

/-- `ConstObjective`, constant_optimization.rs:160-186 (`zip_eq` panics on a point of the wrong dimension). -/
def constObjective (o : SOptions K) (d : Dataset K) (plan : EvalPlan) (e : PostfixExpr (Fl K)) (ev : Evaluator K)
    (ctx : DContext (Fl K)) : Objective K where
  fOnly x := if x.length = e.consts.length then (lossOnly o d plan (e.withConsts x) ev).bind Prod.fst else none
  fg x := if x.length = e.consts.length then (lossAndGrad o d (e.withConsts x) ctx).bind Prod.fst else none

/-- The options passed to the minimisers, constant_optimization.rs:230-235. -/
def optimOptions (o : SOptions K) : OptimOptions K :=
  ⟨o.optimizerIterations, o.optimizerFCallsLimit, o.gAbstol⟩

/-- The result of the minimiser chosen by the number of constants, constant_optimization.rs:152-156. -/
def runMinimiser (o : SOptions K) (obj : Objective K) (start : List (Fl K)) : Res (OptimResult K) :=
  if start.length = 1 then (newtonMinimize E.R (start.headD (.fin 0)) obj (optimOptions o) o.lineSearch 0).1
  else (bfgsMinimize E.R start obj (optimOptions o) o.lineSearch 0).1

/-- The gradient context after a run of the minimiser from `start`: it has evaluated the gradient of this expression
(unless the one dimensional minimiser was allowed no iteration). -/
def ctxAfter (o : SOptions K) (d : Dataset K) (e : PostfixExpr (Fl K)) (start : List (Fl K)) (ctx : DContext (Fl K)) :
    DContext (Fl K) :=
  if start.length = 1 ∧ o.optimizerIterations = 0 then ctx
  else match lossAndGrad o d (e.withConsts start) ctx with
    | some (_, ctx') => ctx'
    | none => ctx

/-- The locals of `optimize_constants`: the best value and point, and the evaluation count. -/
structure BestPoint (K : Type) where
  f : Fl K
  x : List (Fl K)
  evals : Nat

/-- Taking a minimiser's result into account, constant_optimization.rs:241-247, 259-265. -/
def BestPoint.take (b : BestPoint K) : Option (OptimResult K) → BestPoint K
  | none => b
  | some r =>
    let b := { b with evals := satAdd b.evals r.fCalls }
    if r.minimum.lt b.f then { b with f := r.minimum, x := r.minimizer } else b

/-- One run of the minimiser (`optimize_from_start`, constant_optimization.rs:134-157): the best point and the
context after it; a panic of the minimiser is a panic. -/
def optimizeFromStart (o : SOptions K) (d : Dataset K) (plan : EvalPlan) (e : PostfixExpr (Fl K)) (ev : Evaluator K)
    (start : List (Fl K)) (b : BestPoint K) (ctx : DContext (Fl K)) : Option (BestPoint K × DContext (Fl K)) :=
  match runMinimiser o (constObjective o d plan e ev ctx) start with
  | .panic => none
  | .fail => some (b, ctxAfter o d e start ctx)
  | .ok r => some (b.take (some r), ctxAfter o d e start ctx)

/-- A perturbed starting point, constant_optimization.rs:252-256. -/
def perturb : List (Fl K) → Rand (Fl K) (List (Fl K))
  | [] => pure []
  | v :: vs => do
    let u1 ← Rand.float
    let u2 ← Rand.float
    let rest ← perturb vs
    pure (E.R.mul v (E.R.add (.fin 1) (E.R.mul (E.R.rnd (1 / 2)) (E.normal u1 u2))) :: rest)

/-- The restarts, constant_optimization.rs:251-266. -/
def restarts (o : SOptions K) (d : Dataset K) (plan : EvalPlan) (e : PostfixExpr (Fl K)) (ev : Evaluator K)
    (x0 : List (Fl K)) : Nat → BestPoint K → DContext (Fl K) → Rand (Fl K) (BestPoint K × DContext (Fl K))
  | 0, b, ctx => pure (b, ctx)
  | n + 1, b, ctx => do
    let xt ← perturb x0
    let (b, ctx) ← Rand.lift (optimizeFromStart o d plan e ev xt b ctx)
    restarts o d plan e ev x0 n b ctx

/-- What `optimize_constants` changes and returns. -/
structure OptOut (K : Type) where
  member : Member K
  improved : Bool
  evals : Nat
  ev : Evaluator K
  ctx : DContext (Fl K)
  nextBirth : Nat

/-- Restoring the member after a failed evaluation, constant_optimization.rs:273-279. -/
def restored (m m' : Member K) : Member K :=
  { m' with
    expr := { m'.expr with consts := m.expr.consts }
    birth := m.birth
    loss := m.loss
    cost := m.cost }

/-- The end of `optimize_constants`, constant_optimization.rs:268-290. -/
def finishOptimize (o : SOptions K) (d : Dataset K) (m : Member K) (baseline : Fl K) (ev : Evaluator K)
    (ctx : DContext (Fl K)) (nextBirth : Nat) (b : BestPoint K) : Option (OptOut K) :=
  if b.f.lt baseline then do
    let (m', ok, ev') ← ({ m with expr := m.expr.withConsts b.x }).evaluate o d ev
    if !ok then some ⟨restored m m', false, b.evals, ev', ctx, nextBirth⟩
    else some ⟨{ m' with birth := nextBirth }, true, satAdd b.evals 1, ev', ctx, nextBirth + 1⟩
  else some ⟨m, false, b.evals, ev, ctx, nextBirth⟩

/-- `optimize_constants`, constant_optimization.rs:188-291.  The count of evaluations is a natural number (it is
converted to `f64` at the end). -/
def optimizeConstants (o : SOptions K) (d : Dataset K) (ev : Evaluator K) (ctx : DContext (Fl K)) (nextBirth : Nat)
    (m : Member K) : Rand (Fl K) (OptOut K) :=
  if !o.shouldOptimizeConstants then pure ⟨m, false, 0, ev, ctx, nextBirth⟩
  else if m.expr.consts.isEmpty then pure ⟨m, false, 0, ev, ctx, nextBirth⟩
  else do
    let (base, ev) ← Rand.lift (lossOnly o d m.plan m.expr ev)
    match base with
    | none => pure ⟨m, false, 0, ev, ctx, nextBirth⟩
    | some baseline =>
      let x0 := m.expr.consts
      let (b, ctx) ← Rand.lift (optimizeFromStart o d m.plan m.expr ev x0 ⟨baseline, x0, 0⟩ ctx)
      let (b, ctx) ← restarts o d m.plan m.expr ev x0 o.optimizerNRestarts b ctx
      Rand.lift (finishOptimize o d m baseline ev ctx nextBirth b)

end SR
