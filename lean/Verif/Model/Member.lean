import Verif.Model.Population
import Verif.Model.Simplify
import Verif.Model.Deriv
import Verif.Model.Loss
import Verif.Model.Optim
/-
Model of `symbolic_regression/src/pop_member.rs`, `dataset.rs` and of the part of `options.rs` used by the search.
-/
namespace SR

/-- Everything the search code is generic over or calls from outside this repository: the arithmetic of the scalar
type `T` (`RT`) and of `f64` (`R`), the mathematical library, the operator set, the hash of the evaluation plans, the
sort of the standard library, and the bound `fuel` on the number of passes of rejection loops (Model/Random.lean).
`normal` is `standard_normal` (random.rs:15-19) of its two draws, as an `f64`. -/
class Env (K : Type) [Field K] [LinearOrder K] where
  RT : Rounding K
  R : Rounding K
  lossLib : LossLib K
  libm : Libm K
  ops : OpSet (Fl K)
  /-- the const generic `D` -/
  D : Nat
  hash : List PNode → UInt64
  /-- the ids of `+`, `*` and `-` in the operator set, simplify.rs:490-501 -/
  cfg : CombineCfg
  sort : SortBy
  normal : Fl K → Fl K → Fl K
  arith : FArith (Fl K)
  /-- candidates of the PTRS loop, Model/Random.lean -/
  ptrs : Fl K → Fl K → Fl K → Option Nat
  fuel : Nat
  /-- the arithmetic of `f32` (used by the warm-up schedule) -/
  R32 : Rounding K
  /-- `x.floor() as usize` -/
  floorUsize : Fl K → Nat

variable {K : Type} [Field K] [LinearOrder K]

/-- The scalar type `T` of the search: floats rounded by `R`. -/
@[reducible] def flScalar (R : Rounding K) : SubScalar (Fl K) where
  zero := .fin 0
  one := .fin 1
  nan := .nan
  add := R.add
  mul := R.mul
  isFinite := Fl.isFinite
  isZero x := x.feq (.fin 0)
  sub := R.sub

instance instFlScalar [E : Env K] : SubScalar (Fl K) := flScalar E.RT

/-- `T::from_f64` / `T::from`: rounding to the scalar type (it never fails for `f32` and `f64`). -/
def toT [E : Env K] : Fl K → Fl K
  | .fin x => E.RT.rnd x
  | v => v

/-- `MutationWeights`, options.rs. -/
structure MutWeights (K : Type) where
  mutateConstant : Fl K
  mutateOperator : Fl K
  mutateFeature : Fl K
  swapOperands : Fl K
  rotateTree : Fl K
  addNode : Fl K
  insertNode : Fl K
  deleteNode : Fl K
  simplify : Fl K
  randomize : Fl K
  doNothing : Fl K
  optimize : Fl K

/-- The part of `Options` used by the search, options.rs:30-150.  `parsimony` is already converted to `T`; `f32`
options are `f64` values. -/
structure SOptions (K : Type) where
  cx : CxOptions
  operators : Operators
  loss : LossKind K
  weights : MutWeights K
  maxsize : Nat
  parsimony : Fl K
  useBaseline : Bool
  tour : TourOptions K
  crossoverProbability : Fl K
  perturbationFactor : Fl K
  probNegate : Fl K
  alpha : Fl K
  annealing : Bool
  useFrequency : Bool
  skipMutationFailures : Bool
  shouldSimplify : Bool
  shouldOptimizeConstants : Bool
  optimizerProbability : Fl K
  optimizerNRestarts : Nat
  optimizerIterations : Nat
  optimizerFCallsLimit : Nat
  lineSearch : BackTracking K
  gAbstol : Fl K
  ncyclesPerIteration : Nat
  niterations : Nat
  populations : Nat
  populationSize : Nat
  batching : Bool
  batchSize : Nat
  migration : Bool
  hofMigration : Bool
  fractionReplaced : Fl K
  fractionReplacedHof : Fl K
  topn : Nat
  warmupMaxsizeBy : Fl K

/-- `TaggedDataset`, dataset.rs:9-13 with the `Dataset` it points to (21-35; `variable_names` and `avg_y` are not
used by the search): `n_features = x.rows`, `n_rows = x.cols`. -/
structure Dataset (K : Type) where
  x : Mat (Fl K)
  y : List (Fl K)
  weights : Option (List (Fl K))
  baseline : Option (Fl K)

/-- The assertions of `build_dataset`, dataset.rs:45-48. -/
structure Dataset.WF (d : Dataset K) : Prop where
  y : d.y.length = d.x.cols
  w : ∀ w, d.weights = some w → w.length = d.x.cols

/-- `Evaluator`, pop_member.rs:40-44; `eval_opts` is the constant of :49-52. -/
structure Evaluator (K : Type) where
  yhat : List (Fl K)
  scratch : Buf (Fl K)

/-- `EvalOptions { check_finite: true, early_exit: true }`, pop_member.rs:49-52, constant_optimization.rs:30-33. -/
def strictOpts : EvalOptions := ⟨true, true⟩

/-- `Evaluator::new`, pop_member.rs:47-56. -/
def Evaluator.new [Env K] (nRows : Nat) : Evaluator K := ⟨List.replicate nRows (.fin 0), Buf.zeros 0 0⟩

/-- `Evaluator::ensure_n_rows`, pop_member.rs:58-62 (`Vec::resize` truncates or pads with zeros). -/
def Evaluator.ensure (ev : Evaluator K) (nRows : Nat) : Evaluator K :=
  if ev.yhat.length ≠ nRows then
    { ev with yhat := ev.yhat.take nRows ++ List.replicate (nRows - ev.yhat.length) (.fin 0) }
  else ev

variable [E : Env K]

/-- `PopMember::from_expr`, pop_member.rs:69-89 (`none`: panic in `compile_plan`). -/
def Member.fromExpr (id : Nat) (parent : Option Nat) (birth : Nat) (expr : PostfixExpr (Fl K)) (nFeatures : Nat) :
    Option (Member K) :=
  (compilePlan E.hash E.D expr.nodes nFeatures expr.consts.length).map fun plan =>
    { id, parent, birth, expr, plan, complexity := 0, loss := .pinf, cost := .pinf }

/-- `PopMember::rebuild_plan`, pop_member.rs:91-93. -/
def Member.rebuildPlan (m : Member K) (nFeatures : Nat) : Option (Member K) :=
  (compilePlan E.hash E.D m.expr.nodes nFeatures m.expr.consts.length).map fun plan => { m with plan }

/-- The member fields set by `evaluate` once the predictions are known, pop_member.rs:110-135: whether the
evaluation completed, the loss and the complexity. -/
def Member.score (o : SOptions K) (d : Dataset K) (m : Member K) (complexity : Nat) (ok : Bool) (loss : Fl K) :
    Member K × Bool :=
  if !ok || !loss.isFinite then ({ m with complexity, loss := .pinf, cost := .pinf }, false)
  else ({ m with
    complexity
    loss
    cost := lossToCost E.RT loss complexity o.parsimony o.useBaseline d.baseline }, true)

/-- `PopMember::evaluate`, pop_member.rs:95-136.  The result is the member, the returned flag and the evaluator;
`none` is a panic. -/
def Member.evaluate (o : SOptions K) (d : Dataset K) (ev : Evaluator K) (m : Member K) :
    Option (Member K × Bool × Evaluator K) := do
  let (yhat, ok, scratch) ← evalPlanArrayInto E.ops ev.yhat m.plan m.expr.consts d.x ev.scratch strictOpts
  let complexity ← computeComplexity o.cx m.expr.nodes
  let loss ← if ok then o.loss.loss E.RT E.lossLib yhat d.y d.weights else some .pinf
  let (m', flag) := m.score o d complexity ok loss
  some (m', flag, ⟨yhat, scratch⟩)

/-- `baseline_loss_from_zero_expression`, loss_functions.rs:15-41 (the outer `none` is a panic). -/
def baselineLoss (o : SOptions K) (d : Dataset K) : Option (Option (Fl K)) := do
  let e : PostfixExpr (Fl K) := zeroExpr
  let plan ← compilePlan E.hash E.D e.nodes d.x.rows e.consts.length
  let (yhat, ok, _) ← evalPlanArrayInto E.ops (List.replicate d.x.cols (.fin 0)) plan e.consts d.x (Buf.zeros 0 0)
    strictOpts
  if !ok then some none
  else
    let base ← o.loss.loss E.RT E.lossLib yhat d.y d.weights
    some (if base.isFinite then some base else none)

end SR
