import Verif.Model.ConstOpt
import Verif.Props.Eval
import Verif.Spec.Loss
/-
Vocabulary for the properties of members: the loss of an expression on a data set, written with the recursive meaning
of the tree on each row and the loss function, without reference to plans, buffers or members.
-/
namespace SR
variable {K : Type} [Field K] [LinearOrder K] [E : Env K]

/-- The predictions of the tree: its value on each row of the data set. -/
def predictions (d : Dataset K) (t : Tree) (consts : List (Fl K)) : List (Fl K) :=
  (List.range d.x.cols).map fun r => t.eval E.ops (fun f => d.x.at' f r) (constAt consts)

/-- Every operator application in the tree is finite on every row, and so is a tree that is a bare constant. -/
def Computable (d : Dataset K) (t : Tree) (consts : List (Fl K)) : Prop :=
  AllOpsFinite E.ops d.x consts t ∧ ConstRootFinite consts t

open Classical in
/-- The loss of a tree on a data set, if it is finite and all intermediate values are. -/
noncomputable def exprLoss (o : SOptions K) (d : Dataset K) (t : Tree) (consts : List (Fl K)) : Option (Fl K) :=
  if Computable d t consts then
    (o.loss.loss E.RT E.lossLib (predictions d t consts) d.y d.weights).filter Fl.isFinite
  else none

/-- The expression is a well-formed tree within the limits of the `u16` indices, and the data set is well formed and
not empty. -/
structure ExprSetting (d : Dataset K) (e : PostfixExpr (Fl K)) (t : Tree) : Prop where
  nodes : e.nodes = t.toPostfix
  wf : t.WF E.ops E.D d.x.rows e.consts.length
  lim : InLimits d.x.rows e.consts.length t
  data : d.WF
  rows : 0 < d.x.cols

/-- The plan is the one compiled from the expression. -/
def PlanOf (d : Dataset K) (e : PostfixExpr (Fl K)) (plan : EvalPlan) : Prop :=
  compilePlan E.hash E.D e.nodes d.x.rows e.consts.length = some plan

/-- The evaluator is sized for the data set (`scratch` may contain anything). -/
def Evaluator.Ready (ev : Evaluator K) (d : Dataset K) : Prop := ev.yhat.length = d.x.cols ∧ ev.scratch.WF

/-- What is assumed of the two float formats: both are sensible, every `T` is an `f64` (`T` is `f32` or `f64`), and
`sqrt` returns a `T`. -/
structure Env.Formats (K : Type) [Field K] [LinearOrder K] [E : Env K] : Prop where
  lawful : E.R.Lawful
  lawfulT : E.RT.Lawful
  embed : ∀ v : Fl K, v.Rep E.RT → v.Rep E.R
  sqrt : ∀ v, (E.lossLib.sqrt v).Rep E.RT

/-- The line search parameters are sensible. -/
structure LsOk (o : SOptions K) : Prop where
  maxstep : Fl.le (.fin 0) o.lineSearch.maxstep = true
  c1 : Fl.le (.fin 0) o.lineSearch.c1 = true

end SR
