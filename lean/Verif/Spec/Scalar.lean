import Verif.Spec.Tree
/-
Scalars and operator sets as uninterpreted operations, and the recursive meaning of expressions.
-/
namespace SR

/-- The operations of `num_traits::Float` the evaluator uses, with no laws assumed. -/
class Scalar (T : Type) where
  zero : T
  one : T
  nan : T
  add : T → T → T
  mul : T → T → T
  isFinite : T → Bool
  /-- `num_traits::Zero::is_zero` -/
  isZero : T → Bool

/-- An operator set: `eval arity id args`, `partial arity id args idx` (arguments in order), and
which `(arity, id)` pairs exist.
Models `dynamic_expressions/src/traits.rs:3-13,68-114` (`Operator`, `OperatorSet`) and the dispatch
generated by `opset!`/`custom_opset!` (`operator_enum.rs`): an unknown pair panics. -/
structure OpSet (T : Type) where
  eval : Nat → Nat → List T → T
  partial_ : Nat → Nat → List T → Nat → T
  known : Nat → Nat → Bool

/-- A data matrix `X` with `rows` features and `cols` samples (`ArrayView2`, features are rows of the
array as in `x_columns`). -/
structure Mat (T : Type) where
  rows : Nat
  cols : Nat
  at' : Nat → Nat → T

/-- Row-major contiguous storage of the matrix (`ArrayView2::as_slice` of a standard-layout array). -/
def Mat.data {T : Type} (X : Mat T) : List T :=
  (List.range X.rows).flatMap fun f => (List.range X.cols).map (X.at' f)

/-- The value of constant `c` (indices are in range for well-formed expressions; the default is never
reached there). -/
def constAt {T : Type} [Scalar T] (consts : List T) (c : Nat) : T := consts[c]?.getD Scalar.zero

/-- The recursive meaning of an expression tree, given the value of each feature and constant. -/
def Tree.eval {T : Type} (ops : OpSet T) (feat const : Nat → T) : Tree → T :=
  Tree.fold feat const (fun o vs => ops.eval vs.length o vs)

/-- Well-formedness of a tree with respect to limits: features `< nf`, constants `< nc`, operators
known to the set with arity between 1 and `D`. -/
def Tree.WF {T : Type} (ops : OpSet T) (D nf nc : Nat) : Tree → Prop :=
  Tree.All (· < nf) (· < nc) (fun o a => 1 ≤ a ∧ a ≤ D ∧ ops.known a o = true)

@[simp] theorem Tree.eval_var {T : Type} (ops : OpSet T) (feat const : Nat → T) (f) :
    Tree.eval ops feat const (.var f) = feat f := by simp [Tree.eval]
@[simp] theorem Tree.eval_const {T : Type} (ops : OpSet T) (feat const : Nat → T) (f) :
    Tree.eval ops feat const (.const f) = const f := by simp [Tree.eval]
@[simp] theorem Tree.eval_op {T : Type} (ops : OpSet T) (feat const : Nat → T) (o ts) :
    Tree.eval ops feat const (.op o ts)
      = ops.eval ts.length o (ts.map (Tree.eval ops feat const)) := by simp [Tree.eval]

end SR
