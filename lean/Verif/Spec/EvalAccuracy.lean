import Verif.Spec.Accuracy
import Verif.Spec.Scalar
/-
Vocabulary for C99: expressions of the elementary operations, what they compute in rounded arithmetic and what they mean exactly.
-/
namespace SR
variable {K : Type} [Field K] [LinearOrder K]

/-- The unary operations among the built-in operators (operator_enum.rs:348-413) that need no mathematical library. -/
inductive UnArith where
  | neg | abs | identity | abs2 | inv
deriving DecidableEq

/-- The binary ones (operator_enum.rs:418-470). -/
inductive BinArith where
  | add | sub | mul | div
deriving DecidableEq

/-- As the code computes it: `-x`, `x.abs()`, `x`, `x * x`, `x.recip()`, operator_enum.rs:349, 368, 378, 398, 409. -/
def UnArith.run (R : Rounding K) : UnArith → Fl K → Fl K
  | .neg, x => x.neg
  | .abs, x => x.abs
  | .identity, x => x
  | .abs2, x => R.mul x x
  | .inv, x => R.div (.fin 1) x

/-- As the code computes it, operator_enum.rs:422, 433, 447, 459. -/
def BinArith.run (R : Rounding K) : BinArith → Fl K → Fl K → Fl K
  | .add, x, y => R.add x y
  | .sub, x, y => R.sub x y
  | .mul, x, y => R.mul x y
  | .div, x, y => R.div x y

/-- What it means. -/
def UnArith.exact : UnArith → K → K
  | .neg, x => -x
  | .abs, x => |x|
  | .identity, x => x
  | .abs2, x => x ^ 2
  | .inv, x => 1 / x

/-- What it means. -/
def BinArith.exact : BinArith → K → K → K
  | .add, x, y => x + y
  | .sub, x, y => x - y
  | .mul, x, y => x * y
  | .div, x, y => x / y

/-- The same without any cancellation: on the sizes of the operands. -/
def UnArith.size : UnArith → K → K
  | .neg, x => x
  | .abs, x => x
  | .identity, x => x
  | .abs2, x => x ^ 2
  | .inv, x => 1 / x

/-- The same without any cancellation: on the sizes of the operands. -/
def BinArith.size : BinArith → K → K → K
  | .add, x, y => x + y
  | .sub, x, y => x + y
  | .mul, x, y => x * y
  | .div, x, y => x / y

/-- How many roundings the result has seen, if the operand has seen `k`. -/
def UnArith.roundings : UnArith → Nat → Nat
  | .neg, k => k
  | .abs, k => k
  | .identity, k => k
  | .abs2, k => 2 * k + 1
  | .inv, k => k + 1

/-- How many roundings the result has seen: the larger number for a sum, both for a product. -/
def BinArith.roundings : BinArith → Nat → Nat → Nat
  | .add, k, m => max k m + 1
  | .sub, k, m => max k m + 1
  | .mul, k, m => k + m + 1
  | .div, k, m => k + m + 1

/-- Which operators of an operator set are elementary operations. -/
structure Roles where
  un : Nat → Option UnArith
  bin : Nat → Option BinArith

/-- The operator set computes the elementary operations in the arithmetic `R`. -/
structure Roles.Read (ρ : Roles) (ops : OpSet (Fl K)) (R : Rounding K) : Prop where
  un : ∀ o f, ρ.un o = some f → ∀ x, ops.eval 1 o [x] = f.run R x
  bin : ∀ o f, ρ.bin o = some f → ∀ x y, ops.eval 2 o [x, y] = f.run R x y

/-- The value of an expression, if elementary operations act by `un` and `bin` (anything else gives `other`). -/
def Roles.value {α : Type} (ρ : Roles) (un : UnArith → α → α) (bin : BinArith → α → α → α) (other : α) (feat const : Nat → α) : Tree → α :=
  Tree.fold feat const fun o vs => match vs with
    | [x] => match ρ.un o with
      | some f => un f x
      | none => other
    | [x, y] => match ρ.bin o with
      | some f => bin f x y
      | none => other
    | _ => other

/-- The exact value of an expression. -/
def Roles.exact (ρ : Roles) (feat const : Nat → K) : Tree → K := ρ.value UnArith.exact BinArith.exact 0 feat const

/-- The value of the expression in which every subtraction and negation is an addition, at the absolute values of features and constants. -/
def Roles.size (ρ : Roles) (feat const : Nat → K) : Tree → K :=
  ρ.value UnArith.size BinArith.size 0 (fun f => |feat f|) (fun c => |const c|)

/-- The number of roundings on the way to the value: additions take the larger number of their operands, products both. -/
def Roles.roundings (ρ : Roles) : Tree → Nat := ρ.value UnArith.roundings BinArith.roundings 0 (fun _ => 0) (fun _ => 0)

/-- The rounded evaluation of the expression gives `y`, every operation on the way is elementary, has a finite result, and its exact result for the
computed operands is zero or at least `tiny` (it does not underflow). -/
inductive Roles.Runs (ρ : Roles) (R : Rounding K) (tiny : K) (feat const : Nat → Fl K) : Tree → K → Prop
  | var (f : Nat) (y : K) : feat f = .fin y → Runs ρ R tiny feat const (.var f) y
  | const (c : Nat) (y : K) : const c = .fin y → Runs ρ R tiny feat const (.const c) y
  | un (o : Nat) (f : UnArith) (t : Tree) (x z : K) : ρ.un o = some f → Runs ρ R tiny feat const t x → f.run R (.fin x) = .fin z →
      (f.exact x = 0 ∨ tiny ≤ |f.exact x|) → Runs ρ R tiny feat const (.op o [t]) z
  | bin (o : Nat) (f : BinArith) (s t : Tree) (x y z : K) : ρ.bin o = some f → Runs ρ R tiny feat const s x → Runs ρ R tiny feat const t y →
      f.run R (.fin x) (.fin y) = .fin z → (f.exact x y = 0 ∨ tiny ≤ |f.exact x y|) → Runs ρ R tiny feat const (.op o [s, t]) z

/-- No division. -/
def Roles.Polynomial (ρ : Roles) (t : Tree) : Prop :=
  t.All (fun _ => True) (fun _ => True) fun o a => (a = 1 → ρ.un o ≠ some .inv) ∧ (a = 2 → ρ.bin o ≠ some .div)

/-- No subtraction, and every feature and constant in the expression is positive. -/
def Roles.Positive (ρ : Roles) (feat const : Nat → K) (t : Tree) : Prop :=
  t.All (fun f => 0 < feat f) (fun c => 0 < const c) fun o a => (a = 1 → ρ.un o ≠ some .neg) ∧ (a = 2 → ρ.bin o ≠ some .sub)

/-- The number a float is (zero for the others). -/
def Fl.number : Fl K → K
  | .fin x => x
  | _ => 0

end SR
