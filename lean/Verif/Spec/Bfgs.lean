import Verif.Model.Optim
import Mathlib.Data.Matrix.Mul
/-
The BFGS method as in a textbook, on vectors and matrices over an ordered field: no flat arrays, no special cases for
slopes, no symmetrisation.  `OptM` is only used to count the calls of the objective.
-/
namespace SR
open Matrix
variable {K : Type} [Field K] [LinearOrder K] {n : Nat}

/-- A vector as a list of finite floats. -/
def vec (v : Fin n → K) : List (Fl K) := List.ofFn fun i => .fin (v i)

/-- Symmetric and positive definite. -/
structure SPD (H : Matrix (Fin n) (Fin n) K) : Prop where
  symm : H.transpose = H
  pos : ∀ v : Fin n → K, v ≠ 0 → 0 < v ⬝ᵥ (H *ᵥ v)

/-- The BFGS formula for the approximation of the inverse of the Hessian, from the last step `s` and the change `y` of the
gradient: `(1 - ρ s yᵀ) H (1 - ρ y sᵀ) + ρ s sᵀ` with `ρ = 1 / sᵀy`. -/
def bfgsFormula (H : Matrix (Fin n) (Fin n) K) (s y : Fin n → K) : Matrix (Fin n) (Fin n) K :=
  (1 - (s ⬝ᵥ y)⁻¹ • vecMulVec s y) * H * (1 - (s ⬝ᵥ y)⁻¹ • vecMulVec y s) + (s ⬝ᵥ y)⁻¹ • vecMulVec s s

/-- The formula is only used when the curvature along the step is positive enough; otherwise start again from the
identity. -/
def nextInverse (H : Matrix (Fin n) (Fin n) K) (s y : Fin n → K) : Matrix (Fin n) (Fin n) K :=
  if 1 / 10 ^ 12 < s ⬝ᵥ y then bfgsFormula H s y else 1

/-- The objective of the code computes the partial function `f` with the gradient `grad`. -/
def Computes (obj : Objective K) (f : (Fin n → K) → Option K) (grad : (Fin n → K) → Fin n → K) : Prop :=
  ∀ x, obj.fg (vec x) = (f x).map fun v => (.fin v, vec (grad x))

/-- A counted call of `f`. -/
def callValue (f : (Fin n → K) → Option K) (x : Fin n → K) : OptM K := fun c =>
  match f x with
  | some v => (.ok v, c + 1)
  | none => (.fail, c + 1)

/-- The textbook loop: `search x s fx slope` is the line search (it returns the step length), `stop` tells when the
number of calls is used up, `tol` is the tolerance of the gradient. -/
def textbookLoop (f : (Fin n → K) → Option K) (grad : (Fin n → K) → Fin n → K)
    (search : (Fin n → K) → (Fin n → K) → K → K → OptM K) (stop : Nat → Bool) (tol : K) :
    Nat → (Fin n → K) → K → Matrix (Fin n) (Fin n) K → OptM ((Fin n → K) × K)
  | 0, x, fx, _ => pure (x, fx)
  | k + 1, x, fx, H => fun c =>
    if stop c = true ∨ ∀ i, |grad x i| ≤ tol then (.ok (x, fx), c)
    else (do
      let s := -(H *ᵥ grad x)
      let a ← search x s fx (grad x ⬝ᵥ s)
      let x' := x + a • s
      let fx' ← callValue f x'
      textbookLoop f grad search stop tol k x' fx' (nextInverse H (x' - x) (grad x' - grad x))) c

/-- The textbook method from the start `x0`, with the identity as first approximation. -/
def textbookBfgs (f : (Fin n → K) → Option K) (grad : (Fin n → K) → Fin n → K)
    (search : (Fin n → K) → (Fin n → K) → K → K → OptM K) (stop : Nat → Bool) (tol : K) (iterations : Nat)
    (x0 : Fin n → K) : OptM ((Fin n → K) × K) := do
  let fx ← callValue f x0
  textbookLoop f grad search stop tol iterations x0 fx 1

end SR
