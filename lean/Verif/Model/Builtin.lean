import Verif.Spec.Deriv
import Mathlib.Analysis.SpecialFunctions.Arsinh
import Mathlib.Analysis.SpecialFunctions.Arcosh
import Mathlib.Analysis.SpecialFunctions.Artanh
import Mathlib.Analysis.SpecialFunctions.Log.Base
import Mathlib.Analysis.SpecialFunctions.Trigonometric.DerivHyp
import Mathlib.Analysis.SpecialFunctions.Complex.Arg
import Mathlib.Analysis.SpecialFunctions.Trigonometric.ArctanDeriv
/-
The built-in operators of `dynamic_expressions/src/operator_enum.rs:83-636`, read over the real
numbers (exact arithmetic): each float primitive (`sin`, `ln`, ...) stands for the corresponding real
function; rounding, NaN and infinities are not modelled.
-/
namespace SR
open Real

/-- Names of the unary built-ins. -/
inductive Un where
  | abs | abs2 | acos | acosh | asin | asinh | atan | atanh | cbrt | cos | cosh | cot | csc | exp
  | exp2 | expm1 | identity | inv | log | log1p | log2 | log10 | neg | sec | sign | sin | sinh | sqrt
  | tan | tanh
deriving DecidableEq, Repr

inductive Bin where
  | add | atan2 | div | max | min | mul | pow | sub
deriving DecidableEq, Repr

inductive Ter where
  | clamp | fma
deriving DecidableEq, Repr

/-- Preset ids: position in the list of the preset operator set, operator_enum.rs:645-656. -/
def unTable : List Un :=
  [.abs, .abs2, .acos, .acosh, .asin, .asinh, .atan, .atanh,
   .cbrt, .cos, .cosh, .cot, .csc, .exp, .exp2, .expm1,
   .identity, .inv, .log, .log1p, .log2, .log10,
   .neg, .sec, .sign, .sin, .sinh, .sqrt, .tan, .tanh]
def binTable : List Bin := [.add, .atan2, .div, .max, .min, .mul, .pow, .sub]
def terTable : List Ter := [.clamp, .fma]

/-- `Float::cbrt` over the reals: the real cube root (see `realCbrt_pow`). -/
noncomputable def realCbrt (x : ℝ) : ℝ :=
  if 0 ≤ x then x ^ ((1 : ℝ) / 3) else -((-x) ^ ((1 : ℝ) / 3))

/-- `eval` of the unary built-ins, operator_enum.rs:83-415. -/
noncomputable def Un.eval : Un → ℝ → ℝ
  | .abs, x => |x|
  | .abs2, x => x * x
  | .acos, x => Real.arccos x
  | .acosh, x => Real.arcosh x
  | .asin, x => Real.arcsin x
  | .asinh, x => Real.arsinh x
  | .atan, x => Real.arctan x
  | .atanh, x => Real.artanh x
  | .cbrt, x => realCbrt x
  | .cos, x => Real.cos x
  | .cosh, x => Real.cosh x
  | .cot, x => 1 / Real.tan x
  | .csc, x => 1 / Real.sin x
  | .exp, x => Real.exp x
  | .exp2, x => (2 : ℝ) ^ x
  | .expm1, x => Real.exp x - 1
  | .identity, x => x
  | .inv, x => x⁻¹
  | .log, x => Real.log x
  | .log1p, x => Real.log (1 + x)
  | .log2, x => Real.logb 2 x
  | .log10, x => Real.logb 10 x
  | .neg, x => -x
  | .sec, x => 1 / Real.cos x
  | .sign, x => if x < 0 then -1 else 1
  | .sin, x => Real.sin x
  | .sinh, x => Real.sinh x
  | .sqrt, x => √x
  | .tan, x => Real.tan x
  | .tanh, x => Real.tanh x

/-- `partial` (index 0) of the unary built-ins, operator_enum.rs:83-415. -/
noncomputable def Un.partial_ : Un → ℝ → ℝ
  | .abs, x => if x > 0 then 1 else if x < 0 then -1 else 0
  | .abs2, x => 2 * x
  | .acos, x => -1 / √(1 - x * x)
  | .acosh, x => 1 / (√(x - 1) * √(x + 1))
  | .asin, x => 1 / √(1 - x * x)
  | .asinh, x => 1 / √(x * x + 1)
  | .atan, x => 1 / (1 + x * x)
  | .atanh, x => 1 / (1 - x * x)
  | .cbrt, x => 1 / (3 * realCbrt x ^ 2)
  | .cos, x => -Real.sin x
  | .cosh, x => Real.sinh x
  | .cot, x => -1 / (Real.sin x * Real.sin x)
  | .csc, x => -(1 / Real.sin x) * (1 / Real.tan x)
  | .exp, x => Real.exp x
  | .exp2, x => (2 : ℝ) ^ x * Real.log 2
  | .expm1, x => Real.exp x
  | .identity, _ => 1
  | .inv, x => -1 / (x * x)
  | .log, x => 1 / x
  | .log1p, x => 1 / (1 + x)
  | .log2, x => 1 / (x * Real.log 2)
  | .log10, x => 1 / (x * Real.log 10)
  | .neg, _ => -1
  | .sec, x => 1 / Real.cos x * Real.tan x
  | .sign, _ => 0
  | .sin, x => Real.cos x
  | .sinh, x => Real.cosh x
  | .sqrt, x => 1 / (2 * √x)
  | .tan, x => 1 / (Real.cos x * Real.cos x)
  | .tanh, x => 1 / (Real.cosh x * Real.cosh x)

/-- `eval` of the binary built-ins, operator_enum.rs:418-586.  `atan2(y, x)` is the argument of
`x + iy`; `powf` is real exponentiation (domain: positive base). -/
noncomputable def Bin.eval : Bin → ℝ → ℝ → ℝ
  | .add, x, y => x + y
  | .atan2, x, y => Complex.arg ⟨y, x⟩
  | .div, x, y => x / y
  | .max, x, y => Max.max x y
  | .min, x, y => Min.min x y
  | .mul, x, y => x * y
  | .pow, x, y => x ^ y
  | .sub, x, y => x - y

/-- `partial` of the binary built-ins, operator_enum.rs:418-586 (no NaN over the reals). -/
noncomputable def Bin.partial_ : Bin → ℝ → ℝ → Nat → ℝ
  | .add, _, _, _ => 1
  | .atan2, x, y, 0 => y / (y * y + x * x)
  | .atan2, x, y, _ => -x / (y * y + x * x)
  | .div, _, y, 0 => 1 / y
  | .div, x, y, _ => -x / (y * y)
  | .max, x, y, 0 => if x > y then 1 else if x < y then 0 else 0.5
  | .max, x, y, _ => if y > x then 1 else if y < x then 0 else 0.5
  | .min, x, y, 0 => if x < y then 1 else if x > y then 0 else 0.5
  | .min, x, y, _ => if y < x then 1 else if y > x then 0 else 0.5
  | .mul, _, y, 0 => y
  | .mul, x, _, _ => x
  | .pow, x, y, 0 => y * x ^ (y - 1)
  | .pow, x, y, _ => x ^ y * Real.log x
  | .sub, _, _, 0 => 1
  | .sub, _, _, _ => -1

/-- `eval` of the ternary built-ins, operator_enum.rs:588-636; `clamp(x, lo, hi)` for `lo ≤ hi` is
`min (max x lo) hi`. -/
noncomputable def Ter.eval : Ter → ℝ → ℝ → ℝ → ℝ
  | .clamp, x, lo, hi =>
    if lo ≤ hi then (if x < lo then lo else if x > hi then hi else x)
    else if x < lo then lo else if x > hi then hi else x
  | .fma, x, y, z => x * y + z

/-- `partial` of the ternary built-ins, operator_enum.rs:590-634. -/
noncomputable def Ter.partial_ : Ter → ℝ → ℝ → ℝ → Nat → ℝ
  | .clamp, x, lo, hi, 0 => if x < lo ∨ x > hi then 0 else 1
  | .clamp, x, lo, _, 1 => if x < lo then 1 else 0
  | .clamp, x, _, hi, _ => if x > hi then 1 else 0
  | .fma, _, y, _, 0 => y
  | .fma, x, _, _, 1 => x
  | .fma, _, _, _, _ => 1

/-- The preset operator set over the reals: dispatch by arity and id, operator_enum.rs:639-672. -/
noncomputable def realOps : OpSet ℝ where
  eval a o v :=
    match a, v with
    | 1, [x] => (unTable[o]?.map fun u => u.eval x).getD 0
    | 2, [x, y] => (binTable[o]?.map fun b => b.eval x y).getD 0
    | 3, [x, y, z] => (terTable[o]?.map fun t => t.eval x y z).getD 0
    | _, _ => 0
  partial_ a o v j :=
    match a, v with
    | 1, [x] => (unTable[o]?.map fun u => u.partial_ x).getD 0
    | 2, [x, y] => (binTable[o]?.map fun b => b.partial_ x y j).getD 0
    | 3, [x, y, z] => (terTable[o]?.map fun t => t.partial_ x y z j).getD 0
    | _, _ => 0
  known a o := (a == 1 && o < unTable.length) || (a == 2 && o < binTable.length)
    || (a == 3 && o < terTable.length)

/-- Open domain of differentiability of each built-in: where the float function is defined and the
function is differentiable.  For `clamp` the arguments must be in general position and not in the
degenerate region `hi < x < lo` (see the counterexample theorem for that region). -/
def Un.dom : Un → ℝ → Prop
  | .abs, x => x ≠ 0
  | .acos, x => -1 < x ∧ x < 1
  | .acosh, x => 1 < x
  | .asin, x => -1 < x ∧ x < 1
  | .atanh, x => -1 < x ∧ x < 1
  | .cbrt, x => x ≠ 0
  | .cot, x => Real.sin x ≠ 0
  | .csc, x => Real.sin x ≠ 0
  | .inv, x => x ≠ 0
  | .log, x => 0 < x
  | .log1p, x => -1 < x
  | .log2, x => 0 < x
  | .log10, x => 0 < x
  | .sec, x => Real.cos x ≠ 0
  | .sign, x => x ≠ 0
  | .sqrt, x => 0 < x
  | .tan, x => Real.cos x ≠ 0
  | _, _ => True

def Bin.dom : Bin → ℝ → ℝ → Prop
  | .atan2, x, y => 0 < y ∨ x ≠ 0
  | .div, _, y => y ≠ 0
  | .max, x, y => x ≠ y
  | .min, x, y => x ≠ y
  | .pow, x, _ => 0 < x
  | _, _, _ => True

def Ter.dom : Ter → ℝ → ℝ → ℝ → Prop
  | .clamp, x, lo, hi => x ≠ lo ∧ x ≠ hi ∧ ¬(hi < x ∧ x < lo)
  | .fma, _, _, _ => True

/-- Domain of an application of a preset operator. -/
def inDom (a o : Nat) (v : List ℝ) : Prop :=
  match a, v with
  | 1, [x] => ∀ u, unTable[o]? = some u → u.dom x
  | 2, [x, y] => ∀ b, binTable[o]? = some b → b.dom x y
  | 3, [x, y, z] => ∀ t, terTable[o]? = some t → t.dom x y z
  | _, _ => True

/-- Exact real arithmetic as scalars: every real is finite, and the NaN used to fill abandoned
buffers is never produced (a placeholder). -/
noncomputable instance : Scalar ℝ where
  zero := 0
  one := 1
  nan := 0
  add := (· + ·)
  mul := (· * ·)
  isFinite _ := true
  isZero x := by classical exact decide (x = 0)

instance : ZeroLaws ℝ where
  mul_zero p := by change p * 0 = 0; simp
  zero_add x := by change 0 + x = x; simp
  isZero_eq x h := by
    change decide (x = 0) = true at h
    exact of_decide_eq_true h

end SR
