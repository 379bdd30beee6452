import Verif.Spec.Float
import Mathlib.Data.Rat.Floor
import Mathlib.Algebra.Order.Ring.Rat
/-
IEEE 754 binary64 and binary32, round to nearest with ties to even, on rational numbers (subnormals and overflow included).
-/
namespace SR

/-- `2 ^ e`. -/
def pow2 (e : Int) : ℚ := if 0 ≤ e then (2 : ℚ) ^ e.toNat else 1 / (2 : ℚ) ^ (-e).toNat

/-- The exponent `e` with `2 ^ e ≤ |x| < 2 ^ (e + 1)`, for `x ≠ 0`. -/
def exponent (x : ℚ) : Int :=
  let e := (Nat.log2 x.num.natAbs : Int) - Nat.log2 x.den
  if pow2 e ≤ |x| then e else e - 1

/-- Nearest integer, ties to even. -/
def roundHalfEven (x : ℚ) : Int :=
  let f := Rat.floor x
  if x - f < 1 / 2 then f else if 1 / 2 < x - f then f + 1 else if f % 2 = 0 then f else f + 1

/-- A binary interchange format: `p` bits of precision, normal exponents from `emin`, overflow from `2 ^ emax`. -/
structure BinFormat where
  p : Nat
  emin : Int
  emax : Int

/-- The exponent of the last place of the floats near `x`. -/
def BinFormat.ulpExp (f : BinFormat) (x : ℚ) : Int := max (exponent x) f.emin - (f.p - 1)

/-- The nearest multiple of the last place, without overflow. -/
def BinFormat.nearest (f : BinFormat) (x : ℚ) : ℚ :=
  roundHalfEven (x / pow2 (f.ulpExp x)) * pow2 (f.ulpExp x)

/-- Rounding to the format. -/
def BinFormat.rnd (f : BinFormat) (x : ℚ) : Fl ℚ :=
  if x = 0 then .fin 0
  else if pow2 f.emax ≤ f.nearest x then .pinf
  else if f.nearest x ≤ -pow2 f.emax then .ninf
  else .fin (f.nearest x)

/-- binary64. -/
def fmt64 : BinFormat := ⟨53, -1022, 1024⟩
/-- binary32. -/
def fmt32 : BinFormat := ⟨24, -126, 128⟩

/-- Rounding to binary64. -/
def rnd64 (x : ℚ) : Fl ℚ := fmt64.rnd x

/-- The `f64` of Rust. -/
def binary64 : Rounding ℚ := ⟨rnd64⟩
/-- The `f32` of Rust. -/
def binary32 : Rounding ℚ := ⟨fmt32.rnd⟩

/-- One tenth, and a tie. -/
example : rnd64 (1 / 10) = .fin (3602879701896397 / 36028797018963968) := by decide +kernel
example : rnd64 (1 + pow2 (-53)) = .fin 1 := by decide +kernel
example : rnd64 (1 + 3 * pow2 (-53)) = .fin (1 + pow2 (-51)) := by decide +kernel

end SR
