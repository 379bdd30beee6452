import Mathlib.Algebra.Order.Field.Basic
import Mathlib.Order.Basic
/-
Floating point numbers (`f32`, `f64`, the generic `T: Float`): finite values from an ordered field `K`, two
infinities and NaN, with the IEEE rules for special values.  Every arithmetic result is rounded by an arbitrary
monotone rounding function (which may overflow); `Rounding.exact` is exact arithmetic.  Simplification: the two
zeros are one value (they compare equal; division by zero takes the sign of the numerator).
-/
namespace SR

/-- A floating point number. -/
inductive Fl (K : Type) where
  | nan | ninf | fin (x : K) | pinf
deriving DecidableEq, Repr

namespace Fl
variable {K : Type}

/-- `is_nan`. -/
def isNan : Fl K → Bool | nan => true | _ => false
/-- `is_finite`. -/
def isFinite : Fl K → Bool | fin _ => true | _ => false

/-- IEEE `<`. -/
def lt [LinearOrder K] : Fl K → Fl K → Bool
  | fin x, fin y => decide (x < y)
  | ninf, fin _ => true
  | ninf, pinf => true
  | fin _, pinf => true
  | _, _ => false

/-- IEEE `<=`. -/
def le [LinearOrder K] : Fl K → Fl K → Bool
  | fin x, fin y => decide (x ≤ y)
  | nan, _ => false
  | _, nan => false
  | ninf, _ => true
  | _, pinf => true
  | _, _ => false

/-- IEEE `==`. -/
def feq [LinearOrder K] (a b : Fl K) : Bool := le a b && le b a

/-- `PartialOrd::partial_cmp`. -/
def cmp [LinearOrder K] (a b : Fl K) : Option Ordering :=
  if lt a b then some .lt else if lt b a then some .gt else if feq a b then some .eq else none

/-- `a.partial_cmp(&b).unwrap_or(Ordering::Greater)`. -/
def cmpG [LinearOrder K] (a b : Fl K) : Ordering := (cmp a b).getD .gt

/-- `f64::min` (a NaN operand is ignored). -/
def min [LinearOrder K] (a b : Fl K) : Fl K :=
  if a.isNan then b else if b.isNan then a else if lt b a then b else a

/-- `f64::max`. -/
def max [LinearOrder K] (a b : Fl K) : Fl K :=
  if a.isNan then b else if b.isNan then a else if lt a b then b else a

/-- Negation. -/
def neg [Neg K] : Fl K → Fl K
  | nan => nan | ninf => pinf | pinf => ninf | fin x => fin (-x)

/-- `abs`. -/
def abs [LinearOrder K] [Neg K] : Fl K → Fl K
  | nan => nan | ninf => pinf | pinf => pinf | fin x => fin (Max.max x (-x))

end Fl

/-- A rounding of exact results to floats (it may overflow). -/
structure Rounding (K : Type) where
  rnd : K → Fl K

/-- What every sensible rounding satisfies, IEEE round-to-nearest in particular. -/
structure Rounding.Lawful {K : Type} [Field K] [LinearOrder K] (R : Rounding K) : Prop where
  not_nan : ∀ x, (R.rnd x).isNan = false
  mono : ∀ {x y : K}, x ≤ y → (R.rnd x).le (R.rnd y) = true
  zero : R.rnd 0 = .fin 0
  one : R.rnd 1 = .fin 1
  /-- results of operations are representable -/
  idem : ∀ {x y : K}, R.rnd x = .fin y → R.rnd y = .fin y

/-- Exact arithmetic: no rounding. -/
def Rounding.exact (K : Type) : Rounding K := ⟨.fin⟩

theorem Rounding.exact_lawful (K : Type) [Field K] [LinearOrder K] : (Rounding.exact K).Lawful where
  not_nan _ := rfl
  mono h := by simpa [Fl.le, Rounding.exact] using h
  zero := rfl
  one := rfl
  idem _ := rfl

namespace Rounding
variable {K : Type} [Field K] [LinearOrder K] (R : Rounding K)

/-- `a + b`. -/
def add : Fl K → Fl K → Fl K
  | .fin x, .fin y => R.rnd (x + y)
  | .nan, _ => .nan
  | _, .nan => .nan
  | .pinf, .ninf => .nan
  | .ninf, .pinf => .nan
  | .pinf, _ => .pinf
  | _, .pinf => .pinf
  | _, _ => .ninf

/-- `a - b`. -/
def sub (a b : Fl K) : Fl K := R.add a b.neg

/-- The infinity with the sign of `x` (NaN for zero). -/
def signInf (x : K) : Fl K := if 0 < x then .pinf else if x < 0 then .ninf else .nan

/-- `a * b`. -/
def mul : Fl K → Fl K → Fl K
  | .fin x, .fin y => R.rnd (x * y)
  | .nan, _ => .nan
  | _, .nan => .nan
  | .pinf, .pinf => .pinf
  | .pinf, .ninf => .ninf
  | .ninf, .pinf => .ninf
  | .ninf, .ninf => .pinf
  | .fin x, .pinf => signInf x
  | .pinf, .fin x => signInf x
  | .fin x, .ninf => signInf (-x)
  | .ninf, .fin x => signInf (-x)

/-- `a / b`. -/
def div : Fl K → Fl K → Fl K
  | .fin x, .fin y => if y = 0 then signInf x else R.rnd (x / y)
  | .nan, _ => .nan
  | _, .nan => .nan
  | .fin _, _ => .fin 0
  | .pinf, .fin y => if y < 0 then .ninf else .pinf
  | .ninf, .fin y => if y < 0 then .pinf else .ninf
  | _, _ => .nan

/-- `n as f64`. -/
def ofNat (n : Nat) : Fl K := R.rnd (n : K)

/-- `iter().sum::<f64>()`. -/
def sum (l : List (Fl K)) : Fl K := l.foldl R.add (.fin 0)

end Rounding

namespace Fl
variable {K : Type} [LinearOrder K]

theorem lt_irrefl (a : Fl K) : lt a a = false := by cases a <;> simp [lt]

theorem lt_trans {a b c : Fl K} (h1 : lt a b = true) (h2 : lt b c = true) : lt a c = true := by
  cases a <;> cases b <;> simp [lt] at h1 <;> cases c <;> simp [lt] at h2 ⊢
  exact _root_.lt_trans h1 h2

theorem lt_asymm {a b : Fl K} (h : lt a b = true) : lt b a = false := by
  cases a <;> cases b <;> simp [lt] at h ⊢
  exact h.le

theorem lt_not_nan {a b : Fl K} (h : lt a b = true) : a.isNan = false ∧ b.isNan = false := by
  cases a <;> cases b <;> simp [lt, isNan] at h ⊢

/-- On non-NaN values `<=` is the negation of `>`. -/
theorem le_iff {a b : Fl K} (ha : a.isNan = false) (hb : b.isNan = false) :
    le a b = true ↔ lt b a = false := by
  cases a <;> cases b <;> simp [le, lt, isNan] at ha hb ⊢

theorem le_not_nan {a b : Fl K} (h : le a b = true) : a.isNan = false ∧ b.isNan = false := by
  cases a <;> cases b <;> simp [le, isNan] at h ⊢

theorem le_refl {a : Fl K} (h : a.isNan = false) : le a a = true := by
  cases a <;> simp [le, isNan] at h ⊢

theorem le_trans {a b c : Fl K} (h1 : le a b = true) (h2 : le b c = true) : le a c = true := by
  cases a <;> cases b <;> simp [le] at h1 <;> cases c <;> simp [le] at h2 ⊢
  exact _root_.le_trans h1 h2

theorem le_of_lt {a b : Fl K} (h : lt a b = true) : le a b = true := by
  cases a <;> cases b <;> simp [lt, le] at h ⊢
  exact h.le

theorem le_total {a b : Fl K} (ha : a.isNan = false) (hb : b.isNan = false) :
    le a b = true ∨ le b a = true := by
  rw [le_iff ha hb, le_iff hb ha]
  by_cases h : lt b a = true
  · exact .inr (lt_asymm h)
  · exact .inl (by simpa using h)

theorem lt_of_le_of_lt {a b c : Fl K} (h1 : le a b = true) (h2 : lt b c = true) : lt a c = true := by
  cases a <;> cases b <;> simp [le] at h1 <;> cases c <;> simp [lt] at h2 ⊢
  exact _root_.lt_of_le_of_lt h1 h2

theorem lt_of_lt_of_le {a b c : Fl K} (h1 : lt a b = true) (h2 : le b c = true) : lt a c = true := by
  cases a <;> cases b <;> simp [lt] at h1 <;> cases c <;> simp [le] at h2 <;> simp [lt]
  exact _root_.lt_of_lt_of_le h1 h2

theorem cmpG_lt {a b : Fl K} : cmpG a b = .lt ↔ lt a b = true := by
  simp only [cmpG, cmp]
  split
  · simp_all
  · split
    · simp_all
    · split <;> simp_all

/-- `unwrap_or(Greater)`: not greater exactly when `<=`. -/
theorem cmpG_ne_gt {a b : Fl K} : cmpG a b ≠ .gt ↔ le a b = true := by
  cases a <;> cases b <;> simp [cmpG, cmp, lt, le, feq]
  rename_i x y
  rcases lt_trichotomy x y with h | h | h
  · simp [h, h.le]
  · simp [h]
  · simp [h, h.le, h.not_gt, h.not_ge]

/-- On numbers `unwrap_or(Greater)` never applies, so swapping the arguments swaps the result. -/
theorem cmpG_swap {a b : Fl K} (ha : a.isNan = false) (hb : b.isNan = false) : cmpG b a = (cmpG a b).swap := by
  cases a <;> cases b <;> simp_all [cmpG, cmp, lt, le, feq, isNan]
  case fin.fin x y =>
    rcases lt_trichotomy x y with h | h | h
    · simp [h, h.not_gt]
    · simp [h]
    · simp [h, h.not_gt]

end Fl
end SR
