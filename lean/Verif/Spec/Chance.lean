import Verif.Spec.Find
import Mathlib.Probability.ProductMeasure
import Mathlib.Data.Finsupp.Basic
/-
Vocabulary for C90: the probability that a search finds something.

The generators are ideal: all their draws are independent.  A draw is a natural number; population `i` has one sequence of
integer draws and one of float draws, the floats being the multiples of 2^-52 below one that `fastrand` makes of 52 random bits.
-/
namespace SR
open MeasureTheory

/-- All draws of all generators: `ω (i, b) k` is the `k`-th draw of population `i`, for integers if `b` is false and for floats if
it is true. -/
abbrev Draws := (ℕ × Bool) × ℕ → ℕ

/-- The generator of population `i`. -/
def Draws.rng (ω : Draws) (i : ℕ) : Rng (Fl ℚ) :=
  ⟨fun k => ω ((i, false), k), fun k => .fin (((ω ((i, true), k) % 2 ^ 52 : ℕ) : ℚ) / 2 ^ 52)⟩

/-- The law of one draw: a probability on the natural numbers that gives every 64-bit word a positive probability. -/
structure FullLaw (ν : Measure ℕ) : Prop where
  total : ν Set.univ = 1
  pos : ∀ r < 2 ^ 64, ν {r} ≠ 0

/-- The law of independent draws with the given laws for integers and for floats. -/
noncomputable def Draws.law (ν : Bool → Measure ℕ) : Measure Draws := Measure.infinitePi fun p => ν p.1.2

/-- The event that a search with these draws does not return from its first `n` cycles with an entry of complexity `c` in its hall
of fame that costs at most `v`. -/
def Missed [E : Env ℚ] (o : SOptions ℚ) (d : Dataset ℚ) (orderRng : Rng (Fl ℚ)) (n c : ℕ) (v : Fl ℚ) : Set Draws :=
  {ω | ¬ ∃ e k e', Engine.new o d ω.rng orderRng = some e ∧ e.step o d n = some (k, e') ∧ e'.shared.hall.AtMost c v}

end SR
