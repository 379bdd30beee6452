import Verif.Model.Rand
import Verif.Spec.Float
import Mathlib.Probability.Independence.Basic
import Mathlib.MeasureTheory.Measure.Lebesgue.Basic
/-
Vocabulary for C76: a fair random generator, as a probability space.
-/
namespace SR
open MeasureTheory ProbabilityTheory

/-- The generator whose float draws are the reals `U 0 ω, U 1 ω, ...` and whose integer draws are `I 0 ω, I 1 ω, ...`. -/
def streamOf {Ω : Type} (I : ℕ → Ω → ℕ) (U : ℕ → Ω → ℝ) (ω : Ω) : Rng (Fl ℝ) :=
  ⟨fun k => I k ω, fun k => .fin (U k ω)⟩

/-- The float draws are independent and uniform on `[0, 1)`. -/
structure FairFloats {Ω : Type} [MeasurableSpace Ω] (P : Measure Ω) (U : ℕ → Ω → ℝ) : Prop where
  meas : ∀ k, Measurable (U k)
  unit : ∀ k ω, 0 ≤ U k ω ∧ U k ω < 1
  law : ∀ k, P.map (U k) = volume.restrict (Set.Ico 0 1)
  indep : iIndepFun U P

/-- The integer draws are independent, and reduced to a range `0..n` with `n ≤ M` they are uniform on it. -/
structure FairInts {Ω : Type} [MeasurableSpace Ω] (P : Measure Ω) (M : ℕ) (I : ℕ → Ω → ℕ) : Prop where
  meas : ∀ k, Measurable (I k)
  law : ∀ k n r, r < n → n ≤ M → P {ω | I k ω % n = r} = 1 / n
  indep : iIndepFun I P

/-- The event that a computation returns `a` (whatever it leaves of the stream). -/
def Returns {Ω F α : Type} (m : Rand F α) (g : Ω → Rng F) (a : α) : Set Ω := {ω | ∃ g', m (g ω) = some (a, g')}

end SR
