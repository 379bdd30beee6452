import Verif.Model.Ptrs
import Verif.Spec.Prob
import Mathlib.Analysis.SpecialFunctions.Pow.Real
/-
Vocabulary for C81.
-/
namespace SR

/-- The library on the reals: exponential, logarithm (minus infinity at 0), square root, floor, and the cast to `i64`, which saturates. -/
structure Libm.OnReals (lib : Libm ℝ) : Prop where
  exp : ∀ x : ℝ, lib.exp (.fin x) = .fin (Real.exp x)
  ln : ∀ x : ℝ, 0 < x → lib.ln (.fin x) = .fin (Real.log x)
  ln_zero : lib.ln (.fin 0) = .ninf
  sqrt : ∀ x : ℝ, 0 ≤ x → lib.sqrt (.fin x) = .fin (Real.sqrt x)
  floor : ∀ x : ℝ, lib.floor (.fin x) = .fin ⌊x⌋
  toNat_neg : ∀ x : ℝ, x < 0 → lib.toNat (.fin x) = none
  toNat_nonneg : ∀ x : ℝ, 0 ≤ x → lib.toNat (.fin x) = some (min ⌊x⌋₊ (2 ^ 63 - 1))

/-- The published constants of the sampler for the mean `μ`. -/
noncomputable def hatB (μ : ℝ) : ℝ := 0.931 + 2.53 * √μ
noncomputable def hatA (μ : ℝ) : ℝ := -0.059 + 0.02483 * hatB μ
noncomputable def hatInvAlpha (μ : ℝ) : ℝ := 1.1239 + 1.1328 / (hatB μ - 3.4)
noncomputable def hatVr (μ : ℝ) : ℝ := 0.9277 - 3.6224 / (hatB μ - 2)

/-- The distance of a draw from the border of the unit interval. -/
noncomputable def border (u : ℝ) : ℝ := 1 / 2 - |u - 1 / 2|

/-- The transformed draw. -/
noncomputable def hatX (μ u : ℝ) : ℝ := (2 * hatA μ / border u + hatB μ) * (u - 1 / 2) + μ + 0.43

/-- The derivative of the transformation. -/
noncomputable def hatSlope (μ u : ℝ) : ℝ := hatA μ / border u ^ 2 + hatB μ

/-- The weight `e ^ (-μ) μ ^ k / k!` of the Poisson distribution, with `logFact k` for `ln k!`. -/
noncomputable def poissonWeight (logFact : ℕ → ℝ) (μ : ℝ) (k : ℕ) : ℝ := Real.exp (-μ + k * Real.log μ - logFact k)

/-- The area of the part of a set inside the unit square: the probability that two fair draws fall in it. -/
noncomputable def unitSquare : MeasureTheory.Measure (ℝ × ℝ) :=
  (MeasureTheory.volume.restrict (Set.Ico 0 1)).prod (MeasureTheory.volume.restrict (Set.Ico 0 1))

/-- The pairs of draws on which a round has the outcome `o` (`none`: another round). -/
def ptrsOutcome (lib : Libm ℝ) (μ : ℝ) (o : Option ℕ) : Set (ℝ × ℝ) :=
  {p | p.1 ∈ Set.Ico 0 1 ∧ p.2 ∈ Set.Ico 0 1 ∧ ptrsCandidate (Rounding.exact ℝ) lib (.fin μ) (.fin p.1) (.fin p.2) = o}

/-- The computation `m n` (with `n` iterations allowed) ends for some `n`, on the stream of `ω`. -/
def EndsOn {Ω F α : Type} (m : ℕ → Rand F α) (g : Ω → Rng F) : Set Ω := {ω | ∃ n r, m n (g ω) = some r}

end SR
