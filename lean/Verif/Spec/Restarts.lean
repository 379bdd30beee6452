import Verif.Spec.Stream
import Verif.Model.ConstOpt
/-
Vocabulary for C78: the starting points of a constant optimisation, and the best of its runs.
-/
namespace SR
variable {K : Type} [Field K] [LinearOrder K] [E : Env K]

/-- The noise on constant `i` (of `n`) in restart `k`: the normal variate made of the next two draws. -/
def restartNoise (g : Rng (Fl K)) (n k i : Nat) : Fl K := E.normal (g.floats (2 * (k * n + i))) (g.floats (2 * (k * n + i) + 1))

/-- The starting points: the present constants, then in each restart every constant times `1 + noise / 2`. -/
def startPoints (g : Rng (Fl K)) (x0 : List (Fl K)) (restarts : Nat) : List (List (Fl K)) :=
  x0 :: (List.range restarts).map fun k =>
    x0.mapIdx fun i v => E.R.mul v (E.R.add (.fin 1) (E.R.mul (E.R.rnd (1 / 2)) (restartNoise g x0.length k i)))

/-- Run `k` is the best: its minimum is below the baseline, no earlier run has a minimum as small and no later run a
smaller one. -/
structure BestRun (baseline : Fl K) (runs : List (Res (OptimResult K))) (k : Nat) (r : OptimResult K) : Prop where
  run : runs[k]? = some (.ok r)
  below : r.minimum.lt baseline = true
  earlier : ∀ (j : Nat) r', j < k → runs[j]? = some (.ok r') → r'.minimum.le r.minimum = false
  later : ∀ (j : Nat) r', k < j → runs[j]? = some (.ok r') → r'.minimum.lt r.minimum = false

/-- The objective of a fit: the loss as a function of the constants, and its gradient, computed with fresh buffers. -/
def fitObjective (o : SOptions K) (d : Dataset K) (m : Member K) : Objective K :=
  constObjective o d m.plan m.expr (Evaluator.new d.x.cols) (DContext.new d.x.cols)

/-- The objective calls that a run reports: none when it gives up. -/
def Res.calls : Res (OptimResult K) → Nat
  | .ok r => r.fCalls
  | _ => 0

end SR
