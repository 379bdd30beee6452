import Verif.Model.Search
/-
How many evaluations the options allow: bounds in terms of the option values only.
-/
namespace SR
variable {K : Type} [Field K] [LinearOrder K] [E : Env K]

/-- The most objective calls one run of a minimiser may make: one at the start and, in each iteration, three gradients
and a line search; with a call limit, at most two calls beyond it. -/
def SOptions.runCalls (o : SOptions K) : Nat :=
  let free := 1 + o.optimizerIterations * (o.lineSearch.finiteMax + o.lineSearch.iterations + 3)
  if o.optimizerFCallsLimit = 0 then free else min free (o.optimizerFCallsLimit + 2)

/-- The most evaluations one constant optimisation may count: the first run, the restarts and the final evaluation. -/
def SOptions.fitCalls (o : SOptions K) : Nat :=
  if o.shouldOptimizeConstants then (1 + o.optimizerNRestarts) * o.runCalls + 1 else 0

/-- The most evaluations one step of evolution may count: a crossover evaluates two children; a mutation makes at most
ten attempts, each of which may be a constant optimisation, and evaluates one child. -/
def SOptions.passCalls (o : SOptions K) : Nat := max 2 (10 * o.fitCalls + 1)

/-- The most evaluations the constant optimisation at the end of a cycle may count. -/
def SOptions.phaseCalls (o : SOptions K) : Nat :=
  if Fl.lt (.fin 0) o.optimizerProbability then o.populationSize * o.fitCalls else 0

/-- The passes of evolution in one round: the population size divided by the tournament size, rounded up (a tournament
size of zero gives the largest integer, unless there are no members). -/
def SOptions.passes (o : SOptions K) : Nat :=
  if o.tour.n = 0 then (if o.populationSize = 0 then 0 else 2 ^ 64 - 1)
  else (o.populationSize + o.tour.n - 1) / o.tour.n

/-- The most evaluations one cycle of one population may count: evolution, the optimisation of constants and the
evaluation of all members at the end. -/
def SOptions.cycleCalls (o : SOptions K) : Nat :=
  max o.ncyclesPerIteration 1 * o.passes * o.passCalls + o.phaseCalls + o.populationSize

/-- The counter of evaluations lies within the bounds for the number of completed cycles (it stops at `2^64 - 1`). -/
def Shared.Counted (o : SOptions K) (s : Shared K) : Prop :=
  min (o.populations * o.populationSize + s.counters.completed * o.populationSize) (2 ^ 64 - 1) ≤ s.totalEvals ∧
  s.totalEvals ≤ o.populations * o.populationSize + s.counters.completed * o.cycleCalls

end SR
