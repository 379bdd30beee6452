import Verif.Model.Search
/-
Vocabulary for the theorems about the two search drivers.
-/
namespace SR
variable {K : Type} [Field K] [LinearOrder K] [E : Env K]

/-- The populations dispatched in a trace, in order. -/
def dispatches (tr : List ParEvent) : List Nat :=
  tr.filterMap fun | .dispatch i => some i | _ => none

/-- The populations whose result was received in a trace, in order. -/
def receives (tr : List ParEvent) : List Nat :=
  tr.filterMap fun | .receive i => some i | _ => none

/-- The events of one whole iteration over `np` populations: it begins with the only `start`, and every population
`0 .. np-1` is dispatched exactly once and its result received exactly once. -/
structure IterationTrace (np : Nat) (b : List ParEvent) : Prop where
  starts : b.head? = some .start
  once : b.count .start = 1
  dispatched : (dispatches b).Perm (List.range np)
  received : (receives b).Perm (List.range np)

/-- The shared state at the beginning of a search over `np` populations: all populations are in the pool and nothing
was counted. -/
structure Shared.Fresh (o : SOptions K) (np : Nat) (s : Shared K) : Prop where
  pops : s.pops.length = np
  present : ∀ (i : Nat), i < np → ∃ ps, s.pops[i]? = some (some ps)
  bestSub : s.bestSub.length = np
  total : s.counters.total = o.niterations * np
  started : s.counters.started = 0
  completed : s.counters.completed = 0

/-- The state in which the multi-worker driver begins. -/
structure Par.Fresh (o : SOptions K) (np : Nat) (p : Par K) : Prop where
  shared : p.shared.Fresh o np
  pc : p.pc = .idle
  iter : p.iter = 0
  pending : p.pending = []
  inFlight : p.inFlight = 0

/-- The state in which the step-wise driver begins. -/
structure Engine.Fresh (o : SOptions K) (np : Nat) (e : Engine K) : Prop where
  shared : e.shared.Fresh o np
  curIter : e.curIter = 0
  taskOrder : e.taskOrder = []
  nextTask : e.nextTask = 0

/-- The driver waits for a result although no running task will ever deliver one: all of them have panicked. -/
def Par.Hangs (o : SOptions K) (full : Dataset K) (nw : Nat) (p : Par K) : Prop :=
  p.pc = .inner ∧ ¬ (p.inFlight < nw ∧ p.nextTask < p.order.length) ∧ p.pending ≠ [] ∧
    ∀ t ∈ p.pending, t.run o full = none

end SR
