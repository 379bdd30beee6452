import Verif.Spec.History
/-
Vocabulary for C98: populations that do not exchange anything, and the life of one such population on its own.
-/
namespace SR
variable {K : Type} [Field K] [LinearOrder K] [E : Env K]

/-- The populations do not influence each other: no migration of either kind, and the frequencies of complexities, which are
counted over all populations, are used neither in tournaments nor in the acceptance test. -/
structure Isolated (o : SOptions K) : Prop where
  migration : o.migration = false
  hofMigration : o.hofMigration = false
  tournament : o.tour.useFrequency = false
  acceptance : o.useFrequency = false

/-- The generator of the orders after `k` iterations over `np` populations. -/
def rngAfter (np : Nat) (g : Rng (Fl K)) : Nat → Option (Rng (Fl K))
  | 0 => some g
  | k + 1 => (rngAfter np g k).bind fun g => (shuffle (List.range np) g).map Prod.snd

/-- The order in which iteration `k` takes the populations. -/
def orderOf (np : Nat) (g : Rng (Fl K)) (k : Nat) : Option (List Nat) :=
  (rngAfter np g k).bind fun g => (shuffle (List.range np) g).map Prod.fst

/-- The size limit of population `i` in iteration `k`: the warm-up after `k * np` tasks and those before it in the order. -/
def limitOf (o : SOptions K) (np : Nat) (g : Rng (Fl K)) (i k : Nat) : Option Nat :=
  (orderOf np g k).bind fun order =>
    getCurMaxsize o (o.niterations * np) (o.niterations * np - (k * np + order.idxOf i))

/-- One task of population `i` on its own: with fresh statistics. -/
def ownTask (o : SOptions K) (d : Dataset K) (np : Nat) (g : Rng (Fl K)) (i k : Nat) (ps : PopState K) :
    Option (TaskResult K) :=
  (limitOf o np g i k).bind fun cur => Task.run o d ⟨i, cur, Stats.new E.R o.maxsize 100000, ps⟩

/-- Population `i` after `k` tasks on its own. -/
def stage (o : SOptions K) (d : Dataset K) (np : Nat) (g : Rng (Fl K)) (i : Nat) (ps : PopState K) : Nat → Option (PopState K)
  | 0 => some ps
  | k + 1 => (stage o d np g i ps k).bind fun ps => (ownTask o d np g i k ps).map (·.ps)

/-- The result of the task number `k` of population `i` on its own, from the populations `pops`. -/
def ownResult (o : SOptions K) (d : Dataset K) (np : Nat) (g : Rng (Fl K)) (pops : List (Option (PopState K))) (ki : Nat × Nat) :
    Option (TaskResult K) :=
  pops[ki.2]?.join.bind fun ps => (stage o d np g ki.2 ps ki.1).bind (ownTask o d np g ki.2 ki.1)

/-- All pairs of an iteration and a population. -/
def allTasks (n np : Nat) : List (Nat × Nat) := (List.range n).flatMap fun k => (List.range np).map fun i => (k, i)

/-- Two final states tell the caller the same: the same populations (members, random streams and all), the same number of
evaluations and of cycles, the same loss of the reported best, and in the hall of fame, complexity by complexity, an entry in
both or in neither, with the same cost. -/
structure Shared.SameOutcome (s s' : Shared K) : Prop where
  pops : s.pops = s'.pops
  evals : s.totalEvals = s'.totalEvals
  counters : s.counters = s'.counters
  bestLoss : s.best.loss = s'.best.loss
  hall : s.hall.map (Option.map Member.cost) = s'.hall.map (Option.map Member.cost)

end SR
