import Verif.Model.Search
import Verif.Spec.Progress
/-
Vocabulary for C91: two searches that agree in everything but the number of cycles they will run.
-/
namespace SR
variable {K : Type}

/-- The same state of two searches: the populations, the hall of fame, the best member, the statistics, the number of evaluations
and the numbers of started and completed cycles; only the total number of cycles may differ. -/
structure Shared.SameSoFar (s s' : Shared K) : Prop where
  started : s'.counters.started = s.counters.started
  completed : s'.counters.completed = s.counters.completed
  stats : s'.stats = s.stats
  hall : s'.hall = s.hall
  pops : s'.pops = s.pops
  bestSub : s'.bestSub = s.bestSub
  best : s'.best = s.best
  totalEvals : s'.totalEvals = s.totalEvals

/-- The same state of two step-wise drivers. -/
structure Engine.SameSoFar (e e' : Engine K) : Prop where
  shared : e.shared.SameSoFar e'.shared
  orderRng : e'.orderRng = e.orderRng
  curIter : e'.curIter = e.curIter
  taskOrder : e'.taskOrder = e.taskOrder
  nextTask : e'.nextTask = e.nextTask

/-- The same state of two multi-worker drivers. -/
structure Par.SameSoFar (p p' : Par K) : Prop where
  shared : p.shared.SameSoFar p'.shared
  orderRng : p'.orderRng = p.orderRng
  pc : p'.pc = p.pc
  iter : p'.iter = p.iter
  order : p'.order = p.order
  nextTask : p'.nextTask = p.nextTask
  inFlight : p'.inFlight = p.inFlight
  pending : p'.pending = p.pending

/-- What "not worse" means: every entry of the hall of fame is still there or replaced by one of the same complexity that costs less,
and the best member is the same or has a smaller loss. -/
structure Shared.NotWorse [LinearOrder K] (s s' : Shared K) : Prop where
  hall : s.hall.Improves s'.hall
  best : s'.best = s.best ∨ s'.best.loss.lt s.best.loss = true

end SR
