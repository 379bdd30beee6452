import Verif.Model.Pool
import Verif.Spec.Schedule
/-
Vocabulary for the theorems about the thread pool.
-/
namespace SR
variable {K : Type} [Field K] [LinearOrder K] [E : Env K]

/-- The events of the driver in a trace of the pool. -/
def driverEvents (tr : List PoolEvent) : List ParEvent :=
  tr.filterMap fun | .driver e => some e | _ => none

/-- The driver of a pool as a state of the thread-free model, with the given tasks in flight. -/
def Pool.toPar (p : Pool K) (pending : List (Task K)) : Par K :=
  ⟨p.shared, p.orderRng, p.pc, p.iter, p.order, p.nextTask, p.inFlight, pending⟩

/-- The state in which the driver begins, with nothing in the pool. -/
structure Pool.Fresh (o : SOptions K) (np : Nat) (p : Pool K) : Prop where
  driver : (p.toPar []).Fresh o np
  queue : p.queue = []
  running : p.running = []
  channel : p.channel = []

/-- The driver is blocked in `recv`: there is no result. -/
def Pool.Waits (nw : Nat) (p : Pool K) : Prop :=
  p.pc = .inner ∧ ¬ (p.inFlight < nw ∧ p.nextTask < p.order.length) ∧ p.channel = []

/-- The driver panics in its next step: the size limit cannot be computed, or a result cannot be applied. -/
inductive Pool.Crash (o : SOptions K) (nw : Nat) : Pool K → Prop
  | dispatch {p : Pool K} {i : Nat} : p.pc = .inner → p.inFlight < nw → p.order[p.nextTask]? = some i →
      p.shared.dispatch o i = none → Pool.Crash o nw p
  | apply {p : Pool K} {res : TaskResult K} {rest : List (TaskResult K)} : p.pc = .inner →
      ¬ (p.inFlight < nw ∧ p.nextTask < p.order.length) → p.channel = res :: rest →
      p.shared.apply o res = none → Pool.Crash o nw p

/-- No thread, nor the driver, can do anything any more. -/
def Pool.Stuck (o : SOptions K) (full : Dataset K) (threads nw : Nat) (p : Pool K) : Prop :=
  ∀ e q, ¬ PoolStep o full threads nw p e q

/-- Where the tasks in flight are: in the queue, being executed, abandoned by a panic (`dead`), or finished, their
results being in the channel in order (`sent`). -/
structure Pool.Places (full : Dataset K) (o : SOptions K) (p : Pool K) (pending dead sent : List (Task K)) : Prop where
  all : pending.Perm (p.queue ++ p.running ++ dead ++ sent)
  dead : ∀ t ∈ dead, t.run o full = none
  sent : sent.map (·.run o full) = p.channel.map some

end SR
