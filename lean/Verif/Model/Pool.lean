import Verif.Model.Search
/-
Model of the execution of `equation_search_parallel` on a Rayon thread pool, search_utils.rs:149-218 and 507-562.
`Model/Search.lean` abstracts from threads: there any spawned task may finish.  Here the pool has a number of threads,
and the closure passed to `rayon::scope` occupies one of them while it runs, also while it waits in `recv`:
`rayon::scope` called by a thread of the pool runs its closure on that thread; called from outside it injects the
closure into the pool and blocks the caller.  Rayon itself is not modelled in detail: the queue may hand out any spawned
task, and the other threads of the pool are assumed to have no other work.
-/
namespace SR
variable {K : Type} [Field K] [LinearOrder K] [E : Env K]

/-- The driver (the fields of `Par` except the pending tasks), the tasks waiting in the pool, the tasks being executed
by its threads, and the results in the channel. -/
structure Pool (K : Type) where
  shared : Shared K
  orderRng : Rng (Fl K)
  pc : Pc
  iter : Nat
  order : List Nat
  nextTask : Nat
  inFlight : Nat
  queue : List (Task K)
  running : List (Task K)
  channel : List (TaskResult K)

/-- What happens in the pool: an event of the driver, or a thread begins, finishes or abandons (panic) the task of
population `i`. -/
inductive PoolEvent | driver (e : ParEvent) | take (i : Nat) | finish (i : Nat) | die (i : Nat)
deriving DecidableEq, Repr

/-- One step with `threads` threads and at most `nw` tasks in flight. -/
inductive PoolStep (o : SOptions K) (full : Dataset K) (threads nw : Nat) : Pool K → PoolEvent → Pool K → Prop
  /-- the head of an iteration, search_utils.rs:520-525 -/
  | start {p : Pool K} {order : List Nat} {rng : Rng (Fl K)} : p.pc = .idle → p.iter < o.niterations →
      shuffle (List.range p.shared.pops.length) p.orderRng = some (order, rng) →
      PoolStep o full threads nw p (.driver .start)
        { p with orderRng := rng, pc := .outer, iter := p.iter + 1, order, nextTask := 0, inFlight := 0 }
  /-- the outer loop is entered, search_utils.rs:527 -/
  | enter {p : Pool K} : p.pc = .outer → (p.nextTask < p.order.length ∨ 0 < p.inFlight) →
      PoolStep o full threads nw p (.driver .other) { p with pc := .inner }
  /-- the outer loop ends -/
  | leave {p : Pool K} : p.pc = .outer → ¬ (p.nextTask < p.order.length ∨ 0 < p.inFlight) →
      PoolStep o full threads nw p (.driver .other) { p with pc := .idle }
  /-- a task is spawned: it is put into the queue of the pool, search_utils.rs:528-547 -/
  | dispatch {p : Pool K} {i : Nat} {t : Task K} {s : Shared K} : p.pc = .inner → p.inFlight < nw →
      p.order[p.nextTask]? = some i → p.shared.dispatch o i = some (some t, s) →
      PoolStep o full threads nw p (.driver (.dispatch i))
        { p with shared := s, nextTask := p.nextTask + 1, inFlight := p.inFlight + 1, queue := p.queue ++ [t] }
  /-- a population that is not there is passed over, search_utils.rs:532-534 -/
  | skip {p : Pool K} {i : Nat} {s : Shared K} : p.pc = .inner → p.inFlight < nw →
      p.order[p.nextTask]? = some i → p.shared.dispatch o i = some (none, s) →
      PoolStep o full threads nw p (.driver .other) { p with nextTask := p.nextTask + 1 }
  /-- the first result in the channel is received and applied, search_utils.rs:549-559; while the channel is empty the
  driver waits -/
  | receive {p : Pool K} {res : TaskResult K} {rest : List (TaskResult K)} {s : Shared K} : p.pc = .inner →
      ¬ (p.inFlight < nw ∧ p.nextTask < p.order.length) → p.channel = res :: rest →
      p.shared.apply o res = some s →
      PoolStep o full threads nw p (.driver (.receive res.popIdx))
        { p with shared := s, pc := .outer, inFlight := p.inFlight - 1, channel := rest }
  /-- a thread takes a task from the queue; one thread is occupied by the driver -/
  | take {p : Pool K} {l r : List (Task K)} {t : Task K} : p.queue = l ++ t :: r → p.running.length + 1 < threads →
      PoolStep o full threads nw p (.take t.popIdx) { p with queue := l ++ r, running := t :: p.running }
  /-- a thread finishes a task and sends the result, search_utils.rs:543-545 -/
  | finish {p : Pool K} {l r : List (Task K)} {t : Task K} {res : TaskResult K} : p.running = l ++ t :: r →
      t.run o full = some res →
      PoolStep o full threads nw p (.finish t.popIdx) { p with running := l ++ r, channel := p.channel ++ [res] }
  /-- a task panics: its thread becomes free again, nothing is sent -/
  | die {p : Pool K} {l r : List (Task K)} {t : Task K} : p.running = l ++ t :: r → t.run o full = none →
      PoolStep o full threads nw p (.die t.popIdx) { p with running := l ++ r }

/-- Runs with their events. -/
inductive PoolRun (o : SOptions K) (full : Dataset K) (threads nw : Nat) : Pool K → List PoolEvent → Pool K → Prop
  | refl (p : Pool K) : PoolRun o full threads nw p [] p
  | snoc {p q r : Pool K} {tr : List PoolEvent} {e : PoolEvent} : PoolRun o full threads nw p tr q →
      PoolStep o full threads nw q e r → PoolRun o full threads nw p (tr ++ [e]) r

/-- `equation_search_parallel` up to `run_scoped_search`, search_utils.rs:149-211: the number of workers and the state in
which the driver starts (`none`: the assertion of :189-192 fails, or a panic during initialisation). -/
def Pool.new (o : SOptions K) (full : Dataset K) (seeds : Nat → Rng (Fl K)) (orderRng : Rng (Fl K)) (threads : Nat)
    (inPool : Bool) : Option (Nat × Pool K) := do
  let shared ← Shared.init o full seeds
  let nw ← nWorkers threads inPool shared.pops.length
  some (nw, ⟨shared, orderRng, .idle, 0, [], 0, 0, [], [], []⟩)

/-- The `for` loop has ended (`run_scoped_search` returns), search_utils.rs:520. -/
def Pool.Final (o : SOptions K) (p : Pool K) : Prop := p.pc = .idle ∧ o.niterations ≤ p.iter

end SR
