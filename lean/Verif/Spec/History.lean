import Verif.Spec.Sound
import Verif.Spec.Schedule
/-
The history of a search: the results that were applied to the shared state, in order.
-/
namespace SR
variable {K : Type} [Field K] [LinearOrder K] [E : Env K]

/-- `History o d s0 rs s pend`: from `s0` the search got to `s` by dispatching tasks and applying the results `rs` of
dispatched tasks, in this order; the tasks `pend` were dispatched and their results not yet applied. -/
inductive History (o : SOptions K) (d : Dataset K) (s0 : Shared K) :
    List (TaskResult K) → Shared K → List (Task K) → Prop
  | init : History o d s0 [] s0 []
  | dispatch {rs : List (TaskResult K)} {s s' : Shared K} {pend : List (Task K)} {i : Nat} {t : Task K} :
      History o d s0 rs s pend → s.dispatch o i = some (some t, s') → History o d s0 rs s' (pend ++ [t])
  | apply {rs : List (TaskResult K)} {s s' : Shared K} {l r : List (Task K)} {t : Task K} {res : TaskResult K} :
      History o d s0 rs s (l ++ t :: r) → t.run o d = some res → s.apply o res = some s' →
      History o d s0 (rs ++ [res]) s' (l ++ r)

/-- What is claimed of the best member `b` after the results `rs`, the initial state being `s0` (C48). -/
structure BestSpec (o : SOptions K) (d : Dataset K) (s0 : Shared K) (rs : List (TaskResult K)) (b : Member K) : Prop where
  /-- it carries the loss, cost and complexity of its own expression -/
  scored : b.Scored o d
  /-- it is an initial member, or a member of an applied result that satisfies the constraints at that task's limit -/
  origin : (∃ ps, some ps ∈ s0.pops ∧ b ∈ ps.pop) ∨ ∃ r ∈ rs, b ∈ r.ps.pop ∧ FeasibleExpr o.cx r.cur b.expr
  /-- it satisfies the constraints, or it is the fallback chosen because no initial member does -/
  feasible : FeasibleExpr o.cx o.maxsize b.expr ∨
    b = s0.best ∧ ∀ ps, some ps ∈ s0.pops → ∀ m ∈ ps.pop, ¬ FeasibleExpr o.cx o.maxsize m.expr
  /-- no initial member that satisfies the constraints has smaller loss -/
  initial : ∀ ps, some ps ∈ s0.pops → ∀ m ∈ ps.pop, FeasibleExpr o.cx o.maxsize m.expr → b.loss.le m.loss = true
  /-- no member of an applied result that satisfies the constraints at that task's limit has smaller loss -/
  results : ∀ r ∈ rs, ∀ m ∈ r.ps.pop, FeasibleExpr o.cx r.cur m.expr → b.loss.le m.loss = true

end SR
