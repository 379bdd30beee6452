import Verif.Model.Search
import Mathlib.Data.List.Perm.Basic
/-
Facts about the shared state of the search: dispatching a task and applying its result.
-/
namespace SR
variable {K : Type} [Field K] [LinearOrder K] [E : Env K]

/-- What a successful dispatch does. -/
theorem dispatch_task {o : SOptions K} {s s' : Shared K} {i : Nat} {t : Task K}
    (h : s.dispatch o i = some (some t, s')) :
    s.pops[i]? = some (some t.ps) ∧ t.popIdx = i ∧ t.stats = s.stats.normalize E.R ∧
    getCurMaxsize o s.counters.total (s.counters.total - s.counters.started) = some t.cur ∧
    s' = { s with pops := s.pops.set i none, counters := { s.counters with started := s.counters.started + 1 } } := by
  unfold Shared.dispatch at h
  simp only [Option.bind_eq_bind, Option.bind_eq_some_iff] at h
  obtain ⟨x, hx, h⟩ := h
  match x, h with
  | none, h => simp at h
  | some ps, h =>
    simp only [Option.bind_eq_some_iff, Option.some.injEq, Prod.mk.injEq] at h
    obtain ⟨cur, hc, rfl, rfl⟩ := h
    exact ⟨hx, rfl, rfl, hc, rfl⟩

/-- A dispatch that finds nothing. -/
theorem dispatch_skip {o : SOptions K} {s s' : Shared K} {i : Nat} (h : s.dispatch o i = some (none, s')) :
    s.pops[i]? = some none ∧ s' = s := by
  unfold Shared.dispatch at h
  simp only [Option.bind_eq_bind, Option.bind_eq_some_iff] at h
  obtain ⟨x, hx, h⟩ := h
  match x, h with
  | none, h => simp at h; exact ⟨hx, h.symm⟩
  | some ps, h =>
    simp only [Option.bind_eq_some_iff, Option.some.injEq, Prod.mk.injEq] at h
    obtain ⟨cur, hc, h, -⟩ := h
    simp at h

/-- The result of a task keeps its population number and size limit. -/
theorem run_popIdx {o : SOptions K} {full : Dataset K} {t : Task K} {r : TaskResult K} (h : t.run o full = some r) :
    r.popIdx = t.popIdx ∧ r.cur = t.cur := by
  unfold Task.run at h
  rw [Option.map_eq_some_iff] at h
  obtain ⟨⟨a, b⟩, -, rfl⟩ := h
  exact ⟨rfl, rfl⟩

/-- What applying a result does. -/
theorem apply_result {o : SOptions K} {s s' : Shared K} {r : TaskResult K} (h : s.apply o r = some s') :
    r.popIdx < s.bestSub.length ∧ r.popIdx < s.pops.length ∧
    s'.counters = { s.counters with completed := s.counters.completed + 1 } ∧
    s'.stats = (s.stats.updateFromPopulation E.R (r.ps.pop.map (·.complexity))).moveWindow E.R ∧
    s'.bestSub = s.bestSub.set r.popIdx r.bestSub ∧
    s'.totalEvals = satAdd64 s.totalEvals r.evals ∧
    (∃ hall, s.hall.update o.cx r.cur r.bestSeen.members = some hall ∧
      absorbMembers o r.cur r.ps.pop (hall, s.best) = some (s'.hall, s'.best)) ∧
    ∃ pop counters rng, migrations o (migrationCandidates s'.bestSub r.popIdx) s'.hall.paretoFront r.ps.pop
        r.ps.counters r.ps.rng = some ((pop, counters), rng) ∧
      s'.pops = s.pops.set r.popIdx (some { r.ps with pop, counters, rng }) := by
  unfold Shared.apply at h
  split at h
  · next hlt =>
    simp only [Option.bind_eq_bind, Option.bind_eq_some_iff] at h
    obtain ⟨hall, h1, ⟨hall', best⟩, h2, ⟨⟨pop, counters⟩, rng⟩, h3, h4⟩ := h
    simp only [Option.some.injEq] at h4
    subst h4
    exact ⟨hlt.1, hlt.2, rfl, rfl, rfl, rfl, ⟨hall, h1, h2⟩, pop, counters, rng, h3, rfl⟩
  · simp at h

end SR
