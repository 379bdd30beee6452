import Verif.Spec.Migration
import Verif.Props.Best
import Verif.Spec.Demo
import Mathlib.Data.List.Forall2
/-
C70: where migrants come from, in every reachable state of a search.
-/
namespace SR
variable {K : Type} [Field K] [LinearOrder K] [E : Env K]
variable {o : SOptions K} {d : Dataset K} {ops : List OpId} {N : Nat}

/-- After a migration every position holds what it held or a copy of a migrant with a fresh id and birth. -/
theorem migrate_positions {dst migrants : List (Member K)} (frac : Fl K) (c : Counters) :
    Rand.Post (migrate dst migrants frac c) fun r => r.1.length = dst.length ∧ c.nextId ≤ r.2.nextId ∧
      ∀ (k : Nat) (m : Member K), r.1[k]? = some m → dst[k]? = some m ∨
        ∃ donor ∈ migrants, MigrantOf donor m ∧ c.nextId ≤ m.id ∧ m.id < r.2.nextId := by
  refine (C30_migrate E.R _ dst migrants frac c).mono ?_
  rintro r ⟨hl, n, -, -, h3, -, slot, src, h5, h6⟩
  refine ⟨hl, by omega, fun k m hm => ?_⟩
  rcases h6 k with ⟨q, hq, -, -, h7⟩ | ⟨-, h7⟩
  · rw [hm, Option.some.injEq] at h7
    subst h7
    exact .inr ⟨src q, (h5 q hq).2, ⟨rfl, rfl, rfl, rfl, rfl⟩, by simp, by simp [h3, hq]⟩
  · exact .inl (h7 ▸ hm)

theorem migrations_positions {candidates front pop : List (Member K)} (c : Counters) :
    Rand.Post (migrations o candidates front pop c) fun r => r.1.length = pop.length ∧
      ∀ (k : Nat) (m : Member K), r.1[k]? = some m → pop[k]? = some m ∨
        ∃ donor, MigrantOf donor m ∧ c.nextId ≤ m.id ∧ m.id < r.2.nextId ∧
          (o.migration = true ∧ donor ∈ candidates ∨ o.hofMigration = true ∧ donor ∈ front) := by
  unfold migrations
  have second : ∀ (p : Population K × Counters), (p.1.length = pop.length ∧ c.nextId ≤ p.2.nextId ∧
      ∀ (k : Nat) (m : Member K), p.1[k]? = some m → pop[k]? = some m ∨
        ∃ donor, MigrantOf donor m ∧ c.nextId ≤ m.id ∧ m.id < p.2.nextId ∧ o.migration = true ∧ donor ∈ candidates) →
      Rand.Post (if o.hofMigration then migrate p.1 front o.fractionReplacedHof p.2 else pure (p.1, p.2)) fun r =>
        r.1.length = pop.length ∧ ∀ (k : Nat) (m : Member K), r.1[k]? = some m → pop[k]? = some m ∨
        ∃ donor, MigrantOf donor m ∧ c.nextId ≤ m.id ∧ m.id < r.2.nextId ∧
          (o.migration = true ∧ donor ∈ candidates ∨ o.hofMigration = true ∧ donor ∈ front) := by
    rintro ⟨p1, c1⟩ ⟨h1, h0, h2⟩
    simp only at h1 h0 h2 ⊢
    split
    · next hh =>
      refine (migrate_positions o.fractionReplacedHof c1).mono ?_
      rintro r ⟨g1, g0, g2⟩
      refine ⟨g1.trans h1, fun k m h => ?_⟩
      rcases g2 k m h with g | ⟨donor, q1, q2, q3, q4⟩
      · rcases h2 k m g with g | ⟨donor, q1, q2, q3, q4⟩
        · exact .inl g
        · exact .inr ⟨donor, q1, q2, by omega, .inl q4⟩
      · exact .inr ⟨donor, q2, by omega, q4, .inr ⟨hh, q1⟩⟩
    · refine Rand.Post.pure ⟨h1, fun k m h => (h2 k m h).imp_right ?_⟩
      rintro ⟨donor, q1, q2, q3, q4⟩
      exact ⟨donor, q1, q2, q3, .inl q4⟩
  simp only
  split
  · next hm =>
    refine Rand.Post.bind (migrate_positions o.fractionReplaced c) ?_
    rintro r ⟨h1, h0, h2⟩
    refine second r ⟨h1, h0, fun k m h => (h2 k m h).imp_right ?_⟩
    rintro ⟨donor, q1, q2, q3, q4⟩
    exact ⟨donor, q2, q3, q4, hm, q1⟩
  · refine Rand.Post.bind (P := fun r => r = (pop, c)) (Rand.Post.pure rfl) ?_
    rintro _ rfl
    exact second (pop, c) ⟨rfl, le_refl _, fun k m h => .inl h⟩

omit [Field K] [LinearOrder K] E in
/-- The candidates come from the best members of the other populations. -/
theorem migrationCandidates_mem {bs : List (List (Member K))} {i : Nat} {m : Member K} :
    m ∈ migrationCandidates bs i ↔ ∃ (j : Nat) (l : List (Member K)), j ≠ i ∧ bs[j]? = some l ∧ m ∈ l := by
  unfold migrationCandidates
  simp only [List.mem_flatten, List.mem_filterMap]
  constructor
  · rintro ⟨l, ⟨⟨l', j⟩, h1, h2⟩, h3⟩
    by_cases hj : j = i
    · simp [hj] at h2
    · simp only [hj, ne_eq, not_false_eq_true, if_true, Option.some.injEq] at h2
      subst h2
      exact ⟨j, l', hj, by simpa [List.mem_zipIdx_iff_getElem?] using h1, h3⟩
  · rintro ⟨j, l, h1, h2, h3⟩
    exact ⟨l, ⟨(l, j), by simpa [List.mem_zipIdx_iff_getElem?] using h2, by simp [h1]⟩, h3⟩

variable [IsStrictOrderedRing K]

omit [IsStrictOrderedRing K] in
/-- Members of the pool are among the best. -/
theorem bestSubPop_among {p : Population K} {n : Nat} {l : List (Member K)} (hn : ∀ m ∈ p, m.cost.isNan = false)
    (h : bestSubPop E.sort p n = some l) : ∀ m ∈ l, AmongBest n p m := by
  obtain ⟨best, rest, h1, h2, h3, h4, h5⟩ := C30_best_sub_pop E.sort p n hn
  rw [h, Option.some.injEq] at h1
  subst h1
  intro m hm
  refine ⟨h2.mem_iff.mp (List.mem_append_left _ hm), ?_⟩
  have hperm := (h2.filter fun x => x.cost.lt m.cost).length_eq
  rw [← hperm, List.filter_append, List.length_append]
  have hrest : rest.filter (fun x => x.cost.lt m.cost) = [] := by
    rw [List.filter_eq_nil_iff]
    intro y hy hlt
    have := h5 m hm y hy
    have := Fl.lt_of_le_of_lt this hlt
    rw [Fl.lt_irrefl] at this
    exact Bool.false_ne_true this
  rw [hrest, List.length_nil, Nat.add_zero]
  have hlt : (l.filter fun x => x.cost.lt m.cost).length < l.length := by
    rw [List.length_filter_lt_length_iff_exists]
    exact ⟨m, hm, by simp [Fl.lt_irrefl]⟩
  omega

/-- In every reachable state the migrant pool of population `j` is the cheapest part of the population last returned. -/
theorem History.pool (Q : SearchSetting o d ops N) {seeds : Nat → Rng (Fl K)} {s0 s : Shared K}
    (h0 : Shared.init o d seeds = some s0) {rs : List (TaskResult K)} {pend : List (Task K)}
    (h : History o d s0 rs s pend) (j : Nat) (sub : List (Member K)) (hj : s.bestSub[j]? = some sub) :
    ∃ p, lastPop s0 rs j = some p ∧ bestSubPop E.sort p o.topn = some sub := by
  have hs0 : s0.Sound o d ops N := by
    obtain ⟨s, h1, h2, -⟩ := init_total Q.evol Q.init Q.costs Q.populations Q.populationSize seeds
    rw [h0, Option.some.injEq] at h1
    exact h1 ▸ h2
  induction h generalizing sub with
  | init =>
    unfold Shared.init at h0
    simp only [Option.bind_eq_bind, Option.bind_eq_some_iff] at h0
    obtain ⟨⟨pops, hall⟩, e1, best, e2, bs, e3, e4⟩ := h0
    simp only [Option.some.injEq] at e4
    subst e4
    simp only at hj ⊢
    have hf : ∀ (l : List (PopState K)) (bs : List (List (Member K))),
        l.mapM (fun ps => bestSubPop E.sort ps.pop o.topn) = some bs →
        List.Forall₂ (fun ps b => bestSubPop E.sort ps.pop o.topn = some b) l bs := by
      intro l
      induction l with
      | nil => intro bs h; simp at h; subst h; exact .nil
      | cons a l ih =>
        intro bs h
        simp only [List.mapM_cons, Option.bind_eq_bind, Option.bind_eq_some_iff, Option.pure_def, Option.some.injEq] at h
        obtain ⟨b, hb, bs', hbs, rfl⟩ := h
        exact .cons hb (ih _ hbs)
    have hf := List.forall₂_iff_get.mp (hf _ _ e3)
    obtain ⟨hlt, he⟩ := List.getElem?_eq_some_iff.mp hj
    have hlt' : j < pops.length := hf.1 ▸ hlt
    have := hf.2 j hlt' hlt
    simp only [List.get_eq_getElem, he] at this
    exact ⟨pops[j].pop, by simp [lastPop, hlt'], this⟩
  | dispatch h hd ih =>
    obtain ⟨-, -, -, -, rfl⟩ := dispatch_task hd
    exact ih _ hj
  | @apply rs s s' l r t res h hrun ha ih =>
    have ht := (h.sound Q hs0).2.1 t (by simp)
    have hdone := task_done Q ht hrun
    obtain ⟨hlt, -, -, -, hbs, -⟩ := apply_result ha
    rw [hbs] at hj
    unfold lastPop
    rw [List.reverse_append, List.reverse_singleton, List.singleton_append]
    by_cases hjt : res.popIdx = j
    · rw [List.find?_cons_of_pos (by simp [hjt])]
      subst hjt
      rw [List.getElem?_set_self hlt, Option.some.injEq] at hj
      subst hj
      exact ⟨_, rfl, hdone.sub⟩
    · rw [List.find?_cons_of_neg (by simp [hjt])]
      rw [List.getElem?_set_ne hjt] at hj
      exact ih _ hj

/-- C70: whenever, in an execution of either driver, the result of a task for population `i` is applied: the other
populations are untouched; population `i` keeps its size, and each of its positions holds the member the task returned
there, or a copy under a fresh id of a donor, which (if `migration` is on) is one of the `topn` cheapest members of some
*other* population as that was last returned or initialised, or (if `hof_migration` is on) is on the Pareto front of the
hall of fame. -/
theorem C70_donors (Q : SearchSetting o d ops N) {seeds : Nat → Rng (Fl K)} {s0 s s' : Shared K}
    (h0 : Shared.init o d seeds = some s0) {rs : List (TaskResult K)} {l r : List (Task K)} {t : Task K}
    (h : History o d s0 rs s (l ++ t :: r)) {res : TaskResult K} (hrun : t.run o d = some res)
    (ha : s.apply o res = some s') :
    (∀ (j : Nat), j ≠ t.popIdx → s'.pops[j]? = s.pops[j]?) ∧
    ∃ ps', s'.pops[t.popIdx]? = some (some ps') ∧ ps'.pop.length = res.ps.pop.length ∧
      ∀ (k : Nat) (m : Member K), ps'.pop[k]? = some m → res.ps.pop[k]? = some m ∨
        ∃ donor, MigrantOf donor m ∧ res.ps.counters.nextId ≤ m.id ∧ m.id < ps'.counters.nextId ∧
          ((o.migration = true ∧ ∃ (j : Nat) (p : Population K), j ≠ t.popIdx ∧ lastPop s0 rs j = some p ∧
              AmongBest o.topn p donor) ∨
            (o.hofMigration = true ∧ donor ∈ s'.hall.paretoFront)) := by
  have hs0 : s0.Sound o d ops N := by
    obtain ⟨s, h1, h2, -⟩ := init_total Q.evol Q.init Q.costs Q.populations Q.populationSize seeds
    rw [h0, Option.some.injEq] at h1
    exact h1 ▸ h2
  obtain ⟨hs, hpend, hres⟩ := h.sound Q hs0
  have hdone := task_done Q (hpend t (by simp)) hrun
  obtain ⟨hlt, hlt', -, -, hbs, -, -, pop, counters, rng, hmig, hpops⟩ := apply_result ha
  have hidx := hdone.idx
  rw [hidx] at hlt hlt' hbs hmig hpops
  refine ⟨fun j hj => by rw [hpops, List.getElem?_set_ne (Ne.symm hj)], _, by rw [hpops, List.getElem?_set_self hlt'], ?_⟩
  obtain ⟨g1, g2⟩ := migrations_positions (o := o) res.ps.counters _ _ _ hmig
  refine ⟨g1, fun k m hm => (g2 k m hm).imp_right ?_⟩
  rintro ⟨donor, q1, q2, q3, ⟨q4, q5⟩ | q4⟩
  · refine ⟨donor, q1, q2, q3, .inl ⟨q4, ?_⟩⟩
    obtain ⟨j, sub, h1, h2, h3⟩ := migrationCandidates_mem.mp q5
    rw [hbs, List.getElem?_set_ne (Ne.symm h1)] at h2
    obtain ⟨p, p1, p2⟩ := h.pool Q h0 j sub h2
    refine ⟨j, p, h1, p1, bestSubPop_among ?_ p2 donor h3⟩
    intro x hx
    refine Member.Sound.cost_not_nan (o := o) (d := d) (ops := ops) (N := N) Q.evol Q.costs ?_
    unfold lastPop at p1
    split at p1
    · next r' hr' =>
      simp only [Option.some.injEq] at p1
      subst p1
      exact (hres r' (by simpa using List.mem_of_find?_eq_some hr')).ps.pop x hx
    · split at p1
      · next ps hps =>
        simp only [Option.some.injEq] at p1
        subst p1
        exact (hs0.pops ps (List.mem_of_getElem? hps)).pop x hx
      · simp at p1
  · exact ⟨donor, q1, q2, q3, .inr q4⟩

end SR

namespace SR
open Demo

/-- The demonstration environment with an `exp` that lets the Poisson sampler return more than zero. -/
def migrationEnv : Env ℚ := { env with libm := ⟨fun _ => .fin (1 / 2), fun _ => .fin 0, id, id, fun _ => some 0⟩ }

/-- Two populations with migration between them. -/
def migrationOpts : SOptions ℚ :=
  { smallOpts 1 with populations := 2, niterations := 2, ncyclesPerIteration := 1, migration := true,
                     fractionReplaced := .fin 1, tour := ⟨2, .fin (9 / 10), true, .fin 20, 3⟩ }

local instance instMigration : Env ℚ := migrationEnv

/-- Concrete: after the first task of this search, the first member of population 0 is a copy of the second member of
population 1. -/
example : ((Engine.new migrationOpts data (fun i => gen (2 + i)) (gen 77)).bind fun e =>
    (e.step migrationOpts data 1).map fun r => r.2.shared.pops.map fun p =>
      (p.map fun ps => ps.pop.map fun (m : Member ℚ) => (m.id, m.parent)).getD []) =
    some [[(4, some 4294967297), (3, some 0)], [(4294967296, none), (4294967297, none)]] := by decide +kernel

end SR
