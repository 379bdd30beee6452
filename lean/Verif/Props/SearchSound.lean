import Verif.Proofs.Init
import Verif.Props.Engine
import Verif.Props.Warmup
import Verif.Props.Progress
/-
C59: everything the search holds is sound, in every reachable state of both drivers.
-/
namespace SR
variable {K : Type} [Field K] [LinearOrder K] [E : Env K] [IsStrictOrderedRing K]
variable {o : SOptions K} {d : Dataset K} {ops : List OpId} {N : Nat}

/-- C59 (beginning): for every seed, the initialisation of a search does not panic; all populations are there with the
configured number of sound members, nothing is counted, and the best member is the best one that satisfies the
constraints, unless none does. -/
theorem C59_init (Q : SearchSetting o d ops N) (seeds : Nat → Rng (Fl K)) :
    ∃ s, Shared.init o d seeds = some s ∧ s.Sound o d ops N ∧ s.Fresh o o.populations ∧
      s.totalEvals = o.populations * o.populationSize ∧ (∃ ps, some ps ∈ s.pops ∧ s.best ∈ ps.pop) ∧
      (FeasibleExpr o.cx o.maxsize s.best.expr ∨
        ∀ ps, some ps ∈ s.pops → ∀ m ∈ ps.pop, ¬ FeasibleExpr o.cx o.maxsize m.expr) ∧
      (∀ ps, some ps ∈ s.pops → ∀ m ∈ ps.pop, FeasibleExpr o.cx o.maxsize m.expr → s.best.loss.le m.loss = true) := by
  obtain ⟨s, h1, h2, h3, -, h4, h5, h6, h7⟩ := init_total Q.evol Q.init Q.costs Q.populations Q.populationSize seeds
  exact ⟨s, h1, h2, h3, h4, h5, h6, h7⟩

theorem step_sound (Q : SearchSetting o d ops N) {nw : Nat} {p q : Par K} {ev : ParEvent}
    (hp : p.shared.Sound o d ops N ∧ ∀ t ∈ p.pending, t.Sound o d ops N) (hs : ParStep o d nw p ev q) :
    q.shared.Sound o d ops N ∧ ∀ t ∈ q.pending, t.Sound o d ops N := by
  cases hs with
  | start => exact hp
  | enter => exact hp
  | leave => exact hp
  | skip => exact hp
  | dispatch _ _ _ hd =>
    obtain ⟨h1, h2⟩ := dispatch_sound Q hp.1 hd
    refine ⟨h2, fun t ht => ?_⟩
    rcases List.mem_append.mp ht with ht | ht
    · exact hp.2 t ht
    · rw [List.mem_singleton.mp ht]; exact h1
  | @receive l r t res s _ _ hpend hrun ha =>
    have ht : t.Sound o d ops N := hp.2 t (by rw [hpend]; simp)
    refine ⟨apply_sound Q.evol hp.1 ((task_done Q ht hrun).sound Q.evol ht) ha, fun x hx => hp.2 x ?_⟩
    rw [hpend]
    rcases List.mem_append.mp hx with hx | hx <;> simp [hx]

/-- C59: in every state that the multi-worker driver reaches, under every schedule, the shared state and all pending
tasks are sound. -/
theorem C59_parallel (Q : SearchSetting o d ops N) {seeds : Nat → Rng (Fl K)} {orderRng : Rng (Fl K)} {nw : Nat}
    {p q : Par K} {tr : List ParEvent} (hnew : Par.new o d seeds orderRng = some p) (hrun : ParRun o d nw p tr q) :
    q.shared.Sound o d ops N ∧ ∀ t ∈ q.pending, t.Sound o d ops N := by
  have h0 : p.shared.Sound o d ops N ∧ ∀ t ∈ p.pending, t.Sound o d ops N := by
    obtain ⟨s, h1, h2, -⟩ := C59_init Q seeds
    rw [Par.new, h1] at hnew
    simp only [Option.map_some, Option.some.injEq] at hnew
    subst hnew
    exact ⟨h2, by simp⟩
  induction hrun with
  | refl => exact h0
  | snoc _ hs ih => exact step_sound Q ih hs

theorem stepOne_sound (Q : SearchSetting o d ops N) {e e' : Engine K} {b : Bool} (he : e.shared.Sound o d ops N)
    (h : e.stepOne o d = some (b, e')) : e'.shared.Sound o d ops N := by
  unfold Engine.stepOne at h
  split at h
  · simp only [Option.some.injEq, Prod.mk.injEq] at h
    obtain ⟨-, rfl⟩ := h
    exact he
  simp only [Option.bind_eq_bind, Option.bind_eq_some_iff] at h
  obtain ⟨e1, hp, h⟩ := h
  have hs : e1.shared = e.shared := by
    unfold Engine.prepare at hp
    split at hp
    · simp at hp; rw [hp]
    split at hp
    · simp at hp; rw [hp]
    · rw [Option.map_eq_some_iff] at hp
      obtain ⟨x, -, rfl⟩ := hp; rfl
  unfold Engine.runNext at h
  split at h
  · simp only [Option.some.injEq, Prod.mk.injEq] at h
    obtain ⟨-, rfl⟩ := h
    rw [hs]; exact he
  simp only [Option.bind_eq_bind, Option.bind_eq_some_iff] at h
  obtain ⟨i, -, ⟨ot, s⟩, hd, h⟩ := h
  rw [hs] at hd
  match ot, h with
  | none, h =>
    simp only [Option.some.injEq, Prod.mk.injEq] at h
    obtain ⟨-, rfl⟩ := h
    show e1.shared.Sound o d ops N
    rw [hs]; exact he
  | some t, h =>
    obtain ⟨ht, hs'⟩ := dispatch_sound Q he hd
    simp only [Option.bind_eq_some_iff, Option.some.injEq, Prod.mk.injEq] at h
    obtain ⟨e2, hc, -, rfl⟩ := h
    unfold Engine.complete at hc
    simp only [Option.bind_eq_bind, Option.bind_eq_some_iff, Option.some.injEq] at hc
    obtain ⟨r, hr, s', ha, rfl⟩ := hc
    exact apply_sound Q.evol hs' ((task_done Q ht hr).sound Q.evol ht) ha

/-- C59: the same for the step-wise driver, for every budget. -/
theorem C59_stepwise (Q : SearchSetting o d ops N) {seeds : Nat → Rng (Fl K)} {orderRng : Rng (Fl K)} {n k : Nat}
    {e e' : Engine K} (hnew : Engine.new o d seeds orderRng = some e) (hrun : e.step o d n = some (k, e')) :
    e'.shared.Sound o d ops N := by
  have h0 : e.shared.Sound o d ops N := by
    obtain ⟨s, h1, h2, -⟩ := C59_init Q seeds
    rw [Engine.new, h1] at hnew
    simp only [Option.map_some, Option.some.injEq] at hnew
    subst hnew
    exact h2
  clear hnew
  induction n generalizing e k with
  | zero =>
    simp only [Engine.step, Option.some.injEq, Prod.mk.injEq] at hrun
    obtain ⟨-, rfl⟩ := hrun
    exact h0
  | succ n ih =>
    rw [step_succ, Option.bind_eq_some_iff] at hrun
    obtain ⟨⟨b, e1⟩, h1, h⟩ := hrun
    have hp := stepOne_sound Q h0 h1
    split at h
    · rw [Option.map_eq_some_iff] at h
      obtain ⟨⟨k', e2⟩, h2, h3⟩ := h
      simp only [Prod.mk.injEq] at h3
      obtain ⟨-, rfl⟩ := h3
      exact ih h2 hp
    · simp only [Option.some.injEq, Prod.mk.injEq] at h
      obtain ⟨-, rfl⟩ := h
      exact hp

end SR

/-! ### A concrete case -/

namespace SR.Demo
open SR
local instance instSearchSound : Env ℚ := env

theorem costsOk {o : SOptions ℚ} (h : o.parsimony = .fin 0) : CostsOk o where
  lawful := Rounding.exact_lawful ℚ
  floor := ⟨1 / 100, rfl, by norm_num⟩
  penalty c _ := by rw [h]; rfl

theorem noWarmup {o : SOptions ℚ} (h : o.warmupMaxsizeBy = .fin 0) (t r c : Nat) (hc : getCurMaxsize o t r = some c) :
    c ≤ o.maxsize := by
  unfold getCurMaxsize at hc
  rw [h] at hc
  have : Fl.lt (.fin 0) (.fin 0 : Fl ℚ) = false := by decide
  rw [this] at hc
  simp only [Bool.false_and, Bool.false_eq_true, if_false, Option.some.injEq] at hc
  exact hc.ge

/-- The hypotheses hold for the demonstration options and data. -/
theorem searchSetting : SearchSetting opts data opIds 7 where
  evol := evolSetting
  formats := formats
  ls := lsOk
  costs := costsOk rfl
  batching := rfl
  populations := by decide
  populationSize := by decide
  init := by decide
  warmup := fun _ _ => noWarmup rfl _ _ _

/-- A search with these options runs: after its four cycles, all are completed and the hall of fame holds four
members. -/
example : ((Engine.new opts data gen (gen 77)).bind fun e => (e.step opts data 4).map fun r =>
    (r.1, r.2.shared.counters.completed, r.2.shared.hall.members.length, r.2.shared.best.loss)) =
    some (4, 4, 4, .fin 0) := by decide +kernel

end SR.Demo
