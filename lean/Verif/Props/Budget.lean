import Verif.Proofs.Budget
import Verif.Props.Best
import Verif.Props.Cases
/-
C89: the counter of evaluations lies between bounds that the options give.
-/
namespace SR
variable {K : Type} [Field K] [LinearOrder K] [E : Env K]
variable {o : SOptions K} {d : Dataset K}

/-- The size of all populations is the configured one, and the counter is within its bounds. -/
structure Budgeted (o : SOptions K) (s : Shared K) (pend : List (Task K)) : Prop where
  counted : s.Counted o
  pops : ∀ ps, some ps ∈ s.pops → ps.pop.length = o.populationSize
  tasks : ∀ t ∈ pend, t.ps.pop.length = o.populationSize

theorem initMembers_length (full : Dataset K) : ∀ (k : Nat) (st : InitState K),
    (initMembers o full k st).Post fun r => r.members.length = st.members.length + k := by
  intro k
  induction k with
  | zero => intro st; exact Rand.Post.pure rfl
  | succ k ih =>
    intro st
    unfold initMembers
    refine Rand.Post.bind (P := fun r => r.members.length = st.members.length + 1) ?_ fun st1 h1 =>
      (ih st1).mono fun r hr => by omega
    unfold initMember
    refine Rand.Post.bind Rand.Post.true fun e _ => Rand.Post.bind Rand.Post.true fun m _ =>
      Rand.Post.bind Rand.Post.true ?_
    rintro ⟨m', _, ev⟩ -
    exact Rand.Post.bind Rand.Post.true fun hall _ => Rand.Post.pure (by simp)

theorem initPops_length (full : Dataset K) (seeds : Nat → Rng (Fl K)) : ∀ (k i : Nat) (hall : Hall K)
    (r : List (PopState K) × Hall K), initPops o full seeds k i hall = some r →
    r.1.length = k ∧ ∀ ps ∈ r.1, ps.pop.length = o.populationSize := by
  intro k
  induction k with
  | zero => intro i hall r h; cases h; simp
  | succ k ih =>
    intro i hall r h
    simp only [initPops, Option.bind_eq_bind, Option.bind_eq_some_iff] at h
    obtain ⟨⟨ps, hall1⟩, h1, ⟨rest, hall2⟩, h2, h⟩ := h
    cases h
    obtain ⟨a, b⟩ := ih _ _ _ h2
    refine ⟨by simp only [List.length_cons] at a ⊢; omega, ?_⟩
    unfold initPop at h1
    rw [Option.map_eq_some_iff] at h1
    obtain ⟨⟨st, rng⟩, hm, h1⟩ := h1
    have hl := initMembers_length full _ _ _ _ _ hm
    simp only [Prod.mk.injEq] at h1
    obtain ⟨rfl, -⟩ := h1
    intro q hq
    rcases List.mem_cons.mp hq with rfl | hq
    · simpa using hl
    · exact b q hq

theorem init_budgeted {seeds : Nat → Rng (Fl K)} {s : Shared K} (h : Shared.init o d seeds = some s) :
    Budgeted o s [] ∧ s.Fresh o o.populations := by
  simp only [Shared.init, Option.bind_eq_bind, Option.bind_eq_some_iff, Option.some.injEq] at h
  obtain ⟨⟨pops, hall⟩, h1, best, -, bestSub, h3, rfl⟩ := h
  obtain ⟨a, b⟩ := initPops_length d seeds _ _ _ _ h1
  simp only at a b h3
  refine ⟨⟨⟨?_, ?_⟩, ?_, by simp⟩, ?_⟩
  · simp
  · simp
  · intro ps hps
    simp only [List.mem_map, Option.some.injEq, exists_eq_right] at hps
    exact b ps hps
  · refine ⟨by simp [a], fun i hi => ?_, ?_, rfl, rfl, rfl⟩
    · have : i < pops.length := by omega
      exact ⟨pops[i], by simp [List.getElem?_eq_getElem this]⟩
    · rw [mapM_some_length _ _ _ h3, a]

theorem migrations_length (candidates front : List (Member K)) (pop : Population K) (c : Counters) :
    (migrations o candidates front pop c).Post fun r => r.1.length = pop.length := by
  have hm : ∀ (dst migrants : List (Member K)) frac c,
      (migrate dst migrants frac c).Post fun r => r.1.length = dst.length :=
    fun dst migrants frac c => (C30_migrate _ _ dst migrants frac c).mono fun r hr => hr.1
  unfold migrations
  have hend : ∀ p c, p.length = pop.length → (if o.hofMigration = true then migrate p front o.fractionReplacedHof c
      else pure (p, c) : Rand (Fl K) (Population K × Counters)).Post fun r => r.1.length = pop.length := by
    intro p c hp
    split
    · exact (hm _ _ _ _).mono fun r hr => hr.trans hp
    · exact Rand.Post.pure hp
  simp only
  split
  · refine Rand.Post.bind (hm _ _ _ _) ?_
    rintro ⟨p, c⟩ hp
    exact hend p c hp
  · refine Rand.Post.bind (P := fun r => r.1.length = pop.length) (Rand.Post.pure rfl) ?_
    rintro ⟨p, c⟩ hp
    exact hend p c hp

theorem apply_budgeted {s s' : Shared K} {pend pend' : List (Task K)} {t : Task K} {r : TaskResult K}
    (h : Budgeted o s pend) (ht : t ∈ pend) (hsub : ∀ x ∈ pend', x ∈ pend) (hr : t.run o d = some r)
    (ha : s.apply o r = some s') : Budgeted o s' pend' := by
  obtain ⟨r1, r2, r3⟩ := task_calls o d t r (h.tasks t ht) hr
  simp only [Shared.apply] at ha
  split at ha
  swap
  · cases ha
  simp only [Option.bind_eq_bind, Option.bind_eq_some_iff, Option.some.injEq] at ha
  obtain ⟨hall, -, ⟨hall', best⟩, -, ⟨⟨pop, counters⟩, rng⟩, hm, rfl⟩ := ha
  have hl := migrations_length _ _ _ _ _ _ _ hm
  simp only at hl
  refine ⟨⟨?_, ?_⟩, ?_, fun x hx => h.tasks x (hsub x hx)⟩
  · have h1 := h.counted.1
    simp only [satAdd64, Nat.add_mul] at h1 ⊢
    omega
  · have h1 := h.counted.2
    simp only [satAdd64, Nat.add_mul] at h1 ⊢
    omega
  · intro ps hps
    rcases List.mem_or_eq_of_mem_set hps with hps | hps
    · exact h.pops ps hps
    · cases hps
      exact hl.trans r1

theorem History.budgeted {s0 s : Shared K} {rs : List (TaskResult K)} {pend : List (Task K)}
    (h0 : Budgeted o s0 []) (h : History o d s0 rs s pend) : Budgeted o s pend := by
  induction h with
  | init => exact h0
  | @dispatch rs s s' pend i t _ hd ih =>
    simp only [Shared.dispatch, Option.bind_eq_bind, Option.bind_eq_some_iff] at hd
    obtain ⟨x, hx, hd⟩ := hd
    cases x with
    | none => cases hd
    | some ps =>
      simp only [Option.bind_eq_some_iff] at hd
      obtain ⟨cur, -, hd⟩ := hd
      cases hd
      refine ⟨ih.counted, fun q hq => ?_, fun x hx' => ?_⟩
      · rcases List.mem_or_eq_of_mem_set hq with hq | hq
        · exact ih.pops q hq
        · cases hq
      · rcases List.mem_append.mp hx' with hx' | hx'
        · exact ih.tasks x hx'
        · rw [List.mem_singleton.mp hx']
          exact ih.pops ps (List.mem_of_getElem? hx)
  | @apply rs s s' l r t res _ hr ha ih =>
    exact apply_budgeted ih (by simp) (fun x hx => by
      rcases List.mem_append.mp hx with hx | hx <;> simp [hx]) hr ha

/-- C89: in every state the multi-worker driver reaches, for every options, data, random numbers and schedule, the counter of evaluations is
at least the size of the initial populations and one population per completed cycle, and at most the initial populations
and what the options allow per completed cycle. -/
theorem C89_parallel {seeds : Nat → Rng (Fl K)} {orderRng : Rng (Fl K)} {nw : Nat} {p q : Par K} {tr : List ParEvent}
    (hnew : Par.new o d seeds orderRng = some p) (hrun : ParRun o d nw p tr q) : q.shared.Counted o := by
  rw [Par.new, Option.map_eq_some_iff] at hnew
  obtain ⟨s, hi, rfl⟩ := hnew
  obtain ⟨rs, h1, -⟩ := hrun.history rfl
  exact (h1.budgeted (init_budgeted hi).1).counted

/-- C89: the same in the step-wise driver after every sequence of steps. -/
theorem C89_stepwise {seeds : Nat → Rng (Fl K)} {orderRng : Rng (Fl K)} {n k : Nat} {e e' : Engine K}
    (hnew : Engine.new o d seeds orderRng = some e) (hrun : e.step o d n = some (k, e')) : e'.shared.Counted o := by
  rw [Engine.new, Option.map_eq_some_iff] at hnew
  obtain ⟨s, hi, rfl⟩ := hnew
  obtain ⟨rs, -, h1⟩ := Engine.step_history .init hrun
  exact (h1.budgeted (init_budgeted hi).1).counted

/-- C89: a search that returns has counted at least `niterations + 1` times the size of all populations, and at most the
bound for `niterations * populations` cycles. -/
theorem C89_returned {seeds : Nat → Rng (Fl K)} {orderRng : Rng (Fl K)} {nw : Nat} {p q : Par K} {tr : List ParEvent}
    (hnew : Par.new o d seeds orderRng = some p) (hrun : ParRun o d nw p tr q) (hf : q.Final o) :
    min ((o.niterations + 1) * (o.populations * o.populationSize)) (2 ^ 64 - 1) ≤ q.shared.totalEvals ∧
    q.shared.totalEvals ≤
      o.populations * o.populationSize + o.niterations * o.populations * o.cycleCalls := by
  have hfr : p.Fresh o o.populations := by
    rw [Par.new, Option.map_eq_some_iff] at hnew
    obtain ⟨s, hi, rfl⟩ := hnew
    exact ⟨(init_budgeted hi).2, rfl, rfl, rfl, rfl⟩
  obtain ⟨h1, h2⟩ := C89_parallel hnew hrun
  rw [(C44_complete hfr hrun hf).2.2.2.1] at h1 h2
  refine ⟨?_, h2⟩
  rw [show (o.niterations + 1) * (o.populations * o.populationSize) =
    o.populations * o.populationSize + o.niterations * o.populations * o.populationSize by ring]
  exact h1

/-- C89: without the optimisation of constants, a cycle counts at most two evaluations per pass of evolution, beside one
per member at its end. -/
theorem C89_plain (h : o.shouldOptimizeConstants = false) :
    o.cycleCalls = max o.ncyclesPerIteration 1 * o.passes * 2 + o.populationSize := by
  have hf : o.fitCalls = 0 := by unfold SOptions.fitCalls; rw [h]; rfl
  unfold SOptions.cycleCalls SOptions.phaseCalls SOptions.passCalls
  rw [hf]
  split <;> simp

end SR

/-! ### Both bounds are attained, and what is not counted -/

namespace SR.Demo
open SR
local instance instBudget : Env ℚ := env

/-- Only crossovers. -/
def crossOpts : SOptions ℚ := { smallOpts 1 with crossoverProbability := .fin 1 }

/-- Only simplifications. -/
def simplifyOpts : SOptions ℚ :=
  { smallOpts 1 with
    crossoverProbability := .fin 0
    weights := ⟨.fin 0, .fin 0, .fin 0, .fin 0, .fin 0, .fin 0, .fin 0, .fin 0, .fin 1, .fin 0, .fin 0, .fin 0⟩ }

/-- The counter after a whole search, and the two bounds. -/
def counted (o : SOptions ℚ) : Option (Nat × Nat × Nat) :=
  (Engine.new o data gen (gen 77)).bind fun e => (e.step o data 1).map fun r =>
    (o.populations * o.populationSize + r.2.shared.counters.completed * o.populationSize,
      r.2.shared.totalEvals, o.populations * o.populationSize + r.2.shared.counters.completed * o.cycleCalls)

/-- C89: the upper bound is attained when every pass is a crossover whose children satisfy the constraints. -/
theorem _root_.SR.C89_upper_attained : counted crossOpts = some (4, 16, 16) := by decide +kernel

/-- C89: the lower bound is attained when all mutations are simplifications. -/
theorem _root_.SR.C89_lower_attained : counted simplifyOpts = some (4, 4, 16) := by decide +kernel

/-- The member `c0 * x0`, evaluated. -/
def scaled : Option (Member ℚ) := do
  let m ← Member.fromExpr 0 none 0 expr 1
  let (m, _, _) ← m.evaluate opts data (Evaluator.new 2)
  some m

/-- The evaluations of the ten attempts of a constant optimisation under a size limit of two, and those reported. -/
def attempted : Option (Nat × Nat) := do
  let m ← scaled
  let (a, _) ← attemptLoop opts data 2 (.fin 1) m .optimize 10 0 (Evaluator.new 2) (gen 1)
  let (r, _) ← generationWith opts data 2 (.fin 1) (Stats.new (Rounding.exact ℚ) 7 100) (Evaluator.new 2) ⟨0, 0⟩ m
    .optimize (gen 1)
  some (a.evals, r.evals)

/-- C89 (what is not counted): ten constant optimisations that make 110 evaluations, all for nothing because the
expression is above the current size limit, are counted as none. -/
theorem _root_.SR.C89_uncounted : attempted = some (110, 0) := by decide +kernel

/-- C89 applies to whole searches: for all random numbers and any number of workers, the search of C64 returns having
counted at least twelve evaluations. -/
example (seeds : Nat → Rng (Fl ℚ)) (orderRng : Rng (Fl ℚ)) (nw : Nat) (hw : 1 ≤ nw) :
    ∃ p tr q, Par.new (runOpts false) data seeds orderRng = some p ∧ ParRun (runOpts false) data nw p tr q ∧
      q.Final (runOpts false) ∧ 12 ≤ q.shared.totalEvals := by
  obtain ⟨p, h1, -, h3⟩ := C64_completes (runSetting false) rfl rfl seeds orderRng hw
  obtain ⟨-, ⟨tr, q, h4, h5⟩, -⟩ := h3 [] p (.refl p)
  refine ⟨p, tr, q, h1, h4, h5, ?_⟩
  have h := (C89_returned h1 h4 h5).1
  have e : min (((runOpts false).niterations + 1) * ((runOpts false).populations * (runOpts false).populationSize))
    (2 ^ 64 - 1) = 12 := by decide
  rw [e] at h
  exact h

end SR.Demo
