import Verif.Props.Engine
import Verif.Props.Schedule
/-
C47: the multi-worker driver with one worker and the step-wise driver do the same.
-/
namespace SR
variable {K : Type} [Field K] [LinearOrder K] [E : Env K]
variable {o : SOptions K} {full : Dataset K} {np : Nat}

/-- How far the step-wise driver is when the one-worker driver is at `p`: between tasks it has the same shared state;
while a task runs, it is about to dispatch exactly this task.  (It shuffles an iteration only when it begins its first
task.) -/
structure Together (o : SOptions K) (p : Par K) (e : Engine K) : Prop where
  idle : p.pc = .idle → e.shared = p.shared ∧ e.curIter = p.iter ∧ e.orderRng = p.orderRng ∧
    ¬ (e.taskOrder ≠ [] ∧ e.nextTask < e.taskOrder.length)
  active : p.pc ≠ .idle → ∃ e1, (e1 = e ∨ e.prepare o = some e1) ∧ e1.curIter = p.iter ∧ e1.taskOrder = p.order ∧
    e1.orderRng = p.orderRng ∧ e1.shared.finished = e.shared.finished ∧ e1.progressFinished = e.progressFinished ∧
    ((p.pending = [] ∧ e1.shared = p.shared ∧ e1.nextTask = p.nextTask) ∨
     ∃ i t, p.pending = [t] ∧ p.order[e1.nextTask]? = some i ∧ e1.nextTask + 1 = p.nextTask ∧
       e1.shared.dispatch o i = some (some t, p.shared))
  shared : p.pending = [] → e.shared = p.shared

theorem prepare_shared {e e1 : Engine K} (hp : e.prepare o = some e1) :
    e1.shared = e.shared ∧ e1.progressFinished = e.progressFinished := by
  unfold Engine.prepare at hp
  split at hp
  · simp at hp; rw [hp]; exact ⟨rfl, rfl⟩
  split at hp
  · simp at hp; rw [hp]; exact ⟨rfl, rfl⟩
  · rw [Option.map_eq_some_iff] at hp
    obtain ⟨x, -, rfl⟩ := hp; exact ⟨rfl, rfl⟩

theorem prepare_cases {e e1 : Engine K} (hp : e.prepare o = some e1) : e1 = e ∨ e1.nextTask = 0 := by
  unfold Engine.prepare at hp
  split at hp
  · simp at hp; exact .inl hp.symm
  split at hp
  · simp at hp; exact .inl hp.symm
  · rw [Option.map_eq_some_iff] at hp
    obtain ⟨x, -, rfl⟩ := hp; exact .inr rfl

theorem prepare_mid {e : Engine K} (h : e.nextTask < e.taskOrder.length) : e.prepare o = some e := by
  unfold Engine.prepare
  split
  · rfl
  · rw [if_pos ⟨by intro hc; rw [hc] at h; simp at h, h⟩]

/-- The step of the step-wise driver for a task of the one-worker driver. -/
theorem together_task {p : Par K} {e : Engine K} (hi : p.Inv o 1 np) (ht : Together o p e) {t : Task K}
    (hpend : p.pending = [t]) :
    ∃ e1 : Engine K, e1.curIter = p.iter ∧ e1.taskOrder = p.order ∧ e1.orderRng = p.orderRng ∧
      e1.nextTask = p.nextTask ∧ e1.shared = p.shared ∧
      e.stepOne o full = (Engine.complete o full e1 t).bind fun e' => some (true, e') := by
  have hpc : p.pc ≠ .idle := fun hc => by have := (hi.idle hc).1; rw [hpend] at this; simp at this
  obtain ⟨e1, hprep, h1, h2, h3, h4, h5, hcase⟩ := ht.active hpc
  rcases hcase with ⟨hnil, -⟩ | ⟨i, t', hp', hord, hnext, hd⟩
  · rw [hpend] at hnil; simp at hnil
  rw [hpend] at hp'
  obtain rfl : t = t' := by simpa using hp'
  have hlt : e1.nextTask < e1.taskOrder.length := by
    rw [h2]
    exact (List.getElem?_eq_some_iff.mp hord).1
  have hprep' : e.prepare o = some e1 := by
    rcases hprep with rfl | h
    · exact prepare_mid hlt
    · exact h
  have hsh := (prepare_shared hprep').1
  have hnf : e1.shared.finished = false := by
    obtain ⟨ha1, ha2, ha3, ha4, -⟩ := hi.active hpc
    have hst := hi.started
    have hfl := hi.flight
    rw [hpend] at hfl
    simp only [List.length_cons, List.length_nil] at hfl
    have htot := hi.total
    have hit := hi.iter
    obtain ⟨-, -, -, -, hs'⟩ := dispatch_task hd
    have c1 : p.shared.counters.total = e1.shared.counters.total := by rw [hs']
    have c2 : p.shared.counters.completed = e1.shared.counters.completed := by rw [hs']
    unfold Shared.finished
    rw [← c1, ← c2, htot]
    have hle : p.iter * np ≤ o.niterations * np := Nat.mul_le_mul_right _ hit
    obtain ⟨k, hk⟩ : ∃ k, p.iter = k + 1 := ⟨p.iter - 1, by omega⟩
    rw [hk, Nat.succ_mul] at hle
    rw [hk] at ha4
    simp only [Nat.add_sub_cancel] at ha4
    simp only [beq_eq_false_iff_ne, ne_eq]
    omega
  refine ⟨{ e1 with nextTask := e1.nextTask + 1, shared := p.shared }, h1, h2, h3, hnext, rfl, ?_⟩
  unfold Engine.stepOne
  rw [← hsh, hnf, hprep']
  simp only [Bool.false_eq_true, if_false, Option.bind_eq_bind, Option.bind_some]
  unfold Engine.runNext
  rw [hnf, h2, hord]
  simp only [Bool.false_eq_true, if_false, Option.bind_eq_bind, Option.bind_some]
  rw [hd]
  rfl

theorem together_run {p0 p : Par K} {e0 : Engine K} {tr : List ParEvent} (hnp : 1 ≤ np) (hp : p0.Fresh o np) (he : e0.Fresh o np)
    (hs : e0.shared = p0.shared) (hr : e0.orderRng = p0.orderRng) (h : ParRun o full 1 p0 tr p) :
    ∃ e, e0.step o full (receives tr).length = some ((receives tr).length, e) ∧ Together o p e := by
  induction h with
  | refl =>
    refine ⟨e0, rfl, ⟨fun _ => ⟨hs, ?_, hr, ?_⟩, fun hc => absurd hp.pc hc, fun _ => hs⟩⟩
    · rw [he.curIter, hp.iter]
    · rw [he.taskOrder]; simp
  | @snoc p q tr ev hrun hstep ih =>
    obtain ⟨e, hst, ht⟩ := ih
    have hi := (hp.inv 1).run hrun
    have hiq := hi.step hstep
    have hsame : ∀ ev, ev = .start ∨ ev = .other ∨ (∃ i, ev = .dispatch i) →
        (receives (tr ++ [ev])).length = (receives tr).length := by
      rintro ev (rfl | rfl | ⟨i, rfl⟩) <;> rw [receives_append] <;> simp [receives]
    cases hstep with
    | @start order rng hpc hlt hsh =>
      rw [hsame _ (.inl rfl)]
      obtain ⟨h1, h2, h3, h4⟩ := ht.idle hpc
      have hnil := (hi.idle hpc).1
      refine ⟨e, hst, ⟨fun hc => by simp at hc, fun _ => ?_, fun _ => h1⟩⟩
      have hprep : e.prepare o = some { e with orderRng := rng, taskOrder := order, nextTask := 0, curIter := e.curIter + 1 } := by
        unfold Engine.prepare
        rw [if_neg (by omega), if_neg h4, h1, h3, hsh]
        rfl
      exact ⟨_, .inr hprep, by show e.curIter + 1 = p.iter + 1; rw [h2], rfl, rfl, rfl, rfl, .inl ⟨hnil, h1, rfl⟩⟩
    | @enter hpc hc =>
      rw [hsame _ (.inr (.inl rfl))]
      exact ⟨e, hst, ⟨fun hc => by simp at hc, fun _ => ht.active (by rw [hpc]; simp), ht.shared⟩⟩
    | @leave hpc hc =>
      rw [hsame _ (.inr (.inl rfl))]
      obtain ⟨e1, hprep, h1, h2, h3, h4, h5, hcase⟩ := ht.active (by rw [hpc]; simp)
      have hnil : p.pending = [] := (hiq.idle rfl).1
      rcases hcase with ⟨-, hs1, hn1⟩ | ⟨i, t, hpend, -⟩
      · have hdone : ¬ (e1.taskOrder ≠ [] ∧ e1.nextTask < e1.taskOrder.length) := by
          rw [h2, hn1]; rintro ⟨-, hx⟩; exact hc (.inl hx)
        rcases hprep with rfl | hprep
        · exact ⟨e1, hst, ⟨fun _ => ⟨hs1, h1, h3, hdone⟩, fun hc => by simp at hc, ht.shared⟩⟩
        · have hlen : e1.taskOrder.length = np := by
            rw [h2, (hi.active (by rw [hpc]; simp)).2.1.length_eq, List.length_range]
          rcases prepare_cases hprep with rfl | h0
          · exact ⟨e1, hst, ⟨fun _ => ⟨hs1, h1, h3, hdone⟩, fun hc => by simp at hc, ht.shared⟩⟩
          · exfalso
            exact hdone ⟨by intro hc; rw [hc] at hlen; simp at hlen; omega, by omega⟩
      · rw [hnil] at hpend; simp at hpend
    | @dispatch i t s hpc hfl hord hd =>
      rw [hsame _ (.inr (.inr ⟨i, rfl⟩))]
      obtain ⟨e1, hprep, h1, h2, h3, h4, h5, hcase⟩ := ht.active (by rw [hpc]; simp)
      have hnil : p.pending = [] := by
        have := hi.flight
        exact List.eq_nil_of_length_eq_zero (by omega)
      rcases hcase with ⟨-, hs1, hn1⟩ | ⟨i, t, hpend, -⟩
      · refine ⟨e, hst, ⟨fun hc => by rw [hpc] at hc; simp at hc, fun _ => ?_, fun hc => by simp at hc⟩⟩
        refine ⟨e1, hprep, h1, h2, h3, h4, h5, .inr ⟨i, t, by rw [hnil]; rfl, ?_, ?_, ?_⟩⟩
        · rw [hn1]; exact hord
        · rw [hn1]
        · rw [hs1]; exact hd
      · rw [hnil] at hpend; simp at hpend
    | @skip i s hpc hfl hord hd =>
      exfalso
      have hnil : p.pending = [] := by
        have := hi.flight
        exact List.eq_nil_of_length_eq_zero (by omega)
      obtain ⟨-, hperm, -⟩ := hi.active (by rw [hpc]; simp)
      have him : i < np := by
        have := hperm.mem_iff.mp (List.mem_of_getElem? hord)
        simpa using this
      have := (hi.place i him).mp (dispatch_skip hd).1
      rw [hnil] at this; simp at this
    | @receive l r t res s hpc hfl hpend hrun' happ =>
      have hone : p.pending = [t] ∧ l ++ r = [] := by
        have h1 := hi.flight
        have h2 := hi.workers
        have h3 := congrArg List.length hpend
        simp only [List.length_append, List.length_cons] at h3
        have hl : l = [] := List.eq_nil_of_length_eq_zero (by omega)
        have hr : r = [] := List.eq_nil_of_length_eq_zero (by omega)
        rw [hpend, hl, hr]; exact ⟨rfl, rfl⟩
      obtain ⟨e1, h1, h2, h3, h4, h5, hone'⟩ := together_task (full := full) hi ht hone.1
      rw [receives_append, List.length_append]
      have hc1 : Engine.complete o full e1 t =
          some { e1 with shared := s, progressFinished := e1.progressFinished || s.finished } := by
        unfold Engine.complete
        simp only [Option.bind_eq_bind]
        rw [hrun', Option.bind_some, h5, happ]
        rfl
      rw [hc1] at hone'
      refine ⟨{ e1 with shared := s, progressFinished := e1.progressFinished || s.finished }, ?_,
        ⟨fun hc => by simp at hc, fun _ => ⟨_, .inl rfl, h1, h2, h3, rfl, rfl, .inl ⟨hone.2, rfl, h4⟩⟩, fun _ => rfl⟩⟩
      rw [C45_compositional, hst, Option.bind_some]
      show (e.step o full 1).map _ = _
      rw [step_succ, hone']
      rfl

/-- A stuck one-worker driver: the step-wise driver panics at its next cycle. -/
theorem together_stuck {p : Par K} {e : Engine K} (hi : p.Inv o 1 np) (ht : Together o p e)
    (h : p.Crash o full 1 ∨ p.Hangs o full 1) : e.stepOne o full = none := by
  have hone : ∀ t ∈ p.pending, p.pending = [t] := by
    intro t htm
    have h1 := hi.flight
    have h2 := hi.workers
    match hl : p.pending, htm with
    | [t'], htm => simp at htm; rw [htm]
    | a :: b :: l, _ => rw [hl] at h1; simp at h1; omega
  rcases h with hc | ⟨hpc, hg, hne, hall⟩
  · cases hc with
    | order hpc hlt hsh =>
      obtain ⟨order, rng, hs, -⟩ := C33_shuffle_perm (List.range p.shared.pops.length) p.orderRng
      rw [hs] at hsh; simp at hsh
    | @dispatch i hpc hfl hord hd =>
      have hpc' : p.pc ≠ .idle := by rw [hpc]; simp
      obtain ⟨e1, hprep, h1, h2, h3, h4, h5, hcase⟩ := ht.active hpc'
      have hnil : p.pending = [] := by
        have := hi.flight
        exact List.eq_nil_of_length_eq_zero (by omega)
      rcases hcase with ⟨-, hs1, hn1⟩ | ⟨i, t, hpend, -⟩
      · have hlt : e1.nextTask < e1.taskOrder.length := by
          rw [h2, hn1]; exact (List.getElem?_eq_some_iff.mp hord).1
        have hprep' : e.prepare o = some e1 := by
          rcases hprep with rfl | h
          · exact prepare_mid hlt
          · exact h
        have hnf : e1.shared.finished = false := by
          obtain ⟨ha1, ha2, ha3, ha4, -⟩ := hi.active hpc'
          have hst := hi.started
          have hfl := hi.flight
          have hlen := ha2.length_eq
          rw [List.length_range] at hlen
          rw [hnil] at hfl
          simp only [List.length_nil] at hfl
          have htot := hi.total
          have hit := hi.iter
          unfold Shared.finished
          rw [hs1, htot]
          have hle : p.iter * np ≤ o.niterations * np := Nat.mul_le_mul_right _ hit
          obtain ⟨k, hk⟩ : ∃ k, p.iter = k + 1 := ⟨p.iter - 1, by omega⟩
          rw [hk, Nat.succ_mul] at hle
          rw [hk] at ha4
          simp only [Nat.add_sub_cancel] at ha4
          simp only [beq_eq_false_iff_ne, ne_eq]
          rw [h2, hn1] at hlt
          omega
        unfold Engine.stepOne
        rw [← (prepare_shared hprep').1, hnf, hprep']
        simp only [Bool.false_eq_true, if_false, Option.bind_eq_bind, Option.bind_some]
        unfold Engine.runNext
        rw [hnf, h2, hn1, hord]
        simp only [Bool.false_eq_true, if_false, Option.bind_eq_bind, Option.bind_some]
        rw [hs1, hd]
        rfl
      · rw [hnil] at hpend; simp at hpend
    | @apply t res hpc hg htm hrun happ =>
      obtain ⟨e1, -, -, -, -, h5, h⟩ := together_task (full := full) hi ht (hone t htm)
      rw [h]
      unfold Engine.complete
      simp only [Option.bind_eq_bind]
      rw [hrun, Option.bind_some, h5, happ]
      rfl
  · obtain ⟨t, htm⟩ := List.exists_mem_of_ne_nil _ hne
    obtain ⟨e1, -, -, -, -, h5, h⟩ := together_task (full := full) hi ht (hone t htm)
    rw [h]
    unfold Engine.complete
    simp only [Option.bind_eq_bind]
    rw [hall t htm]
    rfl

/-- Every run can be continued until the driver cannot move. -/
theorem run_maximal {nw : Nat} {p0 p : Par K} {tr : List ParEvent} (hi : p0.Inv o nw np) (h : ParRun o full nw p0 tr p) :
    ∃ tr' q, ParRun o full nw p0 (tr ++ tr') q ∧ ∀ e r, ¬ ParStep o full nw q e r := by
  induction hn : p.left o np generalizing p tr with
  | zero =>
    refine ⟨[], p, by simpa using h, fun e r hs => ?_⟩
    have := left_step (hi.run h) hs
    omega
  | succ n ih =>
    by_cases hs : ∃ e r, ParStep o full nw p e r
    · obtain ⟨e, r, hs⟩ := hs
      have := left_step (hi.run h) hs
      obtain ⟨tr', q, h1, h2⟩ := ih (h.snoc hs) (by omega)
      exact ⟨e :: tr', q, by simpa using h1, h2⟩
    · exact ⟨[], p, by simpa using h, fun e r hc => hs ⟨e, r, hc⟩⟩

/-- C47: whenever the one-worker driver is between two tasks, having received `n` results, the step-wise driver
started from the same state has after `n` cycles exactly the same shared state (populations with their random streams,
hall of fame, best member, statistics, migration pool, evaluation count and cycle counters). -/
theorem C47_same_states {p0 p : Par K} {e0 : Engine K} {tr : List ParEvent} (hnp : 1 ≤ np) (hp : p0.Fresh o np)
    (he : e0.Fresh o np) (hs : e0.shared = p0.shared) (hr : e0.orderRng = p0.orderRng) (h : ParRun o full 1 p0 tr p)
    (hidle : p.pending = []) :
    ∃ e, e0.step o full (receives tr).length = some ((receives tr).length, e) ∧ e.shared = p.shared := by
  obtain ⟨e, h1, h2⟩ := together_run hnp hp he hs hr h
  exact ⟨e, h1, h2.shared hidle⟩

/-- C47: both drivers finish with the same result: every terminating run of the one-worker driver ends in the shared
state in which `run_to_completion` of the step-wise driver ends, and if that returns, the one-worker driver has a run
that ends there, and none that gets stuck anywhere else. -/
theorem C47_same_result {p0 : Par K} {e0 : Engine K} (hnp : 1 ≤ np) (hp : p0.Fresh o np)
    (he : e0.Fresh o np) (hs : e0.shared = p0.shared) (hr : e0.orderRng = p0.orderRng) :
    (∀ tr p, ParRun o full 1 p0 tr p → p.Final o → ∃ e, e0.RunsTo o full e ∧ e.shared = p.shared) ∧
    (∀ e, e0.RunsTo o full e →
      (∃ tr p, ParRun o full 1 p0 tr p ∧ p.Final o ∧ p.shared = e.shared) ∧
      ∀ tr p, ParRun o full 1 p0 tr p → (∀ ev q, ¬ ParStep o full 1 p ev q) → p.Final o ∧ p.shared = e.shared) := by
  have fwd : ∀ tr p, ParRun o full 1 p0 tr p → p.Final o → ∃ e, e0.RunsTo o full e ∧ e.shared = p.shared := by
    intro tr p h hf
    have hi := (hp.inv 1).run h
    obtain ⟨e, h1, h2⟩ := C47_same_states hnp hp he hs hr h (hi.idle hf.1).1
    have hcomp := (C44_complete hp h hf).2.2.2.1
    have hrec := (C44_safety hp h).2.2.2.2.2.2
    exact ⟨_, (C45_run_to_completion he _ (by omega)).1 _ e h1, h2⟩
  have stuck : ∀ e, e0.RunsTo o full e → ∀ tr p, ParRun o full 1 p0 tr p → (∀ ev q, ¬ ParStep o full 1 p ev q) →
      p.Final o ∧ p.shared = e.shared := by
    intro e hrun tr p h hst
    have hi := (hp.inv 1).run h
    obtain ⟨e1, h1, ht⟩ := together_run hnp hp he hs hr h
    have hlen := (C44_safety hp h).2.2.2.2.2.2
    have hfin : p.Final o := by
      rcases C44_progress (le_refl 1) hp h with hf | ⟨ev, q, hc⟩ | hc
      · exact hf
      · exact absurd hc (hst ev q)
      · have hnone := together_stuck hi ht hc
        have hnone1 : e0.step o full ((receives tr).length + (o.niterations * np + 1)) = none := by
          rw [C45_compositional, h1, Option.bind_some, step_succ, hnone]; rfl
        obtain ⟨e2, h2, -⟩ := (C45_run_to_completion he ((receives tr).length + (o.niterations * np + 1)) (by omega)).2 e hrun
        rw [hnone1] at h2; simp at h2
    obtain ⟨e2, h2, h3⟩ := (C45_run_to_completion he (receives tr).length (by
      rw [← hlen]; exact (C44_complete hp h hfin).2.2.2.1.ge)).2 e hrun
    rw [h1] at h2
    simp only [Option.some.injEq, Prod.mk.injEq] at h2
    exact ⟨hfin, by rw [h3, ← ht.shared (hi.idle hfin.1).1, h2.2]⟩
  refine ⟨fwd, fun e h => ⟨?_, stuck e h⟩⟩
  obtain ⟨tr, p, h1, h2⟩ := run_maximal (hp.inv 1) (.refl p0) (full := full)
  have := stuck e h _ p h1 h2
  exact ⟨_, p, h1, this⟩

end SR
