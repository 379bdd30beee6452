import Verif.Proofs.Schedule
/-
C45: the step-wise driver.
-/
namespace SR
variable {K : Type} [Field K] [LinearOrder K] [E : Env K]
variable {o : SOptions K} {full : Dataset K} {np : Nat}

/-- Invariant of the step-wise driver between steps. -/
structure Engine.Inv (o : SOptions K) (np : Nat) (e : Engine K) : Prop where
  pops : e.shared.pops.length = np
  present : ∀ (i : Nat), i < np → ∃ ps, e.shared.pops[i]? = some (some ps)
  bestSub : e.shared.bestSub.length = np
  total : e.shared.counters.total = o.niterations * np
  started : e.shared.counters.started = e.shared.counters.completed
  iter : e.curIter ≤ o.niterations
  fresh : e.curIter = 0 → e.taskOrder = [] ∧ e.nextTask = 0 ∧ e.shared.counters.completed = 0
  running : 0 < e.curIter → e.taskOrder.Perm (List.range np) ∧ e.nextTask ≤ np ∧
    e.shared.counters.completed = (e.curIter - 1) * np + e.nextTask

theorem Engine.Fresh.inv {e : Engine K} (h : e.Fresh o np) : e.Inv o np where
  pops := h.shared.pops
  present := h.shared.present
  bestSub := h.shared.bestSub
  total := h.shared.total
  started := by rw [h.shared.started, h.shared.completed]
  iter := by rw [h.curIter]; omega
  fresh _ := ⟨h.taskOrder, h.nextTask, h.shared.completed⟩
  running hc := by rw [h.curIter] at hc; omega

/-- The preparation of an unfinished engine never fails and leaves a task to run. -/
theorem prepare_spec {e : Engine K} (hi : e.Inv o np) (hnf : e.shared.finished = false) :
    ∃ e1, e.prepare o = some e1 ∧ e1.Inv o np ∧ e1.shared = e.shared ∧ e1.progressFinished = e.progressFinished ∧
      0 < e1.curIter ∧ e1.nextTask < np := by
  have hlt : e.shared.counters.completed < o.niterations * np := by
    unfold Shared.finished at hnf
    rw [hi.total] at hnf
    simp only [beq_eq_false_iff_ne, ne_eq] at hnf
    omega
  unfold Engine.prepare
  by_cases hit : o.niterations ≤ e.curIter
  · rw [if_pos hit]
    have hpos : 0 < e.curIter := by
      rcases Nat.eq_zero_or_pos e.curIter with h0 | h0
      · have : o.niterations = 0 := by omega
        rw [this] at hlt; simp at hlt
      · exact h0
    obtain ⟨h1, h2, h3⟩ := hi.running hpos
    have hc : e.curIter = o.niterations := Nat.le_antisymm hi.iter hit
    refine ⟨e, rfl, hi, rfl, rfl, hpos, ?_⟩
    by_contra hn
    have : e.nextTask = np := by omega
    rw [h3, this, ← hc] at hlt
    obtain ⟨k, hk⟩ : ∃ k, e.curIter = k + 1 := ⟨e.curIter - 1, by omega⟩
    rw [hk] at hlt
    simp [Nat.succ_mul] at hlt
  rw [if_neg hit]
  by_cases hmid : e.taskOrder ≠ [] ∧ e.nextTask < e.taskOrder.length
  · rw [if_pos hmid]
    have hpos : 0 < e.curIter := by
      rcases Nat.eq_zero_or_pos e.curIter with h0 | h0
      · exact absurd (hi.fresh h0).1 hmid.1
      · exact h0
    refine ⟨e, rfl, hi, rfl, rfl, hpos, ?_⟩
    have := (hi.running hpos).1.length_eq
    simp only [List.length_range] at this
    omega
  rw [if_neg hmid]
  obtain ⟨order, rng, hsh, hperm⟩ := C33_shuffle_perm (List.range e.shared.pops.length) e.orderRng
  rw [hsh]
  have hnp : 0 < np := by
    rcases Nat.eq_zero_or_pos np with h0 | h0
    · rw [h0] at hlt; simp at hlt
    · exact h0
  have hcomp : e.shared.counters.completed = e.curIter * np := by
    rcases Nat.eq_zero_or_pos e.curIter with h0 | h0
    · rw [(hi.fresh h0).2.2, h0]; simp
    · obtain ⟨h1, h2, h3⟩ := hi.running h0
      have hl := h1.length_eq
      simp only [List.length_range] at hl
      have hne : e.taskOrder ≠ [] := by intro hc; rw [hc] at hl; simp at hl; omega
      have : e.nextTask = np := by
        have := not_and.mp hmid hne; omega
      rw [h3, this]
      obtain ⟨k, hk⟩ : ∃ k, e.curIter = k + 1 := ⟨e.curIter - 1, by omega⟩
      rw [hk]; simp [Nat.succ_mul]
  refine ⟨_, rfl, ⟨hi.pops, hi.present, hi.bestSub, hi.total, hi.started, by show e.curIter + 1 ≤ _; omega,
    by intro hc; simp at hc, ?_⟩, rfl, rfl, Nat.succ_pos _, hnp⟩
  intro _
  rw [hi.pops] at hperm
  exact ⟨hperm, Nat.zero_le _, by simpa using hcomp⟩

/-- One step of an unfinished engine that does not panic completes exactly one cycle. -/
theorem stepOne_spec {e : Engine K} (hi : e.Inv o np) (hnf : e.shared.finished = false) {b : Bool} {e' : Engine K}
    (h : e.stepOne o full = some (b, e')) :
    b = true ∧ e'.Inv o np ∧ e'.shared.counters.completed = e.shared.counters.completed + 1 ∧
    ∃ (e1 : Engine K) (i : Nat) (t : Task K) (s : Shared K) (r : TaskResult K), e.prepare o = some e1 ∧
      e1.taskOrder[e1.nextTask]? = some i ∧
      e.shared.dispatch o i = some (some t, s) ∧ t.run o full = some r ∧ s.apply o r = some e'.shared ∧
      e' = { e1 with shared := e'.shared, nextTask := e1.nextTask + 1,
                     progressFinished := e.progressFinished || e'.shared.finished } := by
  obtain ⟨e1, hp, hi1, hs1, hpf, hpos, hn⟩ := prepare_spec hi hnf
  unfold Engine.stepOne at h
  rw [hnf, hp] at h
  simp only [Bool.false_eq_true, if_false, Option.bind_eq_bind, Option.bind_some] at h
  unfold Engine.runNext at h
  rw [hs1, hnf] at h
  simp only [Bool.false_eq_true, if_false, Option.bind_eq_bind, Option.bind_eq_some_iff] at h
  obtain ⟨i, hord, ⟨ot, s⟩, hd, h⟩ := h
  obtain ⟨hperm, hle, hcomp⟩ := hi1.running hpos
  have him : i < np := by
    have : i ∈ e1.taskOrder := List.mem_of_getElem? hord
    have := hperm.mem_iff.mp this
    simpa using this
  obtain ⟨ps, hps⟩ := hi.present i him
  match ot, h with
  | none, h =>
    have := (dispatch_skip hd).1
    rw [hps] at this; simp at this
  | some t, h =>
    simp only [Option.bind_eq_some_iff, Option.some.injEq, Prod.mk.injEq] at h
    obtain ⟨e2, hc, rfl, rfl⟩ := h
    unfold Engine.complete at hc
    simp only [Option.bind_eq_bind, Option.bind_eq_some_iff, Option.some.injEq] at hc
    obtain ⟨r, hr, s', ha, rfl⟩ := hc
    obtain ⟨h1, h2, -, -, rfl⟩ := dispatch_task hd
    obtain ⟨a1, a2, a3, -, a5, -, -, pop, counters, rng, -, a8⟩ := apply_result ha
    have hri : r.popIdx = i := by rw [(run_popIdx hr).1, h2]
    refine ⟨rfl, ⟨?_, ?_, ?_, ?_, ?_, hi1.iter, ?_, ?_⟩, by rw [a3], e1, i, t, _, r, hp, hord, hd, hr, ha, by rw [hpf]⟩
    · rw [a8]; simpa using hi.pops
    · intro j hj
      rw [a8, hri, List.getElem?_set]
      by_cases hij : i = j
      · rw [if_pos hij, if_pos (by simpa [hi.pops] using him)]; exact ⟨_, rfl⟩
      · rw [if_neg hij]
        show ∃ ps, (e.shared.pops.set i none)[j]? = _
        rw [List.getElem?_set, if_neg hij]; exact hi.present j hj
    · rw [a5]; simpa using hi.bestSub
    · rw [a3]; exact hi.total
    · rw [a3]
      show e.shared.counters.started + 1 = e.shared.counters.completed + 1
      rw [hi.started]
    · intro h0; exact absurd h0 (by show e1.curIter ≠ 0; omega)
    · intro _
      refine ⟨hperm, hn, ?_⟩
      rw [a3]
      show e.shared.counters.completed + 1 = (e1.curIter - 1) * np + (e1.nextTask + 1)
      rw [← hs1, hcomp]; rfl

theorem stepOne_finished {e : Engine K} (h : e.shared.finished = true) :
    e.stepOne o full = some (false, { e with progressFinished := true }) := by
  unfold Engine.stepOne; rw [h]; rfl

/-- A step that reports that nothing is left to do does so again. -/
theorem stepOne_false {e e' : Engine K} (h : e.stepOne o full = some (false, e')) : e'.stepOne o full = some (false, e') := by
  cases hf : e.shared.finished with
  | true =>
    rw [stepOne_finished hf] at h
    simp only [Option.some.injEq, Prod.mk.injEq, true_and] at h
    subst h
    exact stepOne_finished (by exact hf)
  | false =>
    unfold Engine.stepOne at h
    rw [hf] at h
    simp only [Bool.false_eq_true, if_false, Option.bind_eq_bind, Option.bind_eq_some_iff] at h
    obtain ⟨e1, hp, h⟩ := h
    have hs : e1.shared = e.shared := by
      unfold Engine.prepare at hp
      split at hp
      · simp at hp; rw [hp]
      split at hp
      · simp at hp; rw [hp]
      · rw [Option.map_eq_some_iff] at hp
        obtain ⟨x, -, rfl⟩ := hp; rfl
    unfold Engine.runNext at h
    rw [hs, hf] at h
    simp only [Bool.false_eq_true, if_false, Option.bind_eq_bind, Option.bind_eq_some_iff] at h
    obtain ⟨i, -, ⟨ot, s⟩, hd, h⟩ := h
    match ot, h with
    | none, h => simp at h
    | some t, h =>
      simp only [Option.bind_eq_some_iff, Option.some.injEq, Prod.mk.injEq] at h
      obtain ⟨_, _, h, _⟩ := h
      cases h

theorem step_stuck {e : Engine K} (h : e.stepOne o full = some (false, e)) (n : Nat) : e.step o full n = some (0, e) := by
  cases n with
  | zero => rfl
  | succ n => unfold Engine.step; rw [h]; rfl

theorem step_succ (e : Engine K) (n : Nat) : e.step o full (n + 1) = (e.stepOne o full).bind fun x =>
    if x.1 then (x.2.step o full n).map fun r => (r.1 + 1, r.2) else some (0, x.2) := by
  show ((e.stepOne o full).bind fun x => if x.1 then (x.2.step o full n).bind fun r => some (r.1 + 1, r.2) else some (0, x.2)) = _
  congr 1
  funext x
  split
  · cases x.2.step o full n <;> rfl
  · rfl

/-- C45: stepping is compositional: a budget of `a` followed by a budget of `b` leaves exactly the same engine, and in
total reports the same number of cycles, as one budget of `a + b`; and it panics in exactly the same cases. -/
theorem C45_compositional (e : Engine K) (a b : Nat) :
    e.step o full (a + b) =
      (e.step o full a).bind fun r => (r.2.step o full b).map fun r' => (r.1 + r'.1, r'.2) := by
  induction a generalizing e with
  | zero =>
    simp only [Nat.zero_add, Engine.step, Option.bind_some]
    cases e.step o full b <;> simp
  | succ a ih =>
    rw [Nat.succ_add, step_succ, step_succ]
    cases h : e.stepOne o full with
    | none => rfl
    | some x =>
      obtain ⟨m, e1⟩ := x
      simp only [Option.bind_some]
      cases m with
      | true =>
        simp only [if_true]
        rw [ih e1]
        cases e1.step o full a with
        | none => rfl
        | some y =>
          simp only [Option.bind_some, Option.map_some]
          cases y.2.step o full b with
          | none => rfl
          | some z =>
            simp only [Option.map_some, Option.some.injEq, Prod.mk.injEq, and_true]
            omega
      | false =>
        simp only [Bool.false_eq_true, if_false, Option.bind_some]
        rw [step_stuck (stepOne_false h)]
        rfl

/-- Run a list of budgets one after the other. -/
def Engine.steps (o : SOptions K) (full : Dataset K) : List Nat → Engine K → Option (Nat × Engine K)
  | [], e => some (0, e)
  | n :: ns, e => (e.step o full n).bind fun r => (Engine.steps o full ns r.2).map fun r' => (r.1 + r'.1, r'.2)

/-- C45: any partition of a budget does the same as the whole budget. -/
theorem C45_partition (ns : List Nat) (e : Engine K) : e.steps o full ns = e.step o full ns.sum := by
  induction ns generalizing e with
  | nil => rfl
  | cons n ns ih =>
    rw [List.sum_cons, C45_compositional, Engine.steps]
    congr 1
    funext r
    rw [ih]

theorem step_count {e : Engine K} (hi : e.Inv o np) (n : Nat) {k : Nat} {e' : Engine K}
    (h : e.step o full n = some (k, e')) :
    k = min n (e.shared.counters.total - e.shared.counters.completed) ∧ e'.Inv o np ∧
    e'.shared.counters.completed = e.shared.counters.completed + k := by
  induction n generalizing e k with
  | zero =>
    simp only [Engine.step, Option.some.injEq, Prod.mk.injEq] at h
    obtain ⟨rfl, rfl⟩ := h
    exact ⟨by simp, hi, rfl⟩
  | succ n ih =>
    cases hf : e.shared.finished with
    | true =>
      unfold Engine.step at h
      rw [stepOne_finished hf] at h
      simp only [Option.bind_eq_bind, Option.bind_some, Bool.false_eq_true, if_false, Option.some.injEq,
        Prod.mk.injEq] at h
      obtain ⟨rfl, rfl⟩ := h
      unfold Shared.finished at hf
      simp only [beq_iff_eq] at hf
      exact ⟨by omega, ⟨hi.pops, hi.present, hi.bestSub, hi.total, hi.started, hi.iter, hi.fresh, hi.running⟩, rfl⟩
    | false =>
      unfold Engine.step at h
      simp only [Option.bind_eq_bind, Option.bind_eq_some_iff] at h
      obtain ⟨⟨b, e1⟩, h1, h⟩ := h
      obtain ⟨rfl, hi1, hc1, -⟩ := stepOne_spec hi hf h1
      simp only [if_true, Option.bind_eq_some_iff, Option.some.injEq, Prod.mk.injEq] at h
      obtain ⟨⟨k', e2⟩, h2, rfl, rfl⟩ := h
      obtain ⟨hk, hi2, hc2⟩ := ih hi1 h2
      have ht : e1.shared.counters.total = e.shared.counters.total := by rw [hi1.total, hi.total]
      unfold Shared.finished at hf
      simp only [beq_eq_false_iff_ne, ne_eq] at hf
      rw [ht, hc1] at hk
      rw [hc1] at hc2
      simp only at hk hc2 ⊢
      refine ⟨by omega, hi2, by omega⟩

/-- C45: from a fresh engine, after any sequence of budgets: the reported number of cycles is exactly the smaller of
the budget and the remaining work, the completed-counter goes up by it, and the engine is finished exactly when the
budgets reach the total `niterations * np`. -/
theorem C45_count {e0 e e' : Engine K} (h0 : e0.Fresh o np) (ns : List Nat) (c : Nat) (hr : e0.steps o full ns = some (c, e))
    (n k : Nat) (h : e.step o full n = some (k, e')) :
    k = min n (o.niterations * np - e.shared.counters.completed) ∧
    e'.shared.counters.completed = e.shared.counters.completed + k ∧
    e.shared.counters.completed = c ∧ c = min ns.sum (o.niterations * np) ∧
    (e.shared.finished = true ↔ o.niterations * np ≤ ns.sum) := by
  rw [C45_partition] at hr
  obtain ⟨hc, hi, hcc⟩ := step_count h0.inv _ hr
  obtain ⟨hk, hi', hk'⟩ := step_count hi n h
  have ht := h0.inv.total
  have hz := h0.shared.completed
  have ht' := hi.total
  rw [ht'] at hk
  rw [ht, hz, Nat.sub_zero] at hc
  rw [hz, Nat.zero_add] at hcc
  refine ⟨hk, hk', hcc, hc, ?_⟩
  unfold Shared.finished
  rw [ht', hcc, hc, beq_iff_eq]
  omega

/-- C45: running to completion is the same as stepping with any budget that covers the total work (up to the flag that
the progress display was closed): it returns exactly when no task panics. -/
theorem C45_run_to_completion {e0 : Engine K} (h0 : e0.Fresh o np) (n : Nat) (hn : o.niterations * np ≤ n) :
    (∀ k e, e0.step o full n = some (k, e) → e0.RunsTo o full { e with progressFinished := true }) ∧
    (∀ e, e0.RunsTo o full e → ∃ e1, e0.step o full n = some (o.niterations * np, e1) ∧
      e = { e1 with progressFinished := true }) := by
  have key : ∀ (n : Nat) (e0 : Engine K), e0.Inv o np → o.niterations * np ≤ n + e0.shared.counters.completed →
      (∀ k e, e0.step o full n = some (k, e) → e0.RunsTo o full { e with progressFinished := true }) := by
    intro n
    induction n with
    | zero =>
      intro e0 hi hle k e h
      simp only [Engine.step, Option.some.injEq, Prod.mk.injEq] at h
      obtain ⟨rfl, rfl⟩ := h
      refine .done (stepOne_finished ?_)
      unfold Shared.finished
      rw [hi.total, beq_iff_eq]; omega
    | succ n ih =>
      intro e0 hi hle k e h
      cases hf : e0.shared.finished with
      | true =>
        unfold Engine.step at h
        rw [stepOne_finished hf] at h
        simp only [Option.bind_eq_bind, Option.bind_some, Bool.false_eq_true, if_false, Option.some.injEq,
          Prod.mk.injEq] at h
        obtain ⟨rfl, rfl⟩ := h
        exact .done (stepOne_finished hf)
      | false =>
        unfold Engine.step at h
        simp only [Option.bind_eq_bind, Option.bind_eq_some_iff] at h
        obtain ⟨⟨b, e1⟩, h1, h⟩ := h
        obtain ⟨rfl, hi1, hc1, -⟩ := stepOne_spec hi hf h1
        simp only [if_true, Option.bind_eq_some_iff, Option.some.injEq, Prod.mk.injEq] at h
        obtain ⟨⟨k', e2⟩, h2, rfl, rfl⟩ := h
        exact .more h1 (ih e1 hi1 (by omega) k' e2 h2)
  have key2 : ∀ (e0 e : Engine K), e0.RunsTo o full e → e0.Inv o np → ∀ n, o.niterations * np ≤ n + e0.shared.counters.completed →
      ∃ k e1, e0.step o full n = some (k, e1) ∧ e = { e1 with progressFinished := true } := by
    intro e0 e h
    induction h with
    | @done e0 e h =>
      intro hi n hn
      have hf : e0.shared.finished = true := by
        by_contra hc
        have := (stepOne_spec hi (by simpa using hc) h).1
        cases this
      rw [stepOne_finished hf] at h
      simp only [Option.some.injEq, Prod.mk.injEq, true_and] at h
      subst h
      cases n with
      | zero => exact ⟨0, e0, rfl, rfl⟩
      | succ n =>
        refine ⟨0, { e0 with progressFinished := true }, ?_, rfl⟩
        rw [step_succ, stepOne_finished hf]; rfl
    | @more e0 e1 e h hr ih =>
      intro hi n hn
      have hf : e0.shared.finished = false := by
        by_contra hc
        rw [stepOne_finished (by simpa using hc)] at h
        simp at h
      obtain ⟨-, hi1, hc1, -⟩ := stepOne_spec hi hf h
      have hlt : e0.shared.counters.completed < o.niterations * np := by
        unfold Shared.finished at hf
        rw [hi.total] at hf
        simp only [beq_eq_false_iff_ne, ne_eq] at hf
        omega
      obtain ⟨n', rfl⟩ : ∃ n', n = n' + 1 := ⟨n - 1, by omega⟩
      obtain ⟨k, e2, h2, h3⟩ := ih hi1 n' (by omega)
      refine ⟨k + 1, e2, ?_, h3⟩
      unfold Engine.step
      rw [h]
      simp only [Option.bind_eq_bind, Option.bind_some, if_true]
      rw [h2]; rfl
  refine ⟨key n e0 h0.inv (by omega), fun e h => ?_⟩
  obtain ⟨k, e1, h1, h2⟩ := key2 e0 e h h0.inv n (by omega)
  have := (step_count h0.inv n h1).1
  rw [h0.inv.total, h0.shared.completed, Nat.sub_zero, Nat.min_eq_right hn] at this
  exact ⟨e1, by rw [h1, this], h2⟩

end SR
