import Verif.Proofs.Schedule
/-
C44, C49: the multi-worker driver, under every completion order.
-/
namespace SR
variable {K : Type} [Field K] [LinearOrder K] [E : Env K]
variable {o : SOptions K} {full : Dataset K} {nw np : Nat}

theorem dispatches_append (a b : List ParEvent) : dispatches (a ++ b) = dispatches a ++ dispatches b :=
  List.filterMap_append ..

theorem receives_append (a b : List ParEvent) : receives (a ++ b) = receives a ++ receives b :=
  List.filterMap_append ..

/-- The events so far: whole iterations, and the current one. -/
structure TraceInv (np : Nat) (p : Par K) (tr : List ParEvent) (blocks : List (List ParEvent)) (cur : List ParEvent) :
    Prop where
  split : tr = blocks.flatten ++ cur
  whole : ∀ b ∈ blocks, IterationTrace np b
  idle : p.pc = .idle → cur = [] ∧ blocks.length = p.iter
  active : p.pc ≠ .idle → blocks.length + 1 = p.iter ∧ cur.head? = some .start ∧ cur.count .start = 1 ∧
    dispatches cur = p.order.take p.nextTask ∧
    (receives cur ++ p.pending.map (·.popIdx)).Perm (p.order.take p.nextTask)

theorem traceInv_step {p q : Par K} {e : ParEvent} {tr cur : List ParEvent} {blocks : List (List ParEvent)}
    (hi : p.Inv o nw np) (ht : TraceInv np p tr blocks cur) (h : ParStep o full nw p e q) :
    ∃ blocks' cur', TraceInv np q (tr ++ [e]) blocks' cur' := by
  have hq := hi.step h
  cases h with
  | @start order rng hpc hlt hsh =>
    obtain ⟨rfl, hb⟩ := ht.idle hpc
    have hp := (hi.idle hpc).1
    refine ⟨blocks, [.start], by rw [ht.split]; simp, ht.whole, (by intro hc; cases hc), fun _ =>
      ⟨by show blocks.length + 1 = p.iter + 1; omega, rfl, rfl, rfl, ?_⟩⟩
    show (receives [.start] ++ p.pending.map (·.popIdx)).Perm _
    rw [hp]; simp [receives]
  | enter hpc hcond =>
    obtain ⟨h1, h2, h3, h4, h5⟩ := ht.active (by rw [hpc]; decide)
    refine ⟨blocks, cur ++ [.other], by rw [ht.split]; simp, ht.whole, (by intro hc; cases hc), fun _ =>
      ⟨h1, by simp [List.head?_append, h2], by simp [h3], ?_, ?_⟩⟩
    · rw [dispatches_append, h4]; simp [dispatches]
    · rw [receives_append]; simpa [receives] using h5
  | leave hpc hcond =>
    obtain ⟨h1, h2, h3, h4, h5⟩ := ht.active (by rw [hpc]; decide)
    have ha := hi.active (by rw [hpc]; decide)
    have hp0 : p.pending = [] := (hq.idle rfl).1
    have hlen := ha.2.1.length_eq
    have hfull : p.order.take p.nextTask = p.order := List.take_of_length_le (by omega)
    rw [hfull] at h4 h5
    rw [hp0] at h5
    refine ⟨blocks ++ [cur ++ [.other]], [], by rw [ht.split]; simp, ?_, fun _ => ⟨rfl, by simp; exact h1⟩,
      by intro hc; exact absurd rfl hc⟩
    intro b hb
    rcases List.mem_append.mp hb with hb | hb
    · exact ht.whole b hb
    · rw [List.mem_singleton.mp hb]
      refine ⟨by simp [List.head?_append, h2], by simp [h3], ?_, ?_⟩
      · rw [dispatches_append, h4]; simpa [dispatches] using ha.2.1
      · rw [receives_append]
        simp only [List.map_nil, List.append_nil] at h5
        simpa [receives] using h5.trans ha.2.1
  | @dispatch i t s hpc hw hord hd =>
    obtain ⟨h1, h2, h3, h4, h5⟩ := ht.active (by rw [hpc]; decide)
    have ht2 := (dispatch_task hd).2.1
    have htake : p.order.take (p.nextTask + 1) = p.order.take p.nextTask ++ [i] := by
      rw [List.take_add_one, hord]; rfl
    refine ⟨blocks, cur ++ [.dispatch i], by rw [ht.split]; simp, ht.whole, (by intro hc; rw [show p.pc = _ from hpc] at hc; cases hc), fun _ =>
      ⟨h1, by simp [List.head?_append, h2], by simp [h3], ?_, ?_⟩⟩
    · show _ = p.order.take (p.nextTask + 1)
      rw [dispatches_append, h4, htake]; simp [dispatches]
    · show (receives (cur ++ [.dispatch i]) ++ (p.pending ++ [t]).map (·.popIdx)).Perm (p.order.take (p.nextTask + 1))
      rw [receives_append, htake]
      simp only [receives, List.filterMap_cons, List.filterMap_nil, List.append_nil, List.map_append, List.map_cons,
        List.map_nil, ht2]
      rw [← List.append_assoc]
      exact h5.append_right _
  | @skip i s hpc hw hord hd =>
    exfalso
    have ha := hi.active (by rw [hpc]; decide)
    have ha' := hq.active (by intro hc; rw [show p.pc = _ from hpc] at hc; cases hc)
    have e1 := ha.2.2.2.1
    have e2 : p.shared.counters.started = (p.iter - 1) * np + (p.nextTask + 1) := ha'.2.2.2.1
    omega
  | @receive l r t res s hpc hg hpend hrun happ =>
    obtain ⟨h1, h2, h3, h4, h5⟩ := ht.active (by rw [hpc]; decide)
    refine ⟨blocks, cur ++ [.receive t.popIdx], by rw [ht.split]; simp, ht.whole, (by intro hc; cases hc), fun _ =>
      ⟨h1, by simp [List.head?_append, h2], by simp [h3], ?_, ?_⟩⟩
    · rw [dispatches_append, h4]; simp [dispatches]
    · show (receives (cur ++ [.receive t.popIdx]) ++ (l ++ r).map (·.popIdx)).Perm (p.order.take p.nextTask)
      rw [hpend] at h5
      refine List.Perm.trans ?_ h5
      rw [receives_append]
      simp only [receives, List.filterMap_cons, List.filterMap_nil, List.map_append, List.map_cons, List.append_assoc,
        List.singleton_append]
      exact List.Perm.append_left _ List.perm_middle.symm

theorem traceInv_run {p0 p : Par K} {tr : List ParEvent} (h0 : p0.Fresh o np) (h : ParRun o full nw p0 tr p) :
    ∃ blocks cur, TraceInv np p tr blocks cur := by
  induction h with
  | refl => exact ⟨[], [], rfl, by simp, fun _ => ⟨rfl, h0.iter.symm⟩, fun hc => absurd h0.pc hc⟩
  | snoc hr hs ih =>
    obtain ⟨b, c, ht⟩ := ih
    exact traceInv_step ((h0.inv nw).run hr) ht hs

/-- Steps left to the end of the search. -/
def Par.left (o : SOptions K) (np : Nat) (p : Par K) : Nat :=
  (o.niterations - p.iter) * (3 * np + 2) + match p.pc with
    | .idle => 0
    | .outer => 3 * (np - p.nextTask) + 2 * p.inFlight + 1
    | .inner => 3 * (np - p.nextTask) + 2 * p.inFlight

theorem left_step {p q : Par K} {e : ParEvent} (hi : p.Inv o nw np) (h : ParStep o full nw p e q) :
    q.left o np + 1 = p.left o np := by
  have hq := hi.step h
  cases h with
  | @start order rng hpc hlt hsh =>
    unfold Par.left
    rw [hpc]
    simp only
    obtain ⟨k, hk⟩ : ∃ k, o.niterations - p.iter = k + 1 := ⟨o.niterations - p.iter - 1, by omega⟩
    rw [hk, show o.niterations - (p.iter + 1) = k by omega, Nat.sub_zero]
    ring
  | enter hpc hcond => unfold Par.left; rw [hpc]; simp only; omega
  | leave hpc hcond =>
    have ha := hi.active (by rw [hpc]; decide)
    have hlen := ha.2.1.length_eq
    simp only [List.length_range] at hlen
    unfold Par.left; rw [hpc]; simp only; omega
  | @dispatch i t s hpc hw hord hd =>
    have ha := hi.active (by rw [hpc]; decide)
    have hlen := ha.2.1.length_eq
    simp only [List.length_range] at hlen
    have := (List.getElem?_eq_some_iff.mp hord).1
    unfold Par.left; simp only [hpc]; omega
  | @skip i s hpc hw hord hd =>
    exfalso
    have ha := hi.active (by rw [hpc]; decide)
    have ha' := hq.active (by intro hc; rw [show p.pc = _ from hpc] at hc; cases hc)
    have e1 := ha.2.2.2.1
    have e2 : p.shared.counters.started = (p.iter - 1) * np + (p.nextTask + 1) := ha'.2.2.2.1
    omega
  | @receive l r t res s hpc hg hpend hrun happ =>
    have hfl := hi.flight
    rw [hpend] at hfl
    simp only [List.length_append, List.length_cons] at hfl
    unfold Par.left; rw [hpc]; simp only; omega

theorem left_run {p0 p : Par K} {tr : List ParEvent} (hi : p0.Inv o nw np) (h : ParRun o full nw p0 tr p) :
    p.left o np + tr.length = p0.left o np := by
  induction h with
  | refl => rfl
  | snoc hr hs ih =>
    have := left_step (hi.run hr) hs
    simp only [List.length_append, List.length_cons, List.length_nil]
    omega

/-- C44: in every state the multi-worker driver can reach from a fresh start, under every completion order: at most
`nw` tasks are in flight, no two of them work on the same population, and every population is either in the pool or in
exactly one task. -/
theorem C44_safety {p0 p : Par K} {tr : List ParEvent} (h0 : p0.Fresh o np) (h : ParRun o full nw p0 tr p) :
    p.pending.length ≤ nw ∧ (p.pending.map (·.popIdx)).Nodup ∧ (∀ t ∈ p.pending, t.popIdx < np) ∧
    p.shared.pops.length = np ∧
    (∀ (i : Nat), i < np → ((∃ ps, p.shared.pops[i]? = some (some ps)) ∧ i ∉ p.pending.map (·.popIdx)) ∨
      (p.shared.pops[i]? = some none ∧ i ∈ p.pending.map (·.popIdx))) ∧
    p.shared.counters.started = p.shared.counters.completed + p.pending.length ∧
    p.shared.counters.completed = (receives tr).length := by
  have hi := (h0.inv nw).run h
  refine ⟨hi.flight ▸ hi.workers, hi.nodup, hi.lt, hi.pops, fun i hlt => ?_, hi.flight ▸ hi.started, ?_⟩
  · have hp := hi.place i hlt
    have hl : i < p.shared.pops.length := by rw [hi.pops]; exact hlt
    rw [List.getElem?_eq_getElem hl] at hp ⊢
    cases hx : p.shared.pops[i] with
    | none => rw [hx] at hp; exact .inr ⟨rfl, hp.mp rfl⟩
    | some ps => rw [hx] at hp; exact .inl ⟨⟨ps, rfl⟩, fun hm => by simpa using hp.mpr hm⟩
  · clear hi
    induction h with
    | refl => rw [h0.shared.completed]; rfl
    | @snoc q r tr' e hr hs ih =>
      have hi := (h0.inv nw).run hr
      rw [receives_append, List.length_append, ← ih]
      cases hs with
      | start => rfl
      | enter => rfl
      | leave => rfl
      | dispatch _ _ _ hd => rw [(dispatch_task hd).2.2.2.2]; rfl
      | skip => rfl
      | receive _ _ _ _ happ => rw [(apply_result happ).2.2.1]; rfl

/-- C44: a search that ends consists of `niterations` iterations, in each of which every population is dispatched
exactly once and its result received exactly once; it ends with all populations in the pool and
`niterations * np` completed cycles, after exactly `niterations * (3 np + 2)` driver steps. -/
theorem C44_complete {p0 p : Par K} {tr : List ParEvent} (h0 : p0.Fresh o np) (h : ParRun o full nw p0 tr p)
    (hf : p.Final o) :
    (∃ blocks : List (List ParEvent), tr = blocks.flatten ∧ blocks.length = o.niterations ∧
      ∀ b ∈ blocks, IterationTrace np b) ∧
    p.pending = [] ∧ (∀ (i : Nat), i < np → ∃ ps, p.shared.pops[i]? = some (some ps)) ∧
    p.shared.counters.completed = o.niterations * np ∧ p.shared.finished = true ∧
    tr.length = o.niterations * (3 * np + 2) := by
  have hi := (h0.inv nw).run h
  obtain ⟨blocks, cur, ht⟩ := traceInv_run h0 h
  obtain ⟨hpc, hit⟩ := hf
  obtain ⟨rfl, hb⟩ := ht.idle hpc
  obtain ⟨hp, hst⟩ := hi.idle hpc
  have hiter : p.iter = o.niterations := Nat.le_antisymm hi.iter hit
  have hfl := hi.flight
  rw [hp] at hfl
  have hstart := hi.started
  have hcomp : p.shared.counters.completed = o.niterations * np := by
    rw [← hiter, ← hst, hstart, hfl]; simp
  refine ⟨⟨blocks, by rw [ht.split]; simp, by rw [hb, hiter], ht.whole⟩, hp, fun i hlt => ?_, hcomp, ?_, ?_⟩
  · have hp' := hi.place i hlt
    have hl : i < p.shared.pops.length := by rw [hi.pops]; exact hlt
    rw [hp, List.getElem?_eq_getElem hl] at hp'
    rw [List.getElem?_eq_getElem hl]
    cases hx : p.shared.pops[i] with
    | none => rw [hx] at hp'; simp at hp'
    | some ps => exact ⟨ps, rfl⟩
  · unfold Shared.finished
    rw [hi.total, hcomp]; simp
  · have := left_run (h0.inv nw) h
    unfold Par.left at this
    rw [hpc, h0.pc, h0.iter, hiter] at this
    simpa using this

/-- C44: the driver can never run forever: every run from a fresh start has at most `niterations * (3 np + 2)` steps. -/
theorem C44_terminates {p0 p : Par K} {tr : List ParEvent} (h0 : p0.Fresh o np) (h : ParRun o full nw p0 tr p) :
    tr.length ≤ o.niterations * (3 * np + 2) := by
  have := left_run (h0.inv nw) h
  rw [show p0.left o np = o.niterations * (3 * np + 2) by unfold Par.left; rw [h0.pc, h0.iter]; simp] at this
  omega

/-- C44: the driver is never stuck: in every reachable state the search is over, or it can take a step, or the driver
itself panics while applying a result or computing the size limit, or it waits while every task in flight has
panicked. -/
theorem C44_progress (hw : 1 ≤ nw) {p0 p : Par K} {tr : List ParEvent} (h0 : p0.Fresh o np)
    (h : ParRun o full nw p0 tr p) :
    p.Final o ∨ (∃ e q, ParStep o full nw p e q) ∨ p.Crash o full nw ∨ p.Hangs o full nw := by
  have hi := (h0.inv nw).run h
  cases hpc : p.pc with
  | idle =>
    by_cases hit : p.iter < o.niterations
    · obtain ⟨order, rng, hsh, -⟩ := C33_shuffle_perm (List.range p.shared.pops.length) p.orderRng
      exact .inr (.inl ⟨_, _, .start hpc hit hsh⟩)
    · exact .inl ⟨hpc, by omega⟩
  | outer =>
    by_cases hc : p.nextTask < p.order.length ∨ 0 < p.inFlight
    · exact .inr (.inl ⟨_, _, .enter hpc hc⟩)
    · exact .inr (.inl ⟨_, _, .leave hpc hc⟩)
  | inner =>
    by_cases hg : p.inFlight < nw ∧ p.nextTask < p.order.length
    · have hord : p.order[p.nextTask]? = some p.order[p.nextTask] := List.getElem?_eq_getElem hg.2
      cases hd : p.shared.dispatch o p.order[p.nextTask] with
      | none => exact .inr (.inr (.inl (.dispatch hpc hg.1 hord hd)))
      | some x =>
        obtain ⟨_ | t, s⟩ := x
        · exact .inr (.inl ⟨_, _, .skip hpc hg.1 hord hd⟩)
        · exact .inr (.inl ⟨_, _, .dispatch hpc hg.1 hord hd⟩)
    · have hne : p.pending ≠ [] := by
        intro hnil
        have := hi.flight
        rw [hnil] at this
        simp only [List.length_nil] at this
        rcases hi.inner hpc with h1 | h1 <;> omega
      by_cases hall : ∀ t ∈ p.pending, t.run o full = none
      · exact .inr (.inr (.inr ⟨hpc, hg, hne, hall⟩))
      · simp only [not_forall] at hall
        obtain ⟨t, htm, htr⟩ := hall
        obtain ⟨res, hres⟩ := Option.ne_none_iff_exists'.mp htr
        obtain ⟨l, r, hlr⟩ := List.append_of_mem htm
        cases happ : p.shared.apply o res with
        | none => exact .inr (.inr (.inl (.apply hpc hg htm hres happ)))
        | some s => exact .inr (.inl ⟨_, _, .receive hpc hg hlr hres happ⟩)

/-! ## C49 -/

theorem panicked_stays {p q : Par K} {tr : List ParEvent} (h : ParRun o full nw p tr q) (t : Task K)
    (ht : t ∈ p.pending) (hn : t.run o full = none) : t ∈ q.pending := by
  induction h with
  | refl => exact ht
  | snoc _ hs ih =>
    cases hs with
    | start => exact ih
    | enter => exact ih
    | leave => exact ih
    | dispatch => exact List.mem_append_left _ ih
    | skip => exact ih
    | receive _ _ hp hrun _ =>
      rw [hp] at ih
      simp only [List.mem_append, List.mem_cons] at ih ⊢
      rcases ih with h | rfl | h
      · exact .inl h
      · rw [hn] at hrun; cases hrun
      · exact .inr h

theorem ParRun.trans {p q r : Par K} {t1 t2 : List ParEvent} (h1 : ParRun o full nw p t1 q)
    (h2 : ParRun o full nw q t2 r) : ParRun o full nw p (t1 ++ t2) r := by
  induction h2 with
  | refl => simpa using h1
  | snoc _ hs ih => rw [← List.append_assoc]; exact .snoc ih hs

/-- C49 (defect): once a task has panicked, the multi-worker search never returns: no later state is final, and every
run can only be continued to a state in which the driver waits for ever for a result that no task will deliver (or the
driver itself panics). -/
theorem C49_panic_hangs (hw : 1 ≤ nw) {p0 p : Par K} {tr : List ParEvent} (h0 : p0.Fresh o np)
    (h : ParRun o full nw p0 tr p) (t : Task K) (ht : t ∈ p.pending) (hn : t.run o full = none) :
    (∀ tr' q, ParRun o full nw p tr' q → ¬ q.Final o) ∧
    (∀ tr' q, ParRun o full nw p tr' q → (∀ e r, ¬ ParStep o full nw q e r) →
      q.Hangs o full nw ∨ q.Crash o full nw) := by
  have hnf : ∀ tr' q, ParRun o full nw p tr' q → ¬ q.Final o := by
    intro tr' q hq hf
    have hp := ((h0.inv nw).run (h.trans hq)).idle hf.1
    have := panicked_stays hq t ht hn
    rw [hp.1] at this; simp at this
  refine ⟨hnf, fun tr' q hq hstuck => ?_⟩
  rcases C44_progress hw h0 (h.trans hq) with h1 | ⟨e, r, h1⟩ | h1 | h1
  · exact absurd h1 (hnf tr' q hq)
  · exact absurd h1 (hstuck e r)
  · exact .inr h1
  · exact .inl h1

/-- C49: conversely the search returns when no task panics and the driver does not: any run that cannot be continued
then ends in a final state. -/
theorem C49_returns (hw : 1 ≤ nw) {p0 p : Par K} {tr : List ParEvent} (h0 : p0.Fresh o np)
    (h : ParRun o full nw p0 tr p) (hstuck : ∀ e q, ¬ ParStep o full nw p e q)
    (hok : ∀ t ∈ p.pending, t.run o full ≠ none) (hc : ¬ p.Crash o full nw) : p.Final o := by
  rcases C44_progress hw h0 h with h1 | ⟨e, r, h1⟩ | h1 | h1
  · exact h1
  · exact absurd h1 (hstuck e r)
  · exact absurd h1 hc
  · obtain ⟨-, -, hne, hall⟩ := h1
    obtain ⟨t, ht⟩ := List.exists_mem_of_ne_nil _ hne
    exact absurd (hall t ht) (hok t ht)

end SR
