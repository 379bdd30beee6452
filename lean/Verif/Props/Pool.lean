import Verif.Spec.Pool
import Verif.Props.Schedule
/-
C63: the search on a thread pool.
-/
namespace SR
variable {K : Type} [Field K] [LinearOrder K] [E : Env K]
variable {o : SOptions K} {full : Dataset K} {threads nw np : Nat}

/-- What is known after a run: the thread-free run it follows and where the tasks in flight are. -/
structure PoolInv (o : SOptions K) (full : Dataset K) (threads nw : Nat) (p0 : Pool K) (tr : List PoolEvent) (p : Pool K)
    (pending dead sent : List (Task K)) : Prop where
  run : ParRun o full nw (p0.toPar []) (driverEvents tr) (p.toPar pending)
  places : p.Places full o pending dead sent
  died : ∀ t ∈ dead, .die t.popIdx ∈ tr
  threads : p.running ≠ [] → p.running.length + 1 ≤ threads

theorem driverEvents_snoc_driver (tr : List PoolEvent) (e : ParEvent) :
    driverEvents (tr ++ [.driver e]) = driverEvents tr ++ [e] := by simp [driverEvents]

theorem PoolInv.step {p0 p q : Pool K} {tr : List PoolEvent} {e : PoolEvent} {pending dead sent : List (Task K)}
    (h : PoolInv o full threads nw p0 tr p pending dead sent) (hs : PoolStep o full threads nw p e q) :
    ∃ pending' dead' sent', PoolInv o full threads nw p0 (tr ++ [e]) q pending' dead' sent' := by
  have hd : ∀ t ∈ dead, .die t.popIdx ∈ tr ++ [e] := fun t ht => List.mem_append_left _ (h.died t ht)
  cases hs with
  | @start order rng hpc hlt hsh =>
    refine ⟨pending, dead, sent, ?_, ⟨h.places.all, h.places.dead, h.places.sent⟩, hd, h.threads⟩
    rw [driverEvents_snoc_driver]
    exact .snoc h.run (.start (p := p.toPar pending) hpc hlt hsh)
  | enter hpc hc =>
    refine ⟨pending, dead, sent, ?_, ⟨h.places.all, h.places.dead, h.places.sent⟩, hd, h.threads⟩
    rw [driverEvents_snoc_driver]
    exact .snoc h.run (.enter (p := p.toPar pending) hpc hc)
  | leave hpc hc =>
    refine ⟨pending, dead, sent, ?_, ⟨h.places.all, h.places.dead, h.places.sent⟩, hd, h.threads⟩
    rw [driverEvents_snoc_driver]
    exact .snoc h.run (.leave (p := p.toPar pending) hpc hc)
  | @dispatch i t s hpc hw hord hdis =>
    refine ⟨pending ++ [t], dead, sent, ?_, ⟨?_, h.places.dead, h.places.sent⟩, hd, h.threads⟩
    · rw [driverEvents_snoc_driver]
      exact .snoc h.run (.dispatch (p := p.toPar pending) hpc hw hord hdis)
    · show (pending ++ [t]).Perm (p.queue ++ [t] ++ p.running ++ dead ++ sent)
      have h1 := (h.places.all.append_right [t])
      refine h1.trans ?_
      simp only [List.append_assoc]
      refine List.Perm.append_left _ ?_
      rw [← List.append_assoc, ← List.append_assoc]
      exact (List.perm_append_comm).trans (by simp)
  | @skip i s hpc hw hord hdis =>
    refine ⟨pending, dead, sent, ?_, ⟨h.places.all, h.places.dead, h.places.sent⟩, hd, h.threads⟩
    rw [driverEvents_snoc_driver]
    exact .snoc h.run (.skip (p := p.toPar pending) hpc hw hord hdis)
  | @receive res rest s hpc hg hch happ =>
    have hsent := h.places.sent
    rw [hch, List.map_cons] at hsent
    obtain ⟨t, sent', rfl, hrun, hsent'⟩ := List.map_eq_cons_iff.mp hsent
    have hm : t ∈ pending := h.places.all.mem_iff.mpr (by simp)
    obtain ⟨l, r, rfl⟩ := List.append_of_mem hm
    refine ⟨l ++ r, dead, sent', ?_, ⟨?_, h.places.dead, hsent'⟩, hd, h.threads⟩
    · rw [driverEvents_snoc_driver, (run_popIdx hrun).1]
      exact .snoc h.run (.receive (p := p.toPar (l ++ t :: r)) hpc hg rfl hrun happ)
    · have h1 : (t :: (l ++ r)).Perm (t :: (p.queue ++ p.running ++ dead ++ sent')) :=
        List.perm_middle.symm.trans (h.places.all.trans List.perm_middle)
      exact h1.cons_inv
  | @take l r t hq hlt =>
    refine ⟨pending, dead, sent, ?_, ⟨?_, h.places.dead, h.places.sent⟩, hd, fun _ => by
      show (t :: p.running).length + 1 ≤ threads
      simp only [List.length_cons]; omega⟩
    · have : driverEvents (tr ++ [.take t.popIdx]) = driverEvents tr := by simp [driverEvents]
      rw [this]; exact h.run
    · refine h.places.all.trans ?_
      rw [hq]
      refine List.Perm.append_right _ (List.Perm.append_right _ ?_)
      show ((l ++ t :: r) ++ p.running).Perm ((l ++ r) ++ t :: p.running)
      exact (List.Perm.append_right _ List.perm_middle).trans List.perm_middle.symm
  | @finish l r t res hr hrun =>
    refine ⟨pending, dead, sent ++ [t], ?_, ⟨?_, h.places.dead, ?_⟩, hd, fun hne => ?_⟩
    · have : driverEvents (tr ++ [.finish t.popIdx]) = driverEvents tr := by simp [driverEvents]
      rw [this]; exact h.run
    · refine h.places.all.trans ?_
      rw [hr]
      show (p.queue ++ (l ++ t :: r) ++ dead ++ sent).Perm (p.queue ++ (l ++ r) ++ dead ++ (sent ++ [t]))
      have e1 : (p.queue ++ (l ++ t :: r) ++ dead ++ sent).Perm (t :: (p.queue ++ (l ++ r) ++ dead ++ sent)) := by
        have := List.perm_middle (a := t) (l₁ := p.queue ++ l) (l₂ := r ++ dead ++ sent)
        simpa [List.append_assoc] using this
      refine e1.trans ?_
      rw [← List.append_assoc _ sent [t]]
      exact (List.perm_append_singleton t _).symm
    · show (sent ++ [t]).map _ = (p.channel ++ [res]).map some
      rw [List.map_append, List.map_append, h.places.sent, List.map_singleton, List.map_singleton, hrun]
    · have := h.threads (by rw [hr]; simp)
      rw [hr] at this
      show (l ++ r).length + 1 ≤ threads
      simp only [List.length_append, List.length_cons] at this ⊢
      omega
  | @die l r t hr hrun =>
    refine ⟨pending, dead ++ [t], sent, ?_, ⟨?_, ?_, h.places.sent⟩, ?_, fun hne => ?_⟩
    · have : driverEvents (tr ++ [.die t.popIdx]) = driverEvents tr := by simp [driverEvents]
      rw [this]; exact h.run
    · refine h.places.all.trans ?_
      rw [hr]
      show (p.queue ++ (l ++ t :: r) ++ dead ++ sent).Perm (p.queue ++ (l ++ r) ++ (dead ++ [t]) ++ sent)
      have e1 : (p.queue ++ (l ++ t :: r) ++ dead ++ sent).Perm (t :: (p.queue ++ (l ++ r) ++ dead ++ sent)) := by
        have := List.perm_middle (a := t) (l₁ := p.queue ++ l) (l₂ := r ++ dead ++ sent)
        simpa [List.append_assoc] using this
      refine e1.trans ?_
      have := List.perm_middle (a := t) (l₁ := p.queue ++ (l ++ r) ++ dead) (l₂ := sent)
      exact (this.symm).trans (by simp [List.append_assoc])
    · intro x hx
      rcases List.mem_append.mp hx with hx | hx
      · exact h.places.dead x hx
      · rw [List.mem_singleton.mp hx]; exact hrun
    · intro x hx
      rcases List.mem_append.mp hx with hx | hx
      · exact hd x hx
      · rw [List.mem_singleton.mp hx]; simp
    · have := h.threads (by rw [hr]; simp)
      rw [hr] at this
      show (l ++ r).length + 1 ≤ threads
      simp only [List.length_append, List.length_cons] at this ⊢
      omega

theorem poolInv_run {p0 p : Pool K} {tr : List PoolEvent} (h0 : p0.Fresh o np) (h : PoolRun o full threads nw p0 tr p) :
    ∃ pending dead sent, PoolInv o full threads nw p0 tr p pending dead sent := by
  induction h with
  | refl =>
    refine ⟨[], [], [], .refl _, ⟨?_, by simp, by rw [h0.channel]; rfl⟩, by simp, fun h => absurd h0.running h⟩
    rw [h0.queue, h0.running]; simp
  | snoc _ hs ih =>
    obtain ⟨_, _, _, hi⟩ := ih
    exact hi.step hs

/-- C63: on a pool of any number of threads, whatever tasks the threads pick and in whatever order they finish, the
search behaves as the thread-free model says (so everything proved about that holds): its driver makes a run of that
model, in which the tasks in flight are those waiting in the pool, being executed, abandoned by a panic, or finished
with the result in the channel; and the threads other than the driver's are enough for the tasks being executed. -/
theorem C63_refines {p0 p : Pool K} {tr : List PoolEvent} (h0 : p0.Fresh o np)
    (h : PoolRun o full threads nw p0 tr p) :
    ∃ pending dead sent, ParRun o full nw (p0.toPar []) (driverEvents tr) (p.toPar pending) ∧
      p.Places full o pending dead sent ∧ (∀ t ∈ dead, .die t.popIdx ∈ tr) ∧
      (p.running = [] ∨ p.running.length + 1 ≤ threads) := by
  obtain ⟨pending, dead, sent, hi⟩ := poolInv_run h0 h
  refine ⟨pending, dead, sent, hi.run, hi.places, hi.died, ?_⟩
  by_cases hr : p.running = []
  · exact .inl hr
  · exact .inr (hi.threads hr)

/-- Steps left, counting those of the threads. -/
def Pool.left (o : SOptions K) (np : Nat) (p : Pool K) : Nat :=
  3 * (p.toPar []).left o np + 2 * p.queue.length + p.running.length

theorem Pool.left_step {p0 p q : Pool K} {tr : List PoolEvent} {e : PoolEvent} (h0 : p0.Fresh o np)
    (h : PoolRun o full threads nw p0 tr p) (hs : PoolStep o full threads nw p e q) : q.left o np + 1 ≤ p.left o np := by
  obtain ⟨pending, dead, sent, hi⟩ := poolInv_run h0 h
  have inv := (h0.driver.inv nw).run hi.run
  -- the measure of the driver does not depend on the tasks in flight
  have key : ∀ {x y : Pool K} {l l' : List (Task K)} {ev : ParEvent}, (x.toPar l).Inv o nw np →
      ParStep o full nw (x.toPar l) ev (y.toPar l') → (y.toPar []).left o np + 1 = (x.toPar []).left o np :=
    fun {x y l l' ev} hx hst => SR.left_step (p := x.toPar l) (q := y.toPar l') hx hst
  cases hs with
  | @start order rng hpc hlt hsh =>
    have := key (y := { p with orderRng := rng, pc := .outer, iter := p.iter + 1, order, nextTask := 0, inFlight := 0 })
      inv (.start (p := p.toPar pending) hpc hlt hsh)
    unfold Pool.left; simp only at this ⊢; omega
  | enter hpc hc =>
    have := key (y := { p with pc := .inner }) inv (.enter (p := p.toPar pending) hpc hc)
    unfold Pool.left; simp only at this ⊢; omega
  | leave hpc hc =>
    have := key (y := { p with pc := .idle }) inv (.leave (p := p.toPar pending) hpc hc)
    unfold Pool.left; simp only at this ⊢; omega
  | @dispatch i t s hpc hw hord hdis =>
    have := key (y := { p with shared := s, nextTask := p.nextTask + 1, inFlight := p.inFlight + 1, queue := p.queue ++ [t] })
      inv (.dispatch (p := p.toPar pending) hpc hw hord hdis)
    unfold Pool.left
    simp only [List.length_append, List.length_cons, List.length_nil] at this ⊢; omega
  | @skip i s hpc hw hord hdis =>
    have := key (y := { p with nextTask := p.nextTask + 1 }) inv (.skip (p := p.toPar pending) hpc hw hord hdis)
    unfold Pool.left; simp only at this ⊢; omega
  | @receive res rest s hpc hg hch happ =>
    have hsent := hi.places.sent
    rw [hch, List.map_cons] at hsent
    obtain ⟨t, sent', rfl, hrun, hsent'⟩ := List.map_eq_cons_iff.mp hsent
    have hm : t ∈ pending := hi.places.all.mem_iff.mpr (by simp)
    obtain ⟨l, r, rfl⟩ := List.append_of_mem hm
    have := key (y := { p with shared := s, pc := .outer, inFlight := p.inFlight - 1, channel := rest })
      inv (.receive (p := p.toPar (l ++ t :: r)) hpc hg rfl hrun happ)
    unfold Pool.left; simp only at this ⊢; omega
  | @take l r t hq hlt =>
    unfold Pool.left
    rw [hq]
    simp only [List.length_append, List.length_cons, Pool.toPar, Par.left]; omega
  | @finish l r t res hr hrun =>
    unfold Pool.left
    rw [hr]
    simp only [List.length_append, List.length_cons, Pool.toPar, Par.left]; omega
  | @die l r t hr hrun =>
    unfold Pool.left
    rw [hr]
    simp only [List.length_append, List.length_cons, Pool.toPar, Par.left]; omega

/-- C63: no execution goes on for ever: driver and threads together make at most `3 * niterations * (3 np + 2)` steps. -/
theorem C63_terminates {p0 p : Pool K} {tr : List PoolEvent} (h0 : p0.Fresh o np)
    (h : PoolRun o full threads nw p0 tr p) : tr.length ≤ 3 * (o.niterations * (3 * np + 2)) := by
  have key : p.left o np + tr.length ≤ p0.left o np := by
    induction h with
    | refl => simp
    | snoc hr hs ih =>
      have := Pool.left_step h0 hr hs
      simp only [List.length_append, List.length_cons, List.length_nil]
      omega
  have h1 : p0.left o np = 3 * (o.niterations * (3 * np + 2)) := by
    unfold Pool.left Par.left
    rw [h0.queue, h0.running, h0.driver.pc, h0.driver.iter]; simp
  omega

/-- C63: with at least two threads an execution that cannot go on has returned, or its driver panicked, or it waits for
the result of a task that panicked. -/
theorem C63_returns (ht : 2 ≤ threads) (hw : 1 ≤ nw) {p0 p : Pool K} {tr : List PoolEvent} (h0 : p0.Fresh o np)
    (h : PoolRun o full threads nw p0 tr p) (hs : p.Stuck o full threads nw) :
    p.Final o ∨ p.Crash o nw ∨ (p.Waits nw ∧ ∃ i, .die i ∈ tr) := by
  obtain ⟨pending, dead, sent, hi⟩ := poolInv_run h0 h
  have inv := (h0.driver.inv nw).run hi.run
  cases hpc : p.pc with
  | idle =>
    by_cases hit : p.iter < o.niterations
    · obtain ⟨order, rng, hsh, -⟩ := C33_shuffle_perm (List.range p.shared.pops.length) p.orderRng
      exact absurd (.start hpc hit hsh) (hs _ _)
    · exact .inl ⟨hpc, by omega⟩
  | outer =>
    by_cases hc : p.nextTask < p.order.length ∨ 0 < p.inFlight
    · exact absurd (.enter hpc hc) (hs _ _)
    · exact absurd (.leave hpc hc) (hs _ _)
  | inner =>
    by_cases hg : p.inFlight < nw ∧ p.nextTask < p.order.length
    · have hord : p.order[p.nextTask]? = some p.order[p.nextTask] := List.getElem?_eq_getElem hg.2
      cases hd : p.shared.dispatch o p.order[p.nextTask] with
      | none => exact .inr (.inl (.dispatch hpc hg.1 hord hd))
      | some x =>
        obtain ⟨_ | t, s⟩ := x
        · exact absurd (.skip hpc hg.1 hord hd) (hs _ _)
        · exact absurd (.dispatch hpc hg.1 hord hd) (hs _ _)
    · cases hch : p.channel with
      | cons res rest =>
        cases happ : p.shared.apply o res with
        | none => exact .inr (.inl (.apply hpc hg hch happ))
        | some s => exact absurd (.receive hpc hg hch happ) (hs _ _)
      | nil =>
        have hrn : p.running = [] := by
          by_contra hne
          obtain ⟨t, r, hr⟩ := List.exists_cons_of_ne_nil hne
          cases hrun : t.run o full with
          | none => exact hs _ _ (.die (l := []) hr hrun)
          | some res => exact hs _ _ (.finish (l := []) hr hrun)
        have hq : p.queue = [] := by
          by_contra hne
          obtain ⟨t, r, hr⟩ := List.exists_cons_of_ne_nil hne
          exact hs _ _ (.take (l := []) hr (by rw [hrn]; simp; omega))
        have hsent : sent = [] := by
          have := hi.places.sent
          rw [hch] at this
          simpa using this
        have hperm := hi.places.all.length_eq
        rw [hq, hrn, hsent] at hperm
        simp only [List.nil_append, List.append_nil] at hperm
        have hfl : p.inFlight = pending.length := inv.flight
        have hin : p.nextTask < p.order.length ∨ 0 < p.inFlight := inv.inner hpc
        have hpos : 0 < dead.length := by
          rcases hin with h1 | h1 <;> omega
        obtain ⟨t, htm⟩ := List.exists_mem_of_length_pos hpos
        exact .inr (.inr ⟨⟨hpc, hg, hch⟩, _, hi.died t htm⟩)

/-- C63 (defect): on a pool with a single thread, with at least one population and one iteration, the search never
returns: no thread ever executes a task, since the only one is occupied by the driver; every execution makes at most
`nw + 2` steps, and then the driver waits for ever (or panics). -/
theorem C63_one_thread_hangs (ht : threads ≤ 1) (hw : 1 ≤ nw) (hn : 1 ≤ o.niterations) (hp : 1 ≤ np) {p0 p : Pool K}
    {tr : List PoolEvent} (h0 : p0.Fresh o np) (h : PoolRun o full threads nw p0 tr p) :
    ¬ p.Final o ∧ tr.length ≤ nw + 2 ∧ (∀ i, .take i ∉ tr) ∧
    (p.Stuck o full threads nw → p.Waits nw ∨ p.Crash o nw) := by
  have key : p.running = [] ∧ p.channel = [] ∧ (∀ i, .take i ∉ tr) ∧
      ((p.pc = .idle ∧ p.iter = 0 ∧ tr.length = 0) ∨
       (p.pc = .outer ∧ p.iter = 1 ∧ tr.length = 1 ∧ p.inFlight = 0 ∧ p.nextTask = 0 ∧ p.order.length = np) ∨
       (p.pc = .inner ∧ p.iter = 1 ∧ tr.length = 2 + p.inFlight ∧ p.inFlight ≤ nw ∧ p.nextTask = p.inFlight)) := by
    induction h with
    | refl => exact ⟨h0.running, h0.channel, by simp, .inl ⟨h0.driver.pc, h0.driver.iter, rfl⟩⟩
    | @snoc q r tr' e hr hs ih =>
      obtain ⟨pending, dead, sent, hi⟩ := poolInv_run h0 hr
      have inv := (h0.driver.inv nw).run hi.run
      obtain ⟨h1, h2, h3, h4⟩ := ih
      have h3' : (∀ i, e ≠ .take i) → ∀ i, .take i ∉ tr' ++ [e] := by
        intro he i hm
        rcases List.mem_append.mp hm with hm | hm
        · exact h3 i hm
        · exact he i (List.mem_singleton.mp hm).symm
      cases hs with
      | @start order rng hpc hlt hsh =>
        refine ⟨h1, h2, h3' (by simp), .inr (.inl ?_)⟩
        rcases h4 with ⟨-, h5, h6⟩ | ⟨h5, -⟩ | ⟨h5, -⟩
        · refine ⟨rfl, by show q.iter + 1 = 1; omega, by simp [h6], rfl, rfl, ?_⟩
          have := (shuffle_range_perm hsh).length_eq
          have hpl : q.shared.pops.length = np := inv.pops
          rw [hpl] at this
          simpa using this
        · rw [hpc] at h5; cases h5
        · rw [hpc] at h5; cases h5
      | enter hpc hc =>
        refine ⟨h1, h2, h3' (by simp), .inr (.inr ?_)⟩
        rcases h4 with ⟨h5, -⟩ | ⟨-, h5, h6, h7, h8, -⟩ | ⟨h5, -⟩
        · rw [hpc] at h5; cases h5
        · exact ⟨rfl, h5, by show _ = 2 + q.inFlight; simp [h6, h7], by show q.inFlight ≤ nw; omega, by show q.nextTask = q.inFlight; omega⟩
        · rw [hpc] at h5; cases h5
      | leave hpc hc =>
        exfalso
        rcases h4 with ⟨h5, -⟩ | ⟨-, -, -, -, h8, h9⟩ | ⟨h5, -⟩
        · rw [hpc] at h5; cases h5
        · exact hc (.inl (by omega))
        · rw [hpc] at h5; cases h5
      | @dispatch i t s hpc hw' hord hdis =>
        refine ⟨h1, h2, h3' (by simp), .inr (.inr ?_)⟩
        rcases h4 with ⟨h5, -⟩ | ⟨h5, -⟩ | ⟨-, h5, h6, h7, h8⟩
        · rw [hpc] at h5; cases h5
        · rw [hpc] at h5; cases h5
        · exact ⟨hpc, h5, by show _ = 2 + (q.inFlight + 1); simp [h6]; omega, hw', by show q.nextTask + 1 = q.inFlight + 1; omega⟩
      | @skip i s hpc hw' hord hdis =>
        exfalso
        have hst := inv.step (full := full) (.skip (p := q.toPar pending) hpc hw' hord hdis)
        have ha := inv.active (by rw [show (q.toPar pending).pc = q.pc from rfl, hpc]; decide)
        have ha' := hst.active (by show q.pc ≠ _; rw [hpc]; decide)
        have e1 : q.shared.counters.started = (q.iter - 1) * np + q.nextTask := ha.2.2.2.1
        have e2 : q.shared.counters.started = (q.iter - 1) * np + (q.nextTask + 1) := ha'.2.2.2.1
        omega
      | @receive res rest s hpc hg hch happ => rw [h2] at hch; cases hch
      | @take l r t hq hlt => exfalso; omega
      | @finish l r t res hrn hrun => rw [h1] at hrn; simp at hrn
      | @die l r t hrn hrun => rw [h1] at hrn; simp at hrn
  obtain ⟨h1, h2, h3, h4⟩ := key
  have hnf : ¬ p.Final o := by
    rintro ⟨hpc, hit⟩
    rcases h4 with ⟨-, h5, -⟩ | ⟨h5, -⟩ | ⟨h5, -⟩
    · omega
    · rw [hpc] at h5; cases h5
    · rw [hpc] at h5; cases h5
  refine ⟨hnf, ?_, h3, fun hs => ?_⟩
  · rcases h4 with ⟨-, -, h5⟩ | ⟨-, -, h5, -⟩ | ⟨-, -, h5, h6, -⟩ <;> omega
  · rcases h4 with ⟨hpc, h5, -⟩ | ⟨hpc, h5, -⟩ | ⟨hpc, h5, -⟩
    · obtain ⟨order, rng, hsh, -⟩ := C33_shuffle_perm (List.range p.shared.pops.length) p.orderRng
      exact absurd (.start hpc (by omega) hsh) (hs _ _)
    · by_cases hc : p.nextTask < p.order.length ∨ 0 < p.inFlight
      · exact absurd (.enter hpc hc) (hs _ _)
      · exact absurd (.leave hpc hc) (hs _ _)
    · by_cases hg : p.inFlight < nw ∧ p.nextTask < p.order.length
      · have hord : p.order[p.nextTask]? = some p.order[p.nextTask] := List.getElem?_eq_getElem hg.2
        cases hd : p.shared.dispatch o p.order[p.nextTask] with
        | none => exact .inr (.dispatch hpc hg.1 hord hd)
        | some x =>
          obtain ⟨_ | t, s⟩ := x
          · exact absurd (.skip hpc hg.1 hord hd) (hs _ _)
          · exact absurd (.dispatch hpc hg.1 hord hd) (hs _ _)
      · exact .inl ⟨hpc, hg, h2⟩

end SR
