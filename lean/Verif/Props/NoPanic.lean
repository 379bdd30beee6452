import Verif.Proofs.NoPanic
import Verif.Props.PoolStart
import Verif.Props.SearchSound
/-
C64: a search does not panic.
-/
namespace SR
section
variable {K : Type} [Field K] [LinearOrder K] [IsStrictOrderedRing K] [E : Env K]
variable {o : SOptions K} {d : Dataset K} {ops : List OpId} {N : Nat}

/-- Everything the multi-worker driver holds is steady. -/
def Par.Steady (o : SOptions K) (d : Dataset K) (ops : List OpId) (N : Nat) (p : Par K) : Prop :=
  p.shared.Steady o d ops N ∧ ∀ t ∈ p.pending, t.Steady o d ops N

theorem Par.Inv.room {nw np : Nat} {p : Par K} (hi : p.Inv o nw np) (hf : 0 < p.inFlight) :
    p.shared.counters.completed + 1 ≤ o.niterations * np := by
  have h1 := hi.started
  have hne : p.pc ≠ .idle := by
    intro h; have := (hi.idle h).1; have := hi.flight; simp_all
  obtain ⟨h2, -, h3, h4, -⟩ := hi.active hne
  have h5 : p.iter * np ≤ o.niterations * np := Nat.mul_le_mul_right _ hi.iter
  obtain ⟨k, hk⟩ : ∃ k, p.iter = k + 1 := ⟨p.iter - 1, by omega⟩
  rw [hk] at h4 h5
  simp only [Nat.add_sub_cancel] at h4
  rw [Nat.succ_mul] at h5
  omega

theorem Par.Steady.step (Q : RunSetting o d ops N) {nw : Nat} {p q : Par K} {ev : ParEvent}
    (hi : p.Inv o nw o.populations) (hp : p.Steady o d ops N) (hs : ParStep o d nw p ev q) : q.Steady o d ops N := by
  cases hs with
  | start => exact hp
  | enter => exact hp
  | leave => exact hp
  | skip => exact hp
  | dispatch _ _ _ hd =>
    obtain ⟨h1, h2⟩ := dispatch_steady Q hp.1 hd
    refine ⟨h2, fun t ht => ?_⟩
    rcases List.mem_append.mp ht with ht | ht
    · exact hp.2 t ht
    · rw [List.mem_singleton.mp ht]; exact h1
  | @receive l r t res s _ _ hpend hrun ha =>
    have ht : t.Steady o d ops N := hp.2 t (by rw [hpend]; simp)
    obtain ⟨res', hr', hctx⟩ := Task.run_total Q ht
    rw [hrun, Option.some.injEq] at hr'
    subst hr'
    refine ⟨apply_steady Q hp.1 ((task_done Q.search ht.sound hrun).sound Q.search.evol ht.sound) hctx
      (hi.room (by rw [hi.flight, hpend]; simp)) ha, fun x hx => hp.2 x ?_⟩
    rw [hpend]
    rcases List.mem_append.mp hx with hx | hx <;> simp [hx]

theorem Par.Steady.run (Q : RunSetting o d ops N) {nw : Nat} {p q : Par K} {tr : List ParEvent}
    (hi : p.Inv o nw o.populations) (hp : p.Steady o d ops N) (hr : ParRun o d nw p tr q) : q.Steady o d ops N := by
  induction hr with
  | refl => exact hp
  | snoc h hs ih => exact ih.step Q (hi.run h) hs

/-- C64: in every state that the multi-worker driver reaches, under every schedule, no pending task panics (so the driver
does not wait for a result that never comes), and the driver itself cannot panic; the only thing that can go wrong is that
the sampler of a migration, on the generator of a population whose result is applied, keeps rejecting. -/
theorem C64_parallel (Q : RunSetting o d ops N) {seeds : Nat → Rng (Fl K)} {orderRng : Rng (Fl K)} {nw : Nat}
    {p q : Par K} {tr : List ParEvent} (hnew : Par.new o d seeds orderRng = some p) (hrun : ParRun o d nw p tr q) :
    (∀ t ∈ q.pending, (t.run o d).isSome = true) ∧ ¬ q.Hangs o d nw ∧
    (q.Crash o d nw → ∃ t ∈ q.pending, ∃ res, t.run o d = some res ∧ ApplyStuck o q.shared res) := by
  obtain ⟨s, e, hst, hf⟩ := init_steady Q seeds
  rw [Par.new, e] at hnew
  simp only [Option.map_some, Option.some.injEq] at hnew
  subst hnew
  have hi0 : Par.Inv o nw o.populations ⟨s, orderRng, .idle, 0, [], 0, 0, []⟩ :=
    Par.Fresh.inv ⟨hf, rfl, rfl, rfl, rfl⟩ nw
  have hi := hi0.run hrun
  have hs := Par.Steady.run Q hi0 ⟨hst, by simp⟩ hrun
  have htask : ∀ t ∈ q.pending, ∃ r, t.run o d = some r := fun t ht => by
    obtain ⟨r, h, -⟩ := Task.run_total Q (hs.2 t ht); exact ⟨r, h⟩
  refine ⟨fun t ht => by obtain ⟨r, h⟩ := htask t ht; rw [h]; rfl, ?_, ?_⟩
  · rintro ⟨-, -, hne, hdead⟩
    obtain ⟨t, r, hp⟩ := List.exists_cons_of_ne_nil hne
    have ht : t ∈ q.pending := by rw [hp]; simp
    obtain ⟨r, h⟩ := htask t ht
    rw [hdead t ht] at h
    cases h
  · intro hc
    cases hc with
    | order hpc hlt hsh =>
      obtain ⟨order, rng, h, -⟩ := C33_shuffle_perm (List.range q.shared.pops.length) q.orderRng
      rw [hsh] at h; cases h
    | @dispatch i hpc hlt hord hd =>
      have hperm := (hi.active (by rw [hpc]; decide)).2.1
      have him : i < o.populations := by simpa using hperm.mem_iff.mp (List.mem_of_getElem? hord)
      obtain ⟨r, hr⟩ := dispatch_total Q.warmup (s := q.shared) (i := i) (by rw [hi.pops]; exact him)
      rw [hd] at hr; cases hr
    | @apply t res hpc hg ht hrun ha =>
      have hsd := hs.2 t ht
      have hlt := hi.lt t ht
      have hidx := (run_popIdx hrun).1
      exact ⟨t, ht, res, hrun, apply_stuck Q hs.1.sound ((task_done Q.search hsd.sound hrun).sound Q.search.evol hsd.sound)
        (by rw [hidx, hi.bestSub, hi.pops]; exact ⟨hlt, hlt⟩) ha⟩

/-- C64: on a pool of at least two threads, under every schedule, no task ever panics, and an execution that cannot go on
has returned, or the sampler of a migration keeps rejecting. -/
theorem C64_pool (Q : RunSetting o d ops N) {seeds : Nat → Rng (Fl K)} {orderRng : Rng (Fl K)} {threads nw : Nat}
    {inPool : Bool} (ht : 2 ≤ threads) {p q : Pool K} {tr : List PoolEvent}
    (hnew : Pool.new o d seeds orderRng threads inPool = some (nw, p)) (hrun : PoolRun o d threads nw p tr q) :
    (∀ i, .die i ∉ tr) ∧
    (q.Stuck o d threads nw → q.Final o ∨ ∃ res ∈ q.channel, ApplyStuck o q.shared res) := by
  obtain ⟨s, e, hst, hf⟩ := init_steady Q seeds
  have hnw : 1 ≤ nw := by
    rw [Pool.new, e] at hnew
    simp only [Option.bind_eq_bind, Option.bind_some, Option.bind_eq_some_iff, Option.some.injEq, Prod.mk.injEq,
      nWorkers, Option.ite_none_right_eq_some] at hnew
    obtain ⟨w, ⟨-, h⟩, h2, -⟩ := hnew
    omega
  have hp : p = ⟨s, orderRng, .idle, 0, [], 0, 0, [], [], []⟩ := by
    rw [Pool.new, e] at hnew
    simp only [Option.bind_eq_bind, Option.bind_some, Option.bind_eq_some_iff, Option.some.injEq, Prod.mk.injEq] at hnew
    obtain ⟨_, -, -, h⟩ := hnew
    exact h.symm
  have hfresh : p.Fresh o o.populations := by rw [hp]; exact ⟨⟨hf, rfl, rfl, rfl, rfl⟩, rfl, rfl, rfl⟩
  have hpar : Par.new o d seeds orderRng = some (p.toPar []) := by rw [Par.new, e, hp]; rfl
  have nodie : ∀ {q tr}, PoolRun o d threads nw p tr q → ∀ i, .die i ∉ tr := by
    intro q tr h
    induction h with
    | refl => simp
    | @snoc q r tr ev h hs ih =>
      intro i hi
      rcases List.mem_append.mp hi with hi | hi
      · exact ih i hi
      · rw [List.mem_singleton] at hi
        subst hi
        cases hs with
        | @die l r t hr hn =>
          obtain ⟨pending, dead, sent, h1, h2, -⟩ := C63_refines hfresh h
          have : t ∈ pending := h2.all.mem_iff.mpr (by rw [hr]; simp)
          have := (C64_parallel Q hpar h1).1 t this
          rw [hn] at this
          cases this
  refine ⟨nodie hrun, fun hstuck => ?_⟩
  rcases C63_returns ht hnw hfresh hrun hstuck with h | h | ⟨-, i, h⟩
  · exact .inl h
  · right
    obtain ⟨pending, dead, sent, h1, h2, -⟩ := C63_refines hfresh hrun
    have hi := (hfresh.driver.inv nw).run h1
    have hs := Par.Steady.run Q (hfresh.driver.inv nw) (by rw [hp]; exact ⟨hst, by simp [Pool.toPar]⟩) h1
    cases h with
    | @dispatch i hpc hlt hord hd =>
      have hperm := (hi.active (by show q.pc ≠ _; rw [hpc]; decide)).2.1
      have him : i < o.populations := by
        have : i ∈ q.order := List.mem_of_getElem? hord
        simpa using hperm.mem_iff.mp this
      obtain ⟨r, hr⟩ := dispatch_total Q.warmup (s := q.shared) (i := i) (by
        have : q.shared.pops.length = _ := hi.pops
        rw [this]; exact him)
      rw [hd] at hr; cases hr
    | @apply res rest hpc hg hch ha =>
      refine ⟨res, by rw [hch]; simp, ?_⟩
      have hsent := h2.sent
      rw [hch] at hsent
      cases sent with
      | nil => simp at hsent
      | cons t ts =>
        simp only [List.map_cons, List.cons.injEq] at hsent
        have htm : t ∈ pending := h2.all.mem_iff.mpr (by simp)
        have hsd := hs.2 t htm
        have hlt := hi.lt t htm
        have hidx := (run_popIdx hsent.1).1
        have hb : q.shared.bestSub.length = _ := hi.bestSub
        have hl : q.shared.pops.length = _ := hi.pops
        exact apply_stuck Q hs.1.sound ((task_done Q.search hsd.sound hsent.1).sound Q.search.evol hsd.sound)
          (by rw [hidx, hb, hl]; exact ⟨hlt, hlt⟩) ha
  · exact absurd h (nodie hrun i)

/-- One step of the step-wise driver. -/
theorem stepOne_total (Q : RunSetting o d ops N) {e : Engine K} (hi : e.Inv o o.populations)
    (hs : e.shared.Steady o d ops N) :
    (∃ b e', e.stepOne o d = some (b, e') ∧ e'.shared.Steady o d ops N) ∨
    ∃ (s : Shared K) (t : Task K) (i : Nat) (res : TaskResult K), e.shared.dispatch o i = some (some t, s) ∧
      t.run o d = some res ∧ ApplyStuck o s res := by
  cases hf : e.shared.finished with
  | true => exact .inl ⟨false, _, stepOne_finished hf, hs⟩
  | false =>
    obtain ⟨e1, hp, hi1, hs1, hpf, hpos, hn⟩ := prepare_spec hi hf
    obtain ⟨hperm, hle, hcomp⟩ := hi1.running hpos
    have hlen : e1.taskOrder.length = o.populations := by simpa using hperm.length_eq
    have hord : e1.taskOrder[e1.nextTask]? = some e1.taskOrder[e1.nextTask] := List.getElem?_eq_getElem (by omega)
    generalize hii : e1.taskOrder[e1.nextTask] = i at hord
    have him : i < o.populations := by simpa using hperm.mem_iff.mp (List.mem_of_getElem? hord)
    obtain ⟨ps, hps⟩ := hi.present i him
    obtain ⟨⟨ot, s⟩, hd⟩ := dispatch_total Q.warmup (s := e.shared) (i := i) (by rw [hi.pops]; exact him)
    match ot, hd with
    | none, hd => have := (dispatch_skip hd).1; rw [hps] at this; simp at this
    | some t, hd =>
      obtain ⟨ht, hs'⟩ := dispatch_steady Q hs hd
      obtain ⟨res, hr, hctx⟩ := Task.run_total Q ht
      have hres := (task_done Q.search ht.sound hr).sound Q.search.evol ht.sound
      have hidx := (run_popIdx hr).1
      obtain ⟨-, d2, -, -, hseq⟩ := dispatch_task hd
      cases ha : s.apply o res with
      | none =>
        refine .inr ⟨s, t, i, res, hd, hr, apply_stuck Q hs'.sound hres ?_ ha⟩
        rw [hidx, d2, hseq]
        simp only [List.length_set, hi.bestSub, hi.pops]
        exact ⟨him, him⟩
      | some s' =>
        left
        have hlt : s.counters.completed + 1 ≤ o.niterations * o.populations := by
          rw [hseq]
          show e.shared.counters.completed + 1 ≤ _
          unfold Shared.finished at hf
          rw [hi.total] at hf
          simp only [beq_eq_false_iff_ne, ne_eq] at hf
          omega
        refine ⟨true, { e1 with shared := s', nextTask := e1.nextTask + 1,
                                progressFinished := e1.progressFinished || s'.finished }, ?_,
          apply_steady Q hs' hres hctx hlt ha⟩
        · unfold Engine.stepOne
          rw [hf, hp]
          simp only [Bool.false_eq_true, if_false, Option.bind_eq_bind, Option.bind_some]
          unfold Engine.runNext
          rw [hs1, hf, hord]
          simp only [Bool.false_eq_true, if_false, Option.bind_eq_bind, Option.bind_some, hd]
          unfold Engine.complete
          simp only [hr, ha, Option.bind_eq_bind, Option.bind_some]

/-- C64: the step-wise driver returns from any number of steps, unless at some point the sampler of a migration, on the
generator of the population whose result is applied, keeps rejecting. -/
theorem C64_stepwise (Q : RunSetting o d ops N) (seeds : Nat → Rng (Fl K)) (orderRng : Rng (Fl K)) :
    ∃ e, Engine.new o d seeds orderRng = some e ∧ ∀ n, (e.step o d n).isSome = true ∨
      ∃ (k j : Nat) (e' : Engine K) (s : Shared K) (t : Task K) (i : Nat) (res : TaskResult K), k < n ∧
        e.step o d k = some (j, e') ∧ e'.shared.dispatch o i = some (some t, s) ∧ t.run o d = some res ∧
        ApplyStuck o s res := by
  obtain ⟨s, hinit, hst, hf⟩ := init_steady Q seeds
  refine ⟨_, by rw [Engine.new, hinit]; rfl, ?_⟩
  have key : ∀ (n : Nat) (e : Engine K), e.Inv o o.populations → e.shared.Steady o d ops N →
      (e.step o d n).isSome = true ∨
      ∃ (k j : Nat) (e' : Engine K) (s : Shared K) (t : Task K) (i : Nat) (res : TaskResult K), k < n ∧
        e.step o d k = some (j, e') ∧ e'.shared.dispatch o i = some (some t, s) ∧ t.run o d = some res ∧
        ApplyStuck o s res := by
    intro n
    induction n with
    | zero => intro e _ _; exact .inl rfl
    | succ n ih =>
      intro e hi hs
      rcases stepOne_total Q hi hs with ⟨b, e1, h1, hs1⟩ | ⟨s, t, i, res, h1, h2, h3⟩
      · cases b with
        | false => left; rw [step_succ, h1]; rfl
        | true =>
          have hi1 : e1.Inv o o.populations := by
            cases hfin : e.shared.finished with
            | true => rw [stepOne_finished hfin] at h1; cases h1
            | false => exact (stepOne_spec hi hfin h1).2.1
          rcases ih e1 hi1 hs1 with h | ⟨k, j, e', s, t, i, res, hk, h2, h3⟩
          · left
            obtain ⟨x, hx⟩ := Option.isSome_iff_exists.mp h
            rw [step_succ, h1]
            simp only [Option.bind_some, if_true, hx]
            rfl
          · right
            refine ⟨k + 1, j + 1, e', s, t, i, res, by omega, ?_, h3⟩
            rw [step_succ, h1]
            simp only [Option.bind_some, if_true, h2]
            rfl
      · exact .inr ⟨0, 0, e, s, t, i, res, by omega, rfl, h1, h2, h3⟩
  intro n
  exact key n _ (Engine.Fresh.inv ⟨hf, rfl, rfl, rfl⟩) hst

/-- C64: without migration, nothing can go wrong: every step of the step-wise driver returns ... -/
theorem C64_stepwise_without_migration (Q : RunSetting o d ops N) (hm : o.migration = false) (hh : o.hofMigration = false)
    (seeds : Nat → Rng (Fl K)) (orderRng : Rng (Fl K)) :
    ∃ e, Engine.new o d seeds orderRng = some e ∧ ∀ n, (e.step o d n).isSome = true := by
  obtain ⟨e, h1, h2⟩ := C64_stepwise Q seeds orderRng
  refine ⟨e, h1, fun n => ?_⟩
  rcases h2 n with h | ⟨_, _, _, _, _, _, _, -, -, -, -, h | h⟩
  · exact h
  · rw [hm] at h; cases h.1
  · rw [hh] at h; cases h.1

/-- ... and on a pool of at least two threads every execution that cannot go on has returned. -/
theorem C64_pool_without_migration (Q : RunSetting o d ops N) (hm : o.migration = false) (hh : o.hofMigration = false)
    {seeds : Nat → Rng (Fl K)} {orderRng : Rng (Fl K)} {threads nw : Nat} {inPool : Bool} (ht : 2 ≤ threads)
    {p q : Pool K} {tr : List PoolEvent} (hnew : Pool.new o d seeds orderRng threads inPool = some (nw, p))
    (hrun : PoolRun o d threads nw p tr q) (hs : q.Stuck o d threads nw) : q.Final o := by
  rcases (C64_pool Q ht hnew hrun).2 hs with h | ⟨_, -, h | h⟩
  · exact h
  · rw [hm] at h; cases h.1
  · rw [hh] at h; cases h.1

end
end SR

namespace SR.Demo
local instance instRun : Env ℚ := env

/-- Two populations, two iterations, constant optimisation, both migrations (or none), tournaments of two that are decided by
chance and weighted by frequency. -/
def runOpts (mig : Bool) : SOptions ℚ :=
  { smallOpts 1 with populations := 2, niterations := 2, shouldOptimizeConstants := true, migration := mig,
                     hofMigration := mig, tour := ⟨2, .fin (9 / 10), true, .fin 20, 3⟩ }

/-- All hypotheses of the theorems of this file hold for a search with everything switched on. -/
theorem runSetting (mig : Bool) : RunSetting (runOpts mig) data opIds 3 where
  search :=
    { evol := { smallEvol 1 (by decide) (by decide) with }
      formats := formats
      ls := ⟨rfl, by have := lsOk.c1; exact this⟩
      costs := costsOk rfl
      batching := rfl
      populations := by cases mig <;> decide
      populationSize := by cases mig <;> decide
      init := by cases mig <;> decide
      warmup := fun _ _ => noWarmup rfl _ _ _ }
  two := by cases mig <;> decide
  tour :=
    { entrants := by cases mig <;> decide
      draw := by cases mig <;> decide
      place := .inr (.inr ⟨by cases mig <;> decide +kernel, .inr ⟨.fin (99 / 100), by cases mig <;> decide +kernel, rfl, by cases mig <;> decide +kernel⟩⟩)
      maxsize := by cases mig <;> decide
      scale := fun _ => .inl fun f _ _ => ⟨1, rfl, one_pos⟩ }
  weights :=
    { numbers := by
        intro w hw
        refine ⟨1, ?_, rfl⟩
        simpa [runOpts, smallOpts, opts, MutWeights.choices] using hw
      drawable := ⟨.fin 12, by cases mig <;> decide +kernel, rfl, by cases mig <;> decide +kernel⟩
      always := .inl (by cases mig <;> decide +kernel)
      eight := rfl }
  warmup := fun h => by
    have : Fl.lt (.fin 0) ((runOpts mig).warmupMaxsizeBy) = false := by cases mig <;> decide
    rw [this] at h; cases h
  counts := ⟨fun _ _ => rfl, fun _ _ _ _ => rfl⟩

end SR.Demo

namespace SR
open Demo
local instance instRun' : Env ℚ := env

/-- C64 (the hypotheses are met): a search without migration always returns ... -/
example (seeds : Nat → Rng (Fl ℚ)) (orderRng : Rng (Fl ℚ)) :
    ∃ e, Engine.new (runOpts false) data seeds orderRng = some e ∧ ∀ n, (e.step (runOpts false) data n).isSome = true :=
  C64_stepwise_without_migration (runSetting false) rfl rfl seeds orderRng

/-- ... and one with migration returns on this generator: no sampler keeps rejecting. -/
example : ∃ e e', Engine.new (runOpts true) data gen (gen 77) = some e ∧
    e.step (runOpts true) data 10 = some (4, e') ∧ e'.shared.finished = true := by
  have h : ((Engine.new (runOpts true) data gen (gen 77)).bind fun e =>
      (e.step (runOpts true) data 10).map fun r => (r.1, r.2.shared.finished)) = some (4, true) := by decide +kernel
  rw [Option.bind_eq_some_iff] at h
  obtain ⟨e, h1, h⟩ := h
  rw [Option.map_eq_some_iff] at h
  obtain ⟨⟨k, e'⟩, h2, h⟩ := h
  simp only [Prod.mk.injEq] at h
  obtain ⟨rfl, h3⟩ := h
  exact ⟨e, e', h1, h2, h3⟩

end SR
