import Verif.Props.Chance
/-
C90: a search finds every expression the constraints allow with a probability that tends to one.
-/
namespace SR
open MeasureTheory Chance Rand
open scoped ENNReal
section
variable [E : Env ℚ]
variable {S : Fl ℚ → Prop} {o : SOptions ℚ} {d : Dataset ℚ} {ops : List OpId} {N cur : Nat} {t : Tree} {cs : List (Fl ℚ)}
  {l : Fl ℚ} {c : Nat} {ν : Bool → Measure ℕ}

/-! ## One step as a computation of one population -/

/-- What a step does after it has dispatched the task `tk`: `e1` is the engine, `s1` the shared state without the population. -/
def stepBody (o : SOptions ℚ) (d : Dataset ℚ) (e1 : Engine ℚ) (s1 : Shared ℚ) (tk : Task ℚ) : Rand (Fl ℚ) (Engine ℚ) := do
  let r ← taskBody o d tk
  let hall ← Rand.lift (s1.hall.update o.cx tk.cur r.2.2.2.1.members)
  let hb ← Rand.lift (absorbMembers o tk.cur r.1.pop (hall, s1.best))
  let x ← migrations o (migrationCandidates (s1.bestSub.set tk.popIdx r.2.2.2.2) tk.popIdx) hb.1.paretoFront r.1.pop r.1.counters
  let s' : Shared ℚ := {
    counters := { s1.counters with completed := s1.counters.completed + 1 }
    stats := (s1.stats.updateFromPopulation E.R (r.1.pop.map (·.complexity))).moveWindow E.R
    hall := hb.1, best := hb.2
    bestSub := s1.bestSub.set tk.popIdx r.2.2.2.2
    pops := s1.pops.set tk.popIdx (some ⟨x.1, r.1.ev, r.2.1, tk.ps.rng, r.2.2.1, x.2⟩)
    totalEvals := satAdd64 s1.totalEvals r.1.evals }
  pure { e1 with shared := s', nextTask := e1.nextTask + 1, progressFinished := e1.progressFinished || s'.finished }

instance stepBody_consumes (e1 : Engine ℚ) (s1 : Shared ℚ) (tk : Task ℚ) : (stepBody o d e1 s1 tk).Consumes := by
  unfold stepBody
  consumes

theorem apply_on {s1 : Shared ℚ} {tk : Task ℚ} (hi : tk.popIdx < s1.bestSub.length ∧ tk.popIdx < s1.pops.length) (e1 : Engine ℚ)
    (f : Nat → Rng (Fl ℚ)) : Engine.complete o d { e1.feed f with nextTask := e1.nextTask + 1, shared := s1.feed f } (tk.on (f tk.popIdx)) =
      (stepBody o d e1 s1 tk (f tk.popIdx)).map fun x => x.1.feed (Function.update f tk.popIdx x.2) := by
  have hb : taskBody o d (tk.on (f tk.popIdx)) = taskBody o d tk := rfl
  have hps : ∀ (ps : PopState ℚ) (g : Rng (Fl ℚ)), (s1.feed f).pops.set tk.popIdx (some { ps with rng := g }) =
      (s1.pops.set tk.popIdx (some ps)).mapIdx fun i p => p.map fun ps => { ps with rng := Function.update f tk.popIdx g i } := by
    intro ps g
    apply List.ext_getElem?
    intro j
    rw [List.getElem?_mapIdx, List.getElem?_set, List.getElem?_set]
    by_cases hj : tk.popIdx = j
    · subst hj
      simp [Shared.feed, hi.2]
    · rw [if_neg hj, if_neg hj, Shared.feed, List.getElem?_mapIdx, Function.update_of_ne (Ne.symm hj)]
  unfold Engine.complete Task.run stepBody
  rw [hb]
  show ((taskBody o d tk (f tk.popIdx)).map _ >>= _) = _
  simp only [Rand.run_bind]
  cases hr : taskBody o d tk (f tk.popIdx) with
  | none => rfl
  | some x =>
    obtain ⟨r, g1⟩ := x
    simp only [Option.map_some, Option.bind_eq_bind, Option.bind_some]
    unfold Shared.apply
    rw [if_pos (by simpa [Shared.feed, Task.on] using hi)]
    cases hu : s1.hall.update o.cx tk.cur r.2.2.2.1.members with
    | none => simp [Shared.feed, Task.on, hu, Rand.lift]
    | some hall =>
      cases ha : absorbMembers o tk.cur r.1.pop (hall, s1.best) with
      | none => simp [Shared.feed, Task.on, hu, ha, Rand.lift]
      | some hb =>
        cases hm : migrations o (migrationCandidates (s1.bestSub.set tk.popIdx r.2.2.2.2) tk.popIdx) hb.1.paretoFront r.1.pop r.1.counters g1 with
        | none => simp [Shared.feed, Task.on, hu, ha, Rand.lift, hm]
        | some x =>
          have := hps ⟨x.1.1, r.1.ev, r.2.1, tk.ps.rng, r.2.2.1, x.1.2⟩ x.2
          simp only at this
          simp [Shared.feed, Task.on, hu, ha, Rand.lift, hm]
          unfold Engine.feed Shared.feed
          rw [Engine.mk.injEq]
          refine ⟨?_, rfl, rfl, rfl, rfl, rfl⟩
          rw [Shared.mk.injEq]
          exact ⟨rfl, rfl, rfl, this, rfl, rfl, rfl⟩

/-- A step of an unfinished engine, for all generators at once: it is a computation of one population. -/
theorem stepOne_body (Q : RunSetting o d ops N) {e : Engine ℚ} (hi : e.Inv o o.populations)
    (hs : e.shared.Steady o d ops N) (hf : e.shared.finished = false) :
    ∃ (e1 : Engine ℚ) (s1 : Shared ℚ) (tk : Task ℚ), tk.Steady o d ops N ∧ s1.Steady o d ops N ∧ s1.hall = e.shared.hall ∧
      getCurMaxsize o (o.niterations * o.populations) (o.niterations * o.populations - e.shared.counters.completed) = some tk.cur ∧
      ∀ f : Nat → Rng (Fl ℚ), (e.feed f).stepOne o d =
        (stepBody o d e1 s1 tk (f tk.popIdx)).map fun x => (true, x.1.feed (Function.update f tk.popIdx x.2)) := by
  obtain ⟨e1, hp, hi1, hs1, hpf, hpos, hn⟩ := prepare_spec hi hf
  obtain ⟨hperm, hle, hcomp⟩ := hi1.running hpos
  have hlen : e1.taskOrder.length = o.populations := by simpa using hperm.length_eq
  have hord : e1.taskOrder[e1.nextTask]? = some e1.taskOrder[e1.nextTask] := List.getElem?_eq_getElem (by omega)
  generalize hii : e1.taskOrder[e1.nextTask] = i at hord
  have him : i < o.populations := by simpa using hperm.mem_iff.mp (List.mem_of_getElem? hord)
  obtain ⟨ps, hps⟩ := hi.present i him
  obtain ⟨⟨ot, s1⟩, hd⟩ := dispatch_total Q.warmup (s := e.shared) (i := i) (by rw [hi.pops]; exact him)
  obtain ⟨tk, rfl⟩ : ∃ tk, ot = some tk := by
    cases ot with
    | none => have := (dispatch_skip hd).1; rw [hps] at this; simp at this
    | some tk => exact ⟨tk, rfl⟩
  obtain ⟨htk, hs1'⟩ := dispatch_steady Q hs hd
  obtain ⟨-, d2, -, d4, hseq⟩ := dispatch_task hd
  have hpre : ∀ f : Nat → Rng (Fl ℚ), (e.feed f).prepare o = some (e1.feed f) := by
    intro f
    unfold Engine.prepare at hp ⊢
    by_cases h1 : o.niterations ≤ e.curIter
    · rw [if_pos h1] at hp
      rw [if_pos (by exact h1)]
      rw [Option.some.injEq] at hp; rw [hp]
    rw [if_neg h1] at hp
    rw [if_neg (by exact h1)]
    by_cases h2 : e.taskOrder ≠ [] ∧ e.nextTask < e.taskOrder.length
    · rw [if_pos h2] at hp
      rw [if_pos (by exact h2)]
      rw [Option.some.injEq] at hp; rw [hp]
    rw [if_neg h2] at hp
    rw [if_neg (by exact h2)]
    have hll : (e.feed f).shared.pops.length = e.shared.pops.length := by simp [Engine.feed, Shared.feed]
    rw [hll]
    rw [Option.map_eq_some_iff] at hp ⊢
    obtain ⟨x, hx, rfl⟩ := hp
    exact ⟨x, hx, rfl⟩
  refine ⟨e1, s1, tk, htk, hs1', by rw [hseq], ?_, fun f => ?_⟩
  · rw [← hi.total, ← hi.started]; exact d4
  have hd' := dispatch_feed hd f
  rw [← d2] at hd'
  unfold Engine.stepOne
  rw [show (e.feed f).shared.finished = false from hf, hpre f]
  simp only [Bool.false_eq_true, if_false, Option.bind_eq_bind, Option.bind_some]
  unfold Engine.runNext
  have hfin1 : (e1.feed f).shared.finished = false := by
    show e1.shared.finished = false
    rw [hs1]; exact hf
  rw [hfin1]
  have hord' : (e1.feed f).taskOrder[(e1.feed f).nextTask]? = some tk.popIdx := by rw [d2]; exact hord
  simp only [Bool.false_eq_true, if_false, Option.bind_eq_bind, hord', Option.bind_some]
  have hsh : (e1.feed f).shared = e.shared.feed f := by show e1.shared.feed f = _; rw [hs1]
  rw [hsh, hd']
  simp only [Option.bind_some]
  have hidx : tk.popIdx < s1.bestSub.length ∧ tk.popIdx < s1.pops.length := by
    rw [d2, hseq]; simp only [List.length_set, hi.bestSub, hi.pops]; exact ⟨him, him⟩
  have := apply_on (o := o) (d := d) hidx e1 f
  refine (congrArg (fun z => z.bind fun e => some (true, e)) this).trans ?_
  cases stepBody o d e1 s1 tk (f tk.popIdx) <;> rfl

omit E in
theorem draws_unit (ω : Draws) (i : Nat) : UnitStream (ω.rng i) := by
  intro k
  obtain ⟨n, hn, e⟩ := rng_grid ω i k
  have h0 : (0 : ℚ) ≤ n / 2 ^ 52 := by positivity
  have h1 : (n : ℚ) / 2 ^ 52 < 1 := by
    rw [div_lt_one (by positivity)]
    exact_mod_cast hn
  refine ⟨_, e, ?_, h0, h1⟩
  refine rnd_representable (f := fmt64) (by decide) (n : Int) (-52) ?_ ?_ (by decide) ?_
  · have : pow2 (-52) = 1 / (2 : ℚ) ^ 52 := rfl
    rw [this]; push_cast; ring
  · rw [abs_of_nonneg (by positivity)]
    show (n : Int) ≤ 2 ^ 53
    exact_mod_cast (by omega : n ≤ 2 ^ 53)
  · rw [abs_of_nonneg h0]
    refine h1.trans_le ?_
    have : pow2 0 ≤ pow2 fmt64.emax := pow2_le (by decide)
    simpa [pow2] using this

/-- One step, for the generators that the draws make: it returns, it keeps what is known of the engine and what is in the hall of
fame, and it finds a target with the probability of one pass at least. -/
theorem stepOne_chance (hν : ∀ b, FullLaw (ν b)) (P : SensibleSearch o d ops) {e : Engine ℚ} (hi : e.Inv o o.populations)
    (hs : e.shared.Steady o d ops o.maxsize) (hf : e.shared.finished = false) :
    ∃ (i : Nat) (m : Rand (Fl ℚ) (Engine ℚ)) (cur : Nat), m.Consumes ∧ cur ≤ o.maxsize ∧
      getCurMaxsize o (o.niterations * o.populations) (o.niterations * o.populations - e.shared.counters.completed) = some cur ∧
      (∀ f : Nat → Rng (Fl ℚ), (e.feed f).stepOne o d = (m (f i)).map fun x => (true, x.1.feed (Function.update f i x.2))) ∧
      (∀ ω : Draws, ∃ e' g, m (ω.rng i) = some (e', g) ∧ e'.Inv o o.populations ∧ e'.shared.Steady o d ops o.maxsize ∧
        e'.shared.counters.completed = e.shared.counters.completed + 1 ∧ Hall.Improves e.shared.hall e'.shared.hall ∧
        e'.shared.totalEvals < 2 ^ 64) ∧
      ∀ {S : Fl ℚ → Prop} {t : Tree} {cs : List (Fl ℚ)} {l : Fl ℚ} {c : Nat} {p : ℝ≥0∞}, DrawsOk S o → Target S o d ops cur t cs l c →
        Luck ν o d cur t cs p → p ≤ Draws.law ν (Ev i m fun e' =>
          e'.shared.hall.AtMost c (lossToCost E.RT l c o.parsimony o.useBaseline d.baseline)) := by
  have Q := P.setting
  obtain ⟨e1, s1, tk, htk, hs1, hh, hcur, heq⟩ := stepOne_body Q hi hs hf
  have htot : ∀ ω : Draws, ∃ e' g, stepBody o d e1 s1 tk (ω.rng tk.popIdx) = some (e', g) ∧ e'.Inv o o.populations ∧
      e'.shared.Steady o d ops o.maxsize ∧ e'.shared.counters.completed = e.shared.counters.completed + 1 := by
    intro ω
    have hi0 : (e.feed ω.rng).Inv o o.populations := Engine.feed_inv.mpr hi
    have hst : (e.feed ω.rng).shared.Steady o d ops o.maxsize := Shared.feed_steady.mpr hs
    rcases stepOne_total Q hi0 hst with ⟨b, e', h1, h2⟩ | ⟨s, t', i, res, h1, h2, h3⟩
    · obtain ⟨rfl, k1, k2, -⟩ := stepOne_spec hi0 hf h1
      rw [heq, Option.map_eq_some_iff] at h1
      obtain ⟨⟨x, g⟩, h3, h4⟩ := h1
      simp only [Prod.mk.injEq, true_and] at h4
      subst h4
      exact ⟨x, g, h3, Engine.feed_inv.mp k1, Shared.feed_steady.mp h2, k2⟩
    · exfalso
      obtain ⟨h4, h5, -⟩ := dispatch_task h1
      obtain ⟨j, ps, -, h6⟩ := Shared.feed_mem.mp (List.mem_of_getElem? h4)
      refine apply_not_stuck P.env P.migrants (fun k => ?_) h3
      refine (run_stream h2).floats (fun k => ?_) k
      rw [h6]
      exact draws_unit ω j k
  have hin : ∀ (ω : Draws) (x : Engine ℚ) (g : Rng (Fl ℚ)), stepBody o d e1 s1 tk (ω.rng tk.popIdx) = some (x, g) →
      ∃ r g1 hall, taskBody o d tk (ω.rng tk.popIdx) = some (r, g1) ∧ s1.hall.update o.cx tk.cur r.2.2.2.1.members = some hall ∧
        Hall.Improves hall x.shared.hall ∧ x.shared.totalEvals < 2 ^ 64 := by
    intro ω x g hx
    unfold stepBody at hx
    rw [Rand.run_bind] at hx
    rcases h1 : taskBody o d tk (ω.rng tk.popIdx) with _ | ⟨r, g1⟩
    · rw [h1] at hx; cases hx
    rw [h1] at hx
    simp only at hx
    rw [Rand.run_bind] at hx
    rcases h2 : s1.hall.update o.cx tk.cur r.2.2.2.1.members with _ | hall
    · rw [h2] at hx; cases hx
    rw [h2] at hx
    simp only [Rand.lift, Option.map_some] at hx
    rw [Rand.run_bind] at hx
    rcases h3 : absorbMembers o tk.cur r.1.pop (hall, s1.best) with _ | ⟨hall', best⟩
    · rw [h3] at hx; cases hx
    rw [h3] at hx
    simp only [Rand.lift, Option.map_some] at hx
    rw [Rand.run_bind] at hx
    split at hx
    · cases hx
    · refine ⟨r, g1, hall, rfl, h2, ?_⟩
      rw [Rand.run_pure] at hx
      simp only [Option.some.injEq, Prod.mk.injEq] at hx
      obtain ⟨rfl, -⟩ := hx
      exact ⟨(absorb_progress h3).1, by show satAdd64 _ _ < _; unfold satAdd64; omega⟩
  refine ⟨tk.popIdx, stepBody o d e1 s1 tk, tk.cur, inferInstance, htk.sound.cur, hcur, heq, fun ω => ?_, ?_⟩
  · obtain ⟨e', g, h1, h2, h3, h4⟩ := htot ω
    obtain ⟨r, g1, hall, -, k2, k3, k4⟩ := hin ω e' g h1
    exact ⟨e', g, h1, h2, h3, h4, hh ▸ (update_improves k2).trans k3, k4⟩
  · intro S t cs l c p D T L
    refine (taskBody_chance hν Q D htk T L tk.popIdx).trans (measure_mono ?_)
    rintro ω ⟨r, g, hr, m, hm, hle⟩
    obtain ⟨e', g', h1, -⟩ := htot ω
    obtain ⟨r', g1, hall, k1, k2, k3, -⟩ := hin ω e' g' h1
    rw [hr, Option.some.injEq, Prod.mk.injEq] at k1
    obtain ⟨rfl, rfl⟩ := k1
    refine ⟨e', g', h1, ?_⟩
    have ht' : (tk.on (ω.rng tk.popIdx)).Steady o d ops o.maxsize :=
      ⟨⟨⟨htk.sound.ps.size, htk.sound.ps.pop, htk.sound.ps.ev⟩, htk.sound.cur⟩, htk.stats, htk.ctx⟩
    obtain ⟨res, hres, -⟩ := Task.run_total Q ht'
    have hsnd := (task_done Q.search ht'.sound hres).sound Q.search.evol ht'.sound
    have hseen : r.2.2.2.1.Sound o d ops o.maxsize := by
      have : res.bestSeen = r.2.2.2.1 := by
        unfold Task.run at hres
        rw [show taskBody o d (tk.on (ω.rng tk.popIdx)) (tk.on (ω.rng tk.popIdx)).ps.rng = some (r, g) from hr] at hres
        simp only [Option.map_some, Option.some.injEq] at hres
        rw [← hres]
      rw [← this]; exact hsnd.seen
    have hbs : ∀ m ∈ r.2.2.2.1.members, m.Sound o d ops o.maxsize := by
      intro m hm
      obtain ⟨c, hc⟩ := mem_members.mp hm
      exact (hseen.entry c m hc).1
    have hc := T.le (Q.search.evol.down htk.sound.cur)
    obtain ⟨a1, rfl, a3, a4⟩ := hseen.entry c m hm
    have := update_atMost Q.search htk.sound.cur r.2.2.2.1.members hs1.sound.hall hbs k2 m (mem_members.mpr ⟨_, hm⟩)
      (feasible_at Q.search.evol a1 a4 hc) a3 (hc.trans htk.sound.cur)
    obtain ⟨b, hb, hb2⟩ := this.improves k3
    exact ⟨b, hb, Fl.le_trans hb2 hle⟩

/-! ## Many steps -/

omit E in
theorem feed_drop (h : Draws) (i a b : Nat) : Function.update h.rng i ((h.rng i).drop a b) = Draws.rng (dropBy (cnt i a b) h) := by
  funext j
  by_cases hj : j = i
  · subst hj; rw [Function.update_self, rng_dropBy]
  · rw [Function.update_of_ne hj, rng_dropBy_other _ hj]

/-- The draws with which `n` steps of the engine return without the target. -/
def stepsMiss (o : SOptions ℚ) (d : Dataset ℚ) (c : Nat) (v : Fl ℚ) (e : Engine ℚ) (n : Nat) : Set Draws :=
  {ω | ∃ k e', (e.feed ω.rng).step o d n = some (k, e') ∧ ¬ e'.shared.hall.AtMost c v}

theorem steps_chance (hν : ∀ b, FullLaw (ν b)) (P : SensibleSearch o d ops) (D : DrawsOk S o) (T : Target S o d ops cur t cs l c)
    {p : ℝ≥0∞} (L : ∀ cur', cur ≤ cur' → cur' ≤ o.maxsize → Luck ν o d cur' t cs p) {a : Nat}
    (ha : ∀ k cur', a ≤ k → k < o.niterations * o.populations → getCurMaxsize o (o.niterations * o.populations)
      (o.niterations * o.populations - k) = some cur' → cur ≤ cur') : ∀ (n : Nat) (e : Engine ℚ), e.Inv o o.populations →
    e.shared.Steady o d ops o.maxsize → e.shared.counters.completed + n ≤ o.niterations * o.populations →
    Draws.law ν (stepsMiss o d c (lossToCost E.RT l c o.parsimony o.useBaseline d.baseline) e n) ≤
      (1 - p) ^ (e.shared.counters.completed + n - max a e.shared.counters.completed) := by
  have := law_prob hν
  have : IsProbabilityMeasure (Draws.law ν) := by rw [law_eq]; unfold Chance.law; infer_instance
  intro n
  induction n with
  | zero =>
    intro e _ _ _
    rw [show e.shared.counters.completed + 0 - max a e.shared.counters.completed = 0 by omega, pow_zero]
    exact prob_le_one
  | succ n ih =>
    intro e hi hs hn
    have hf : e.shared.finished = false := by
      unfold Shared.finished
      rw [hi.total]
      simp only [beq_eq_false_iff_ne, ne_eq]
      omega
    obtain ⟨i, m, cur', hm, hle, hcur, heq, hret, hchance⟩ := stepOne_chance hν P hi hs hf
    generalize hv : lossToCost E.RT l c o.parsimony o.useBaseline d.baseline = v at *
    have hstep : ∀ (h : Draws) (e' : Engine ℚ) (x y : Nat), m (h.rng i) = some (e', (h.rng i).drop x y) →
        (e.feed h.rng).step o d (n + 1) = ((e'.feed (Draws.rng (dropBy (cnt i x y) h))).step o d n).map fun r => (r.1 + 1, r.2) := by
      intro h e' x y hx
      rw [step_succ, heq, hx]
      simp only [Option.map_some, Option.bind_some, if_true, feed_drop]
    have key := markov_le (fun j : ℕ × Bool => ν j.2) 
      (Ev.saturated (i := i) m fun e' => ¬ e'.shared.hall.AtMost c v) (G := stepsMiss o d c v e (n + 1))
      (q := (1 - p) ^ (e.shared.counters.completed + 1 + n - max a (e.shared.counters.completed + 1))) (by
        rintro ω ⟨k, e'', h1, h2⟩
        obtain ⟨e', g, k1, -, -, -, -, k6⟩ := hret ω
        refine ⟨e', g, k1, fun hat => h2 ?_⟩
        obtain ⟨x, y, ht⟩ := takes_of k1
        rw [hstep ω e' x y (ht ω (Same.refl _ _)), Option.map_eq_some_iff] at h1
        obtain ⟨⟨k', e3⟩, h3, h4⟩ := h1
        simp only [Prod.mk.injEq] at h4
        obtain ⟨-, rfl⟩ := h4
        exact Hall.AtMost.improves (h := (e'.feed _).shared.hall) hat (C46_stepwise (e := e'.feed _) n k6 h3).hall) (by
        rintro ω ⟨e', g, k1, k2⟩
        obtain ⟨e0, g0, k1', k3, k4, k5, -⟩ := hret ω
        rw [k1, Option.some.injEq, Prod.mk.injEq] at k1'
        obtain ⟨rfl, rfl⟩ := k1'
        refine ⟨stepsMiss o d c v e' n, ?_, ?_⟩
        · have := ih e' k3 k4 (by rw [k5]; omega)
          rw [k5] at this
          exact this
        · obtain ⟨x, y, ht⟩ := takes_of k1
          rw [ht.taken_eq]
          rintro h ⟨k, e'', h1, h2⟩ hsame
          rw [hstep h e' x y (ht h hsame), Option.map_eq_some_iff] at h1
          obtain ⟨⟨k', e3⟩, h3, h4⟩ := h1
          simp only [Prod.mk.injEq] at h4
          obtain ⟨-, rfl⟩ := h4
          exact ⟨k', e3, h3, h2⟩)
    refine (show Draws.law ν _ ≤ _ from key).trans ?_
    by_cases hac : a ≤ e.shared.counters.completed
    · have hgood := ha _ _ hac (by omega) hcur
      have hp := hchance D (T.mono hgood) (L cur' hgood hle)
      rw [hv] at hp
      have hA : Draws.law ν (Ev i m fun e' => ¬ e'.shared.hall.AtMost c v) ≤ 1 - p := by
        have hsub : (Ev i m fun e' => ¬ e'.shared.hall.AtMost c v) ⊆ (Ev i m fun e' => e'.shared.hall.AtMost c v)ᶜ := by
          rintro ω ⟨e', g, k1, k2⟩ ⟨e0, g0, k1', k3⟩
          rw [k1, Option.some.injEq, Prod.mk.injEq] at k1'
          obtain ⟨rfl, rfl⟩ := k1'
          exact k2 k3
        refine (measure_mono hsub).trans ?_
        rw [prob_compl_eq_one_sub (Ev.measurable _ _)]
        exact tsub_le_tsub_left hp 1
      calc _ ≤ (1 - p) ^ (e.shared.counters.completed + 1 + n - max a (e.shared.counters.completed + 1)) * (1 - p) :=
            mul_le_mul_right hA _
        _ = _ := by
            rw [← pow_succ]
            congr 1
            omega
    · calc _ ≤ (1 - p) ^ (e.shared.counters.completed + 1 + n - max a (e.shared.counters.completed + 1)) * 1 :=
            mul_le_mul_right prob_le_one _
        _ = _ := by
            rw [mul_one]
            congr 1
            omega

/-! ## The beginning -/

theorem initPops_chance (hν : ∀ b, FullLaw (ν b)) (z : Rng (Fl ℚ)) {q : ℝ≥0∞} : ∀ (k i : Nat) (hall : Hall ℚ)
    (Bad : List (PopState ℚ) → Hall ℚ → (Nat → Rng (Fl ℚ)) → Prop),
    (∀ pss hall', Draws.law ν {ω | Bad pss hall' (Draws.rng ω)} ≤ q) →
    Draws.law ν {ω | ∃ pss hall' f, (∀ ps ∈ pss, ps.rng = z) ∧
      initPops o d (Draws.rng ω) k i hall = some (pss.mapIdx fun j ps => { ps with rng := f (i + j) }, hall') ∧
      (∀ j, j < i ∨ i + k ≤ j → f j = Draws.rng ω j) ∧ Bad pss hall' f} ≤ q
  | 0, i, hall, Bad, hB => by
    refine le_trans (measure_mono ?_) (hB [] hall)
    rintro ω ⟨pss, hall', f, -, h1, h2, h3⟩
    simp only [initPops, Option.some.injEq, Prod.mk.injEq] at h1
    obtain ⟨h4, rfl⟩ := h1
    have hf : f = Draws.rng ω := funext fun j => h2 j (by omega)
    have hp : pss = [] := by
      have := congrArg List.length h4
      simpa using this.symm
    rw [hp, hf] at h3
    exact h3
  | k + 1, i, hall, Bad, hB => by
    have := law_prob hν
    have : IsProbabilityMeasure (Draws.law ν) := by rw [law_eq]; unfold Chance.law; infer_instance
    let m : Rand (Fl ℚ) (InitState ℚ) := initMembers o d o.populationSize ⟨[], Evaluator.new d.x.cols, ⟨i * 2 ^ 32 % 2 ^ 64, 0⟩, hall⟩
    have : m.Consumes := inferInstanceAs (initMembers o d o.populationSize _).Consumes
    have hinv : ∀ (seeds : Nat → Rng (Fl ℚ)) (x : List (PopState ℚ) × Hall ℚ), initPops o d seeds (k + 1) i hall = some x →
        ∃ st g rest h2, m (seeds i) = some (st, g) ∧ initPops o d seeds k (i + 1) st.hall = some (rest, h2) ∧
          x = (⟨st.members, st.ev, DContext.new d.x.cols, g, none, st.counters⟩ :: rest, h2) := by
      intro seeds x hx
      simp only [initPops, Option.bind_eq_bind, Option.bind_eq_some_iff, Option.some.injEq] at hx
      obtain ⟨⟨ps, h1⟩, e1, ⟨rest, h2⟩, e2, rfl⟩ := hx
      unfold initPop at e1
      rw [Option.map_eq_some_iff] at e1
      obtain ⟨⟨st, g⟩, e1, e3⟩ := e1
      simp only [Prod.mk.injEq] at e3
      obtain ⟨rfl, rfl⟩ := e3
      exact ⟨st, g, rest, h2, e1, e2, rfl⟩
    have key := markov_le (fun j : ℕ × Bool => ν j.2) (Ev.saturated (i := i) m fun _ => True)
      (G := {ω | ∃ pss hall' f, (∀ ps ∈ pss, ps.rng = z) ∧
        initPops o d (Draws.rng ω) (k + 1) i hall = some (pss.mapIdx fun j ps => { ps with rng := f (i + j) }, hall') ∧
        (∀ j, j < i ∨ i + (k + 1) ≤ j → f j = Draws.rng ω j) ∧ Bad pss hall' f}) (q := q) (by
        rintro ω ⟨pss, hall', f, -, h1, -⟩
        obtain ⟨st, g, rest, h2, e1, -⟩ := hinv _ _ h1
        exact ⟨st, g, e1, trivial⟩) (by
        rintro ω ⟨st, g, e1, -⟩
        obtain ⟨x, y, ht⟩ := takes_of e1
        refine ⟨_, initPops_chance hν z k (i + 1) st.hall (fun pss hall' f => Bad (⟨st.members, st.ev, DContext.new d.x.cols, z, none,
          st.counters⟩ :: pss) hall' f) (fun pss hall' => hB _ _), ?_⟩
        rw [ht.taken_eq]
        rintro h ⟨pss, hall', f, hz, h1, h2, h3⟩ hsame
        obtain ⟨st', g', rest, h2', e3, e4, e5⟩ := hinv _ _ h1
        have e3' := ht h hsame
        rw [e3, Option.some.injEq, Prod.mk.injEq] at e3'
        obtain ⟨rfl, rfl⟩ := e3'
        cases pss with
        | nil => simp at e5
        | cons ps pss =>
          simp only [List.mapIdx_cons, Nat.add_zero, Prod.mk.injEq, List.cons.injEq] at e5
          obtain ⟨⟨e6, e7⟩, rfl⟩ := e5
          have hps : ps = ⟨st'.members, st'.ev, DContext.new d.x.cols, z, none, st'.counters⟩ := by
            have hz0 := hz ps (by simp)
            cases ps
            simp only [PopState.mk.injEq] at e6 hz0 ⊢
            exact ⟨e6.1, e6.2.1, e6.2.2.1, hz0, e6.2.2.2.2.1, e6.2.2.2.2.2⟩
          have hfi : f i = (Draws.rng h i).drop x y := congrArg PopState.rng e6
          refine ⟨pss, hall', f, fun ps hm => hz ps (by simp [hm]), ?_, ?_, hps ▸ h3⟩
          · rw [initPops_congr (seeds' := Draws.rng h) k (i + 1) _ (fun j hj => rng_dropBy_other _ (by omega) _ _), e4, ← e7]
            simp only [Option.some.injEq, Prod.mk.injEq, and_true]
            congr 1
            funext j ps
            rw [show i + 1 + j = i + (j + 1) by omega]
          · intro j hj
            by_cases hji : j = i
            · subst hji; rw [rng_dropBy, hfi]
            · rw [rng_dropBy_other _ hji]
              exact h2 j (by omega))
    exact key.trans ((mul_le_mul_right prob_le_one _).trans (mul_one q).le)

/-- What follows the populations in the initialisation. -/
def initWith (o : SOptions ℚ) (pss : List (PopState ℚ)) (hall : Hall ℚ) : Option (Shared ℚ) := do
  let best ← initBest o pss
  let bestSub ← pss.mapM fun ps => bestSubPop E.sort ps.pop o.topn
  some {
    counters := ⟨o.niterations * o.populations, 0, 0⟩
    stats := Stats.new E.R o.maxsize 100000
    hall
    pops := pss.map some
    bestSub
    best
    totalEvals := o.populations * o.populationSize }

theorem init_eq (seeds : Nat → Rng (Fl ℚ)) : Shared.init o d seeds =
    (initPops o d seeds o.populations 0 (Hall.new o.maxsize)).bind fun x => initWith o x.1 x.2 := rfl

theorem initWith_feed (pss : List (PopState ℚ)) (hall : Hall ℚ) (f : Nat → Rng (Fl ℚ)) :
    initWith o (pss.mapIdx fun j ps => { ps with rng := f j }) hall = (initWith o pss hall).map (·.feed f) := by
  have hpop : (pss.mapIdx fun j ps => { ps with rng := f j }).map (·.pop) = pss.map (·.pop) := by
    apply List.ext_getElem?
    intro j
    simp only [List.getElem?_map, List.getElem?_mapIdx, Option.map_map]
    rfl
  have hbest : ∀ pss pss' : List (PopState ℚ), pss.map (·.pop) = pss'.map (·.pop) → initBest o pss = initBest o pss' := by
    intro a b hab
    unfold initBest
    have h1 : a.flatMap (·.pop) = b.flatMap (·.pop) := by rw [List.flatMap_def, List.flatMap_def, hab]
    have h2 : a.head?.bind (·.pop.head?) = b.head?.bind (·.pop.head?) := by
      have := congrArg (fun l => l.head?.bind List.head?) hab
      simpa [List.head?_map, Option.bind_map] using this
    rw [h1]
    simp only [Option.bind_eq_bind]
    rw [h2]
  have hsub : ∀ pss : List (PopState ℚ), (pss.mapM fun ps => bestSubPop E.sort ps.pop o.topn) =
      (pss.map (·.pop)).mapM fun p => bestSubPop E.sort p o.topn := by
    intro pss; rw [List.mapM_map]; rfl
  unfold initWith
  rw [hsub, hpop, ← hsub, hbest _ _ hpop]
  simp only [Option.bind_eq_bind]
  cases initBest o pss with
  | none => rfl
  | some best =>
    cases pss.mapM fun ps => bestSubPop E.sort ps.pop o.topn with
    | none => rfl
    | some bs =>
      simp only [Option.bind_some, Option.map_some, Option.some.injEq, Shared.feed, Shared.mk.injEq, true_and, and_true]
      apply List.ext_getElem?
      intro j
      simp only [List.getElem?_map, List.getElem?_mapIdx, Option.map_map]
      rfl

/-- The probability that a search has not found the target after `n` cycles. -/
theorem missed_chance (hν : ∀ b, FullLaw (ν b)) (P : SensibleSearch o d ops) (D : DrawsOk S o) (T : Target S o d ops cur t cs l c)
    {p : ℝ≥0∞} (L : ∀ cur', cur ≤ cur' → cur' ≤ o.maxsize → Luck ν o d cur' t cs p) {a : Nat}
    (ha : ∀ k cur', a ≤ k → k < o.niterations * o.populations → getCurMaxsize o (o.niterations * o.populations)
      (o.niterations * o.populations - k) = some cur' → cur ≤ cur') (orderRng : Rng (Fl ℚ)) {n : Nat}
    (hn : n ≤ o.niterations * o.populations) :
    Draws.law ν (Missed o d orderRng n c (lossToCost E.RT l c o.parsimony o.useBaseline d.baseline)) ≤ (1 - p) ^ (n - a) := by
  generalize hv : lossToCost E.RT l c o.parsimony o.useBaseline d.baseline = v
  let z : Rng (Fl ℚ) := ⟨fun _ => 0, fun _ => .fin 0⟩
  have Q := P.setting
  refine le_trans (measure_mono ?_) (initPops_chance (o := o) (d := d) hν z o.populations 0 (Hall.new o.maxsize)
    (fun pss hall f => ∃ s0, initWith o pss hall = some s0 ∧ (⟨s0, orderRng, 0, [], 0, false⟩ : Engine ℚ).Inv o o.populations ∧
      s0.Steady o d ops o.maxsize ∧ s0.counters.completed = 0 ∧
      ∃ k e', ((⟨s0, orderRng, 0, [], 0, false⟩ : Engine ℚ).feed f).step o d n = some (k, e') ∧ ¬ e'.shared.hall.AtMost c v) ?_)
  · intro ω hω
    obtain ⟨s, h1, hs, hfresh⟩ := init_steady Q (Draws.rng ω)
    obtain ⟨e, h2, h3⟩ := C75_stepwise P (fun i => draws_unit ω i) orderRng
    obtain ⟨⟨k, e'⟩, h3⟩ := Option.isSome_iff_exists.mp (h3 n)
    have h2' := h2
    rw [Engine.new, h1] at h2
    simp only [Option.map_some, Option.some.injEq] at h2
    have hnot : ¬ e'.shared.hall.AtMost c v := fun hat => hω ⟨e, k, e', h2', h3, hat⟩
    rw [init_eq, Option.bind_eq_some_iff] at h1
    obtain ⟨⟨qs, hall⟩, h4, h5⟩ := h1
    simp only at h5
    have hlen : qs.length = o.populations := by
      have := hfresh.pops
      unfold initWith at h5
      simp only [Option.bind_eq_bind, Option.bind_eq_some_iff, Option.some.injEq] at h5
      obtain ⟨_, _, _, _, rfl⟩ := h5
      simpa using this
    let f : Nat → Rng (Fl ℚ) := fun j => (qs[j]?.map (·.rng)).getD (Draws.rng ω j)
    have hq : qs = (qs.map fun ps => { ps with rng := z }).mapIdx fun j ps => { ps with rng := f j } := by
      apply List.ext_getElem?
      intro j
      simp only [List.getElem?_mapIdx, List.getElem?_map, Option.map_map]
      cases hj : qs[j]? with
      | none => rfl
      | some ps => simp [f, hj]
    rw [hq, initWith_feed, Option.map_eq_some_iff] at h5
    obtain ⟨s0, h6, rfl⟩ := h5
    refine ⟨qs.map fun ps => { ps with rng := z }, hall, f, ?_, ?_, ?_, s0, h6, ?_, Shared.feed_steady.mp hs, hfresh.completed, k, e', ?_,
      hnot⟩
    · intro ps hps
      rw [List.mem_map] at hps
      obtain ⟨_, _, rfl⟩ := hps
      rfl
    · simp only [Nat.zero_add]
      rw [← hq]
      exact h4
    · intro j hj
      have : qs[j]? = none := List.getElem?_eq_none (by omega)
      simp [f, this]
    · have : ((⟨s0, orderRng, 0, [], 0, false⟩ : Engine ℚ).feed f).Inv o o.populations := Engine.Fresh.inv ⟨hfresh, rfl, rfl, rfl⟩
      exact Engine.feed_inv.mp this
    · rw [show (⟨s0, orderRng, 0, [], 0, false⟩ : Engine ℚ).feed f = e from h2]
      exact h3
  · intro pss hall
    by_cases h : ∃ s0, initWith o pss hall = some s0 ∧ (⟨s0, orderRng, 0, [], 0, false⟩ : Engine ℚ).Inv o o.populations ∧
      s0.Steady o d ops o.maxsize ∧ s0.counters.completed = 0
    · obtain ⟨s0, h1, h2, h3, h4⟩ := h
      have := steps_chance hν P D T L ha n ⟨s0, orderRng, 0, [], 0, false⟩ h2 h3 (by rw [h4]; omega)
      rw [hv] at this
      simp only [h4, Nat.zero_add, Nat.max_zero] at this
      refine le_trans (measure_mono ?_) this
      rintro ω ⟨s0', k1, -, -, -, k5⟩
      rw [h1, Option.some.injEq] at k1
      subst k1
      exact k5
    · have he : {ω : Draws | ∃ s0, initWith o pss hall = some s0 ∧ (⟨s0, orderRng, 0, [], 0, false⟩ : Engine ℚ).Inv o o.populations ∧
          s0.Steady o d ops o.maxsize ∧ s0.counters.completed = 0 ∧ ∃ k e', ((⟨s0, orderRng, 0, [], 0, false⟩ : Engine ℚ).feed
            (Draws.rng ω)).step o d n = some (k, e') ∧ ¬ e'.shared.hall.AtMost c v} = ∅ := by
        refine Set.eq_empty_of_forall_notMem ?_
        rintro ω ⟨s0, k1, k2, k3, k4, -⟩
        exact h ⟨s0, k1, k2, k3, k4⟩
      rw [he, measure_empty]
      exact zero_le

end
end SR
