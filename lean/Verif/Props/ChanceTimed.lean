import Verif.Spec.Timed
import Verif.Props.ChanceSchedule
/-
C90, with the multi-worker driver, when the order in which the results arrive depends on what the tasks in flight draw.
-/
namespace SR
open MeasureTheory Chance Rand
open scoped ENNReal
section
variable [E : Env ℚ]
variable {S : Fl ℚ → Prop} {o : SOptions ℚ} {d : Dataset ℚ} {ops : List OpId} {N cur : Nat} {t : Tree} {cs : List (Fl ℚ)}
  {l : Fl ℚ} {c : Nat} {v : Fl ℚ} {ν : Bool → Measure ℕ} {nw : Nat}

theorem TimedRun.run {σ : Clock o d} {past past' : List (ParEvent × Par ℚ)} {p q : Par ℚ} (h : TimedRun σ nw past p past' q) :
    ∃ tr, past'.map Prod.fst = past.map Prod.fst ++ tr ∧ ParRun o d nw p tr q := by
  induction h with
  | refl past p => exact ⟨[], by simp, .refl p⟩
  | cons hs _ _ ih =>
    obtain ⟨tr, h1, h2⟩ := ih
    have := (ParRun.snoc (.refl _) hs).trans h2
    exact ⟨_, by rw [h1]; simp, this⟩

/-! ## What the tasks in flight will find -/

/-- The target is in the hall of fame, or a task in flight will return it. -/
def Par.Will (o : SOptions ℚ) (d : Dataset ℚ) (c : Nat) (v : Fl ℚ) (p : Par ℚ) : Prop :=
  p.shared.hall.AtMost c v ∨ ∃ t ∈ p.pending, c ≤ t.cur ∧ ∃ r, t.run o d = some r ∧ r.bestSeen.AtMost c v

theorem apply_hall {s s' : Shared ℚ} {r : TaskResult ℚ} (h : s.apply o r = some s') :
    ∃ hall, s.hall.update o.cx r.cur r.bestSeen.members = some hall ∧ Hall.Improves hall s'.hall := by
  unfold Shared.apply at h
  split at h
  · simp only [Option.bind_eq_bind, Option.bind_eq_some_iff, Option.some.injEq] at h
    obtain ⟨hall, h1, ⟨h2, b2⟩, h3, _, _, rfl⟩ := h
    exact ⟨hall, h1, (absorb_progress h3).1⟩
  · cases h

theorem will_step (Q : RunSetting o d ops o.maxsize) {p q : Par ℚ} {e : ParEvent} (hp : p.Steady o d ops o.maxsize)
    (hs : ParStep o d nw p e q) (h : p.Will o d c v) : q.Will o d c v := by
  cases hs with
  | start => exact h
  | enter => exact h
  | leave => exact h
  | skip => exact h
  | dispatch _ _ _ hd =>
    obtain ⟨-, -, -, -, rfl⟩ := dispatch_task hd
    rcases h with h | ⟨t, ht, h⟩
    · exact .inl h
    · exact .inr ⟨t, List.mem_append_left _ ht, h⟩
  | @receive xs ys tk res s hpc hg hpend hr ha =>
    obtain ⟨hall, h1, h2⟩ := apply_hall ha
    have htk := hp.2 tk (by rw [hpend]; simp)
    rcases h with h | ⟨t, ht, hc, r, hr', m, hm, hle⟩
    · exact .inl ((h.improves (update_improves h1)).improves h2)
    · rw [hpend, List.mem_append, List.mem_cons] at ht
      rcases ht with ht | rfl | ht
      · exact .inr ⟨t, List.mem_append_left _ ht, hc, r, hr', m, hm, hle⟩
      · rw [hr, Option.some.injEq] at hr'
        subst hr'
        have hcur : res.cur = t.cur := by
          unfold Task.run at hr
          rw [Option.map_eq_some_iff] at hr
          obtain ⟨_, _, rfl⟩ := hr
          rfl
        have hseen := ((task_done Q.search htk.sound hr).sound Q.search.evol htk.sound).seen
        have hbs : ∀ m ∈ res.bestSeen.members, m.Sound o d ops o.maxsize := by
          intro m hm
          obtain ⟨c, hc⟩ := mem_members.mp hm
          exact (hseen.entry c m hc).1
        obtain ⟨a1, rfl, a3, a4⟩ := hseen.entry c m hm
        rw [hcur] at h1
        have := update_atMost Q.search htk.sound.cur res.bestSeen.members hp.1.sound.hall hbs h1 m (mem_members.mpr ⟨_, hm⟩)
          (feasible_at Q.search.evol a1 a4 hc) a3 (hc.trans htk.sound.cur)
        obtain ⟨b, hb, hb2⟩ := this.improves h2
        exact .inl ⟨b, hb, Fl.le_trans hb2 hle⟩
      · exact .inr ⟨t, List.mem_append_right _ ht, hc, r, hr', m, hm, hle⟩

theorem will_run (Q : RunSetting o d ops o.maxsize) {p q : Par ℚ} {tr : List ParEvent} (hi : p.Inv o nw o.populations)
    (hp : p.Steady o d ops o.maxsize) (h : ParRun o d nw p tr q) (hw : p.Will o d c v) : q.Will o d c v := by
  induction h with
  | refl => exact hw
  | snoc hr hs ih =>
    exact will_step Q (Par.Steady.run Q hi hp hr) hs ih

/-! ## The application of a result -/

/-- The application of a result as a computation. -/
def applyBody (o : SOptions ℚ) (s : Shared ℚ) (r : TaskResult ℚ) : Rand (Fl ℚ) (Shared ℚ) := do
  let hall ← Rand.lift (s.hall.update o.cx r.cur r.bestSeen.members)
  let hb ← Rand.lift (absorbMembers o r.cur r.ps.pop (hall, s.best))
  let x ← migrations o (migrationCandidates (s.bestSub.set r.popIdx r.bestSub) r.popIdx) hb.1.paretoFront r.ps.pop r.ps.counters
  pure {
    counters := { s.counters with completed := s.counters.completed + 1 }
    stats := (s.stats.updateFromPopulation E.R (r.ps.pop.map (·.complexity))).moveWindow E.R
    hall := hb.1, best := hb.2
    bestSub := s.bestSub.set r.popIdx r.bestSub
    pops := s.pops.set r.popIdx (some { r.ps with pop := x.1, counters := x.2 })
    totalEvals := satAdd64 s.totalEvals r.evals }

instance applyBody_consumes (s : Shared ℚ) (r : TaskResult ℚ) : (applyBody o s r).Consumes := by
  unfold applyBody
  consumes

theorem apply_run {s : Shared ℚ} {r : TaskResult ℚ} (hi : r.popIdx < s.bestSub.length ∧ r.popIdx < s.pops.length)
    (f : Nat → Rng (Fl ℚ)) (g : Rng (Fl ℚ)) : (s.feed f).apply o (r.on g) =
      (applyBody o s r g).map fun x => x.1.feed (Function.update f r.popIdx x.2) := by
  have hps : ∀ (ps : PopState ℚ) (g : Rng (Fl ℚ)), (s.feed f).pops.set r.popIdx (some { ps with rng := g }) =
      (s.pops.set r.popIdx (some ps)).mapIdx fun i p => p.map fun ps => { ps with rng := Function.update f r.popIdx g i } := by
    intro ps g
    apply List.ext_getElem?
    intro j
    rw [List.getElem?_mapIdx, List.getElem?_set, List.getElem?_set]
    by_cases hj : r.popIdx = j
    · subst hj
      simp [Shared.feed, hi.2]
    · rw [if_neg hj, if_neg hj, Shared.feed, List.getElem?_mapIdx, Function.update_of_ne (Ne.symm hj)]
  unfold Shared.apply applyBody
  rw [if_pos (by simpa [Shared.feed, TaskResult.on] using hi)]
  simp only [Rand.run_bind]
  cases hu : s.hall.update o.cx r.cur r.bestSeen.members with
  | none => simp [Shared.feed, TaskResult.on, hu, Rand.lift]
  | some hall =>
    cases ha : absorbMembers o r.cur r.ps.pop (hall, s.best) with
    | none => simp [Shared.feed, TaskResult.on, hu, ha, Rand.lift]
    | some hb =>
      cases hm : migrations o (migrationCandidates (s.bestSub.set r.popIdx r.bestSub) r.popIdx) hb.1.paretoFront r.ps.pop r.ps.counters g with
      | none => simp [Shared.feed, TaskResult.on, hu, ha, Rand.lift, hm]
      | some x =>
        have := hps { r.ps with pop := x.1.1, counters := x.1.2 } x.2
        simp only at this
        simp [Shared.feed, TaskResult.on, hu, ha, Rand.lift, hm]
        simpa [Shared.feed] using this

/-! ## What is known of the draws -/

/-- The draws `f` begin with what the tasks in flight draw in `p`, and go on with `ω`. -/
structure Ahead (o : SOptions ℚ) (d : Dataset ℚ) (ω : Draws) (p : Par ℚ) (f : Nat → Rng (Fl ℚ)) : Prop where
  free : ∀ i, (∀ t ∈ p.pending, t.popIdx ≠ i) → f i = ω.rng i
  flight : ∀ t ∈ p.pending, ∃ a b, t.Reads o d a b ∧ t.ps.rng.Agree (f t.popIdx) a b ∧ ω.rng t.popIdx = (f t.popIdx).drop a b

theorem Ahead.alike {ω : Draws} {p : Par ℚ} {f : Nat → Rng (Fl ℚ)} (h : Ahead o d ω p f) : p.SoFar o d (p.feed f) := by
  refine ⟨(Par.feed_blind p f).symm, fun j t t' h1 h2 => ?_⟩
  rw [Par.feed] at h2
  simp only [List.getElem?_map, h1, Option.map_some, Option.some.injEq] at h2
  obtain ⟨a, b, h3, h4, -⟩ := h.flight t (List.mem_of_getElem? h1)
  subst h2
  exact ⟨a, b, h3, h4⟩

theorem Ahead.of_pending {ω : Draws} {p q : Par ℚ} {f : Nat → Rng (Fl ℚ)} (h : Ahead o d ω p f) (hq : q.pending = p.pending) :
    Ahead o d ω q f := ⟨by rw [hq]; exact h.free, by rw [hq]; exact h.flight⟩

/-- What a task in flight returns is known, up to what it leaves of its generator. -/
theorem Ahead.result {ω : Draws} {p : Par ℚ} {f : Nat → Rng (Fl ℚ)} (h : Ahead o d ω p f) {tk : Task ℚ} (ht : tk ∈ p.pending)
    {r : TaskResult ℚ} (hr : tk.run o d = some r) : (tk.on (f tk.popIdx)).run o d = some (r.on (ω.rng tk.popIdx)) := by
  obtain ⟨a, b, ⟨r', h1⟩, h2, h3⟩ := h.flight tk ht
  have h4 := h1 tk.ps.rng ⟨fun _ _ => rfl, fun _ _ => rfl⟩
  rw [show tk.on tk.ps.rng = tk from rfl, hr, Option.some.injEq] at h4
  rw [h1 _ h2, ← h3, h4]
  rfl

/-- The draws with which a timed run of at most `n` steps completes `M` cycles without the target. -/
def timedMiss (σ : Clock o d) (nw : Nat) (c : Nat) (v : Fl ℚ) (M : Nat) (past : List (ParEvent × Par ℚ)) (p : Par ℚ)
    (n : Nat) : Set Draws :=
  {ω | ∃ f past1 past2 q, Ahead o d ω p f ∧ PastAlike o d past past1 ∧ past2.length ≤ past1.length + n ∧
    TimedRun σ nw past1 (p.feed f) past2 q ∧ q.pending = [] ∧ M ≤ q.shared.counters.started ∧ ¬ q.shared.hall.AtMost c v}

theorem TimedRun.length {σ : Clock o d} {past past' : List (ParEvent × Par ℚ)} {p q : Par ℚ} (h : TimedRun σ nw past p past' q) :
    past.length ≤ past'.length := by
  induction h with
  | refl => exact le_rfl
  | cons _ _ _ ih => simp at ih; omega

theorem step_still {p q : Par ℚ} {e : ParEvent} (hs : ParStep o d nw p e q) (h1 : ∀ i, e ≠ .receive i) (h2 : ∀ i, e ≠ .dispatch i) :
    q.pending = p.pending ∧ q.shared.counters.started = p.shared.counters.started := by
  cases hs with
  | start => exact ⟨rfl, rfl⟩
  | enter => exact ⟨rfl, rfl⟩
  | leave => exact ⟨rfl, rfl⟩
  | skip => exact ⟨rfl, rfl⟩
  | dispatch => exact absurd rfl (h2 _)
  | receive => exact absurd rfl (h1 _)

/-- The reception of a task whose result is known. -/
theorem receive_known {p : Par ℚ} (hi : p.Inv o nw o.populations) {a b : List (Task ℚ)} {tk : Task ℚ}
    (hp : p.pending = a ++ tk :: b) {r : TaskResult ℚ} (hr : tk.run o d = some r) {ω : Draws} {f : Nat → Rng (Fl ℚ)}
    (hA : Ahead o d ω p f) {q : Par ℚ} (hs : ParStep o d nw (p.feed f) (.receive tk.popIdx) q) :
    ∃ s g, applyBody o p.shared r (ω.rng tk.popIdx) = some (s, g) ∧
      q = (p.received a b s).feed (Function.update f tk.popIdx g) := by
  have hn : ((a ++ tk :: b).map (·.popIdx)).Nodup := hp ▸ hi.nodup
  have hmem : tk ∈ p.pending := by rw [hp]; simp
  have hridx : r.popIdx = tk.popIdx := by
    unfold Task.run at hr
    rw [Option.map_eq_some_iff] at hr
    obtain ⟨_, _, rfl⟩ := hr
    rfl
  have hidx : r.popIdx < p.shared.bestSub.length ∧ r.popIdx < p.shared.pops.length := by
    rw [hridx, hi.bestSub, hi.pops]
    exact ⟨hi.lt tk hmem, hi.lt tk hmem⟩
  have hpf : (p.feed f).pending = a.map (fun t => t.on (f t.popIdx)) ++ tk.on (f tk.popIdx) :: b.map (fun t => t.on (f t.popIdx)) := by
    simp [Par.feed, hp]
  generalize hev : ParEvent.receive tk.popIdx = ev at hs
  cases hs with
  | start => cases hev
  | enter => cases hev
  | leave => cases hev
  | dispatch => cases hev
  | skip => cases hev
  | @receive a' b' tk' res s h1 h2 h3 h4 h5 =>
    rw [ParEvent.receive.injEq] at hev
    have hn' : (((a.map (fun t => t.on (f t.popIdx)) ++ tk.on (f tk.popIdx) :: b.map (fun t => t.on (f t.popIdx)) : List (Task ℚ))).map
        (·.popIdx)).Nodup := by
      rw [← hpf, Par.feed_popIdx]; exact hi.nodup
    obtain ⟨rfl, rfl, rfl⟩ := task_split (hpf.symm.trans h3) hev hn'
    rw [hA.result hmem hr, Option.some.injEq] at h4
    subst h4
    rw [show (p.feed f).shared = p.shared.feed f from rfl, apply_run hidx, Option.map_eq_some_iff] at h5
    obtain ⟨⟨s', g⟩, k1, rfl⟩ := h5
    refine ⟨s', g, k1, ?_⟩
    unfold Par.received Par.feed
    simp only [List.map_append, Par.mk.injEq, true_and, hridx]
    have hne : ∀ t ∈ a ++ b, t.popIdx ≠ tk.popIdx := by
      simp only [List.map_append, List.map_cons, List.nodup_append, List.nodup_cons, List.mem_map, List.mem_cons] at hn
      intro t ht
      rcases List.mem_append.mp ht with ht | ht
      · exact fun h => hn.2.2 t.popIdx ⟨t, ht, rfl⟩ tk.popIdx (.inl rfl) h
      · exact fun h => hn.2.1.1 ⟨t, ht, h⟩
    rw [← List.map_append, ← List.map_append]
    refine List.map_congr_left fun t ht => ?_
    rw [Function.update_of_ne (hne t ht)]

theorem timed_chance (hν : ∀ b, FullLaw (ν b)) (P : SensibleSearch o d ops) (D : DrawsOk S o) (T : Target S o d ops cur t cs l c)
    {ε : ℝ≥0∞} (L : ∀ cur', cur ≤ cur' → cur' ≤ o.maxsize → Luck ν o d cur' t cs ε) {a : Nat}
    (ha : ∀ k cur', a ≤ k → k < o.niterations * o.populations → getCurMaxsize o (o.niterations * o.populations)
      (o.niterations * o.populations - k) = some cur' → cur ≤ cur') (σ : Clock o d) (M : Nat) :
    ∀ (n : Nat) (past : List (ParEvent × Par ℚ)) (p : Par ℚ), p.Inv o nw o.populations → p.Steady o d ops o.maxsize →
    Draws.law ν (timedMiss σ nw c (lossToCost E.RT l c o.parsimony o.useBaseline d.baseline) M past p n) ≤
      (1 - ε) ^ (M - max a p.shared.counters.started) := by
  have := law_prob hν
  have : IsProbabilityMeasure (Draws.law ν) := by rw [law_eq]; unfold Chance.law; infer_instance
  have Q := P.setting
  have hle1 : (1 - ε : ℝ≥0∞) ≤ 1 := tsub_le_self
  generalize hv : lossToCost E.RT l c o.parsimony o.useBaseline d.baseline = v
  intro n
  induction n with
  | zero =>
    intro past p hi hs
    by_cases hM : M ≤ p.shared.counters.started
    · rw [show M - max a p.shared.counters.started = 0 by omega, pow_zero]
      exact prob_le_one
    · have he : timedMiss σ nw c v M past p 0 = ∅ := by
        refine Set.eq_empty_of_forall_notMem ?_
        rintro ω ⟨f, past1, past2, q, h1, h2, h3, h4, h5, h6, -⟩
        cases h4 with
        | refl => exact hM h6
        | cons _ _ k => have := k.length; simp at this; omega
      rw [he, measure_empty]; exact zero_le
  | succ n ih =>
    intro past p hi hs
    by_cases hM : M ≤ p.shared.counters.started
    · rw [show M - max a p.shared.counters.started = 0 by omega, pow_zero]
      exact prob_le_one
    have hfirst : ∀ ω ∈ timedMiss σ nw c v M past p (n + 1), ∃ f past1 e q1 past2 q, Ahead o d ω p f ∧ PastAlike o d past past1 ∧
        ParStep o d nw (p.feed f) e q1 ∧ σ.Allows past1 (p.feed f) e ∧ past2.length ≤ (past1 ++ [(e, p.feed f)]).length + n ∧
        TimedRun σ nw (past1 ++ [(e, p.feed f)]) q1 past2 q ∧ q.pending = [] ∧ M ≤ q.shared.counters.started ∧
        ¬ q.shared.hall.AtMost c v := by
      rintro ω ⟨f, past1, past2, q, h1, h2, h3, h4, h5, h6, h7⟩
      cases h4 with
      | refl => exact absurd h6 hM
      | cons k1 k2 k3 => exact ⟨f, past1, _, _, past2, q, h1, h2, k1, k2, by simp; omega, k3, h5, h6, h7⟩
    have hpast : ∀ {past1 e ω f}, PastAlike o d past past1 → Ahead o d ω p f →
        PastAlike o d (past ++ [(e, p)]) (past1 ++ [(e, p.feed f)]) := by
      intro past1 e ω f h1 h2
      exact List.rel_append h1 (.cons ⟨rfl, h2.alike⟩ .nil)
    by_cases hq : p.pc = .inner ∧ ¬ (p.inFlight < nw ∧ p.nextTask < p.order.length)
    · obtain ⟨hpc, hg⟩ := hq
      -- the task the clock takes
      have hsee : ∀ {past1 ω f e}, PastAlike o d past past1 → Ahead o d ω p f → σ.Allows past1 (p.feed f) e →
          ∀ i, e = .receive i → (p.pending.map (·.popIdx))[σ.see past p % p.pending.length]? = some i := by
        intro past1 ω f e h1 h2 h3 i hi'
        have := h3 i hi'
        rwa [Par.feed_popIdx, ← σ.timely h1 h2.alike, show (p.feed f).pending.length = p.pending.length by simp [Par.feed]] at this
      cases htk : (p.pending.map (·.popIdx))[σ.see past p % p.pending.length]? with
      | none =>
        have he : timedMiss σ nw c v M past p (n + 1) = ∅ := by
          refine Set.eq_empty_of_forall_notMem fun ω hω => ?_
          obtain ⟨f, past1, e, q1, past2, q, h1, h2, h3, h4, -⟩ := hfirst ω hω
          obtain ⟨i, hi'⟩ := inner_receives hpc hg h3
          have := hsee h2 h1 h4 i hi'
          rw [htk] at this; cases this
        rw [he, measure_empty]; exact zero_le
      | some i =>
        rw [List.getElem?_map, Option.map_eq_some_iff] at htk
        obtain ⟨tk, htk, rfl⟩ := htk
        obtain ⟨hj, htk'⟩ := List.getElem?_eq_some_iff.mp htk
        generalize hjj : σ.see past p % p.pending.length = j at hj htk htk' hsee
        have hpend : p.pending = p.pending.take j ++ tk :: p.pending.drop (j + 1) := by
          rw [← htk', List.cons_getElem_drop_succ, List.take_append_drop]
        rw [List.getElem?_map, htk, Option.map_some] at hsee
        generalize p.pending.take j = xs at hpend
        generalize p.pending.drop (j + 1) = ys at hpend
        have hmem : tk ∈ p.pending := by rw [hpend]; simp
        obtain ⟨r, hr, -⟩ := Task.run_total Q (hs.2 tk hmem)
        let m := applyBody o p.shared r
        have hm : m.Consumes := inferInstanceAs (applyBody o p.shared r).Consumes
        have hfirst' : ∀ ω ∈ timedMiss σ nw c v M past p (n + 1), ∃ f past1 s g past2 q, Ahead o d ω p f ∧ PastAlike o d past past1 ∧
            m (ω.rng tk.popIdx) = some (s, g) ∧ (p.received xs ys s).Inv o nw o.populations ∧
            (p.received xs ys s).Steady o d ops o.maxsize ∧ s.counters.started = p.shared.counters.started ∧
            past2.length ≤ (past1 ++ [(ParEvent.receive tk.popIdx, p.feed f)]).length + n ∧
            TimedRun σ nw (past1 ++ [(ParEvent.receive tk.popIdx, p.feed f)])
              ((p.received xs ys s).feed (Function.update f tk.popIdx g)) past2 q ∧
            q.pending = [] ∧ M ≤ q.shared.counters.started ∧ ¬ q.shared.hall.AtMost c v := by
          intro ω hω
          obtain ⟨f, past1, e, q1, past2, q, h1, h2, h3, h4, h5, h6, h7, h8, h9⟩ := hfirst ω hω
          obtain ⟨i, hi'⟩ := inner_receives hpc hg h3
          have := hsee h2 h1 h4 i hi'
          rw [Option.some.injEq] at this
          obtain rfl : e = .receive tk.popIdx := by rw [hi', this]
          have k1 := (Par.feed_inv.mpr hi).step h3
          have k2 := Par.Steady.step Q (Par.feed_inv.mpr hi) (Par.feed_steady.mpr hs) h3
          obtain ⟨s, g, k3, rfl⟩ := receive_known hi hpend hr h1 h3
          have hct : s.counters.started = p.shared.counters.started := by
            have := apply_run (o := o) (s := p.shared) (r := r) (f := ω.rng) (g := ω.rng tk.popIdx) (by
              have hridx : r.popIdx = tk.popIdx := by
                unfold Task.run at hr
                rw [Option.map_eq_some_iff] at hr
                obtain ⟨_, _, rfl⟩ := hr
                rfl
              rw [hridx, hi.bestSub, hi.pops]
              exact ⟨hi.lt tk hmem, hi.lt tk hmem⟩)
            rw [k3, Option.map_some] at this
            have := apply_counts this
            exact (congrArg SearchCounters.started this :)
          exact ⟨f, past1, s, g, past2, q, h1, h2, k3, Par.feed_inv.mp k1, Par.feed_steady.mp k2, hct, h5, h6, h7, h8, h9⟩
        have key := markov_le (fun j : ℕ × Bool => ν j.2)
          (Ev.saturated (i := tk.popIdx) m fun s => (p.received xs ys s).Inv o nw o.populations ∧
            (p.received xs ys s).Steady o d ops o.maxsize ∧ s.counters.started = p.shared.counters.started)
          (G := timedMiss σ nw c v M past p (n + 1)) (q := (1 - ε) ^ (M - max a p.shared.counters.started)) (by
            intro ω hω
            obtain ⟨f, past1, s, g, past2, q, -, -, k1, k2, k3, k4, -⟩ := hfirst' ω hω
            exact ⟨s, g, k1, k2, k3, k4⟩) (by
            rintro ω ⟨s, g, k1, k2, k3, k4⟩
            refine ⟨timedMiss σ nw c v M (past ++ [(.receive tk.popIdx, p)]) (p.received xs ys s) n, ?_, ?_⟩
            · have := ih (past ++ [(.receive tk.popIdx, p)]) (p.received xs ys s) k2 k3
              rw [show (p.received xs ys s).shared.counters.started = p.shared.counters.started from k4] at this
              exact this
            · obtain ⟨x, y, ht⟩ := takes_of k1
              rw [ht.taken_eq]
              intro h hh hsame
              obtain ⟨f, past1, s', g', past2, q, l1, l2, l3, l4, l5, l6, l7, l8, l9⟩ := hfirst' h hh
              rw [ht h hsame, Option.some.injEq, Prod.mk.injEq] at l3
              obtain ⟨rfl, rfl⟩ := l3
              refine ⟨_, _, past2, q, ?_, hpast l2 l1, l7, l8, l9⟩
              have hn : ((xs ++ tk :: ys).map (·.popIdx)).Nodup := hpend ▸ hi.nodup
              have hne : ∀ t ∈ xs ++ ys, t.popIdx ≠ tk.popIdx := by
                simp only [List.map_append, List.map_cons, List.nodup_append, List.nodup_cons, List.mem_map, List.mem_cons] at hn
                intro t ht
                rcases List.mem_append.mp ht with ht | ht
                · exact fun h => hn.2.2 t.popIdx ⟨t, ht, rfl⟩ tk.popIdx (.inl rfl) h
                · exact fun h => hn.2.1.1 ⟨t, ht, h⟩
              refine ⟨fun i hfree => ?_, fun t ht => ?_⟩
              · by_cases hitk : i = tk.popIdx
                · subst hitk
                  rw [Function.update_self, rng_dropBy]
                · rw [Function.update_of_ne hitk, rng_dropBy_other _ hitk]
                  refine l1.free i fun t ht => ?_
                  rw [hpend, List.mem_append, List.mem_cons] at ht
                  rcases ht with ht | rfl | ht
                  · exact hfree t (List.mem_append_left _ ht)
                  · exact Ne.symm hitk
                  · exact hfree t (List.mem_append_right _ ht)
              · have h2 : t ∈ p.pending := by
                  rw [hpend]
                  rcases List.mem_append.mp ht with ht | ht <;> simp [ht]
                rw [Function.update_of_ne (hne t ht), rng_dropBy_other _ (hne t ht)]
                exact l1.flight t h2)
        refine (show Draws.law ν _ ≤ _ from key).trans ?_
        refine (mul_le_mul_right prob_le_one _).trans ?_
        rw [mul_one]
    · rcases quiet_step Q hi hq with h | ⟨e1, p1, h1, h2, h3⟩
      · have he : timedMiss σ nw c v M past p (n + 1) = ∅ := by
          refine Set.eq_empty_of_forall_notMem fun ω hω => ?_
          obtain ⟨f, past1, e, q1, past2, q, -, -, k1, -⟩ := hfirst ω hω
          exact h _ _ _ k1
        rw [he, measure_empty]; exact zero_le
      by_cases hdis : ∀ i, e1 ≠ .dispatch i
      · obtain ⟨c1, c2⟩ := step_still h2 h1 hdis
        refine (measure_mono ?_).trans ((ih (past ++ [(e1, p)]) p1 (hi.step h2) (Par.Steady.step Q hi hs h2)).trans ?_)
        · intro ω hω
          obtain ⟨f, past1, e, q1, past2, q, k1, k2, k3, k4, k5, k6, k7⟩ := hfirst ω hω
          obtain ⟨rfl, rfl⟩ := h3 _ _ _ k3
          exact ⟨f, _, past2, q, k1.of_pending c1, hpast k2 k1, k5, k6, k7⟩
        · rw [c2]
      -- a task is dispatched
      push Not at hdis
      obtain ⟨i, rfl⟩ := hdis
      have hi1 := hi.step h2
      have hs1 := Par.Steady.step Q hi hs h2
      generalize hev : ParEvent.dispatch i = ev at h2
      cases h2 with
      | start => cases hev
      | enter => cases hev
      | leave => cases hev
      | skip => cases hev
      | receive => cases hev
      | @dispatch i' tk s hpc hw hord hd =>
        rw [ParEvent.dispatch.injEq] at hev
        subst hev
        obtain ⟨hpop, rfl, -, hcur, hs'⟩ := dispatch_task hd
        have hst : s.counters.started = p.shared.counters.started + 1 := by rw [hs']
        have htks : tk.Steady o d ops o.maxsize := hs1.2 tk (by simp)
        have hfree : ∀ t ∈ p.pending, t.popIdx ≠ tk.popIdx := by
          intro t ht he
          have hlt : tk.popIdx < o.populations := he ▸ hi.lt t ht
          have := (hi.place tk.popIdx hlt).mpr (List.mem_map.mpr ⟨t, ht, he⟩)
          rw [hpop] at this
          cases this
        have hlucky : a ≤ p.shared.counters.started → cur ≤ tk.cur := by
          intro hsa
          obtain ⟨k1, k2, k3, k4, -⟩ := hi.active (by rw [hpc]; decide)
          have hnt : p.nextTask < o.populations := by
            have := (List.getElem?_eq_some_iff.mp hord).1
            have h2 := k2.length_eq
            simp only [List.length_range] at h2
            omega
          have hlt : p.shared.counters.started < o.niterations * o.populations := by
            have h5 : p.iter * o.populations ≤ o.niterations * o.populations := Nat.mul_le_mul_right _ hi.iter
            obtain ⟨k, hk⟩ : ∃ k, p.iter = k + 1 := ⟨p.iter - 1, by omega⟩
            rw [hk] at k4 h5
            simp only [Nat.add_sub_cancel] at k4
            rw [Nat.succ_mul] at h5
            omega
          exact ha _ tk.cur hsa hlt (by rw [← hi.total]; exact hcur)
        let m := taskBody o d tk
        have hm : m.Consumes := inferInstanceAs (taskBody o d tk).Consumes
        let p1 : Rng (Fl ℚ) → Par ℚ := fun g =>
          { p with shared := s, nextTask := p.nextTask + 1, inFlight := p.inFlight + 1, pending := p.pending ++ [tk.on g] }
        have hp1 : ∀ g f, (p1 g).feed f = ({ p with
            shared := s, nextTask := p.nextTask + 1, inFlight := p.inFlight + 1, pending := p.pending ++ [tk] } : Par ℚ).feed f := by
          intro g f
          simp [p1, Par.feed, Task.on]
        have hi1' : ∀ g, (p1 g).Inv o nw o.populations := by
          intro g
          refine (Par.feed_inv (f := fun _ => ⟨fun _ => 0, fun _ => .fin 0⟩)).mp ?_
          rw [hp1]
          exact Par.feed_inv.mpr hi1
        have hs1' : ∀ g, (p1 g).Steady o d ops o.maxsize := by
          intro g
          refine (Par.feed_steady (f := fun _ => ⟨fun _ => 0, fun _ => .fin 0⟩)).mp ?_
          rw [hp1]
          exact Par.feed_steady.mpr hs1
        have key := markov_le (fun j : ℕ × Bool => ν j.2)
          (Ev.saturated (i := tk.popIdx) m fun x => cur ≤ tk.cur → ¬ x.2.2.2.1.AtMost c v)
          (G := timedMiss σ nw c v M past p (n + 1)) (q := (1 - ε) ^ (M - max a (p.shared.counters.started + 1))) (by
            intro (ω : Draws) hω
            obtain ⟨f, past1, e, q1, past2, q, k1, k2, k3, k4, k5, k6, k7, k8, k9⟩ := hfirst ω hω
            obtain ⟨rfl, rfl⟩ := h3 _ _ _ k3
            obtain ⟨r, hr, -⟩ := Task.run_total Q (Task.on_steady.mpr htks : (tk.on (ω.rng tk.popIdx)).Steady o d ops o.maxsize)
            have hr0 := hr
            unfold Task.run at hr
            rw [Option.map_eq_some_iff] at hr
            obtain ⟨⟨x, g⟩, hx, hx2⟩ := hr
            refine ⟨x, g, hx, fun hc hat => k9 ?_⟩
            have hcc : c ≤ tk.cur := (T.mono hc).le (Q.search.evol.down htks.sound.cur)
            obtain ⟨tr, -, hrun⟩ := k6.run
            have hwill := will_run Q (Par.feed_inv.mpr hi1) (Par.feed_steady.mpr hs1) hrun (c := c) (v := v) (.inr ⟨tk.on (ω.rng tk.popIdx), by
              simp [Par.feed, Task.on, k1.free tk.popIdx hfree], hcc, r, hr0, by rw [← hx2]; exact hat⟩)
            rcases hwill with hwill | ⟨t, ht, -⟩
            · exact hwill
            · rw [k7] at ht; cases ht) (by
            rintro (ω : Draws) ⟨x, g, hx, -⟩
            refine ⟨timedMiss σ nw c v M (past ++ [(.dispatch tk.popIdx, p)]) (p1 (ω.rng tk.popIdx)) n, ?_, ?_⟩
            · have := ih (past ++ [(.dispatch tk.popIdx, p)]) (p1 (ω.rng tk.popIdx)) (hi1' _) (hs1' _)
              rw [show (p1 (ω.rng tk.popIdx)).shared.counters.started = p.shared.counters.started + 1 from hst] at this
              exact this
            · obtain ⟨y, z, -, hl⟩ := hm.rest _ _ _ hx
              have ht : Takes tk.popIdx m ω y z x := fun h' hs => hl _ (rng_agree hs)
              rw [ht.taken_eq]
              intro (h : Draws) hh hsame
              obtain ⟨f, past1, e, q1, past2, q, k1, k2, k3, k4, k5, k6, k7⟩ := hfirst h hh
              obtain ⟨rfl, rfl⟩ := h3 _ _ _ k3
              refine ⟨f, _, past2, q, ?_, hpast k2 k1, k5, by rw [hp1]; exact k6, k7⟩
              refine ⟨fun j hj => ?_, fun t ht => ?_⟩
              · have hne : j ≠ tk.popIdx := fun he => hj (tk.on (ω.rng tk.popIdx)) (by simp [p1]) he.symm
                rw [rng_dropBy_other _ hne]
                exact k1.free j fun t ht => hj t (List.mem_append_left _ ht)
              · rcases List.mem_append.mp ht with ht | ht
                · rw [rng_dropBy_other _ (hfree t ht)]
                  exact k1.flight t ht
                · rw [List.mem_singleton] at ht
                  subst ht
                  have hfi : f tk.popIdx = h.rng tk.popIdx := k1.free _ hfree
                  refine ⟨y, z, ⟨⟨tk.popIdx, tk.cur, x.1.evals, x.2.2.2.1, x.2.2.2.2, ⟨x.1.pop, x.1.ev, x.2.1, g, x.2.2.1, x.1.counters⟩⟩,
                    fun g' hg' => ?_⟩, ?_, ?_⟩
                  · unfold Task.run
                    rw [show taskBody o d ((tk.on (ω.rng tk.popIdx)).on g') ((tk.on (ω.rng tk.popIdx)).on g').ps.rng = some (x, g'.drop y z)
                      from hl g' hg']
                    rfl
                  · show (ω.rng tk.popIdx).Agree (f tk.popIdx) y z
                    rw [hfi]; exact rng_agree hsame
                  · show Draws.rng (dropBy (cnt tk.popIdx y z) h) tk.popIdx = (f tk.popIdx).drop y z
                    rw [hfi, rng_dropBy])
        refine (show Draws.law ν _ ≤ _ from key).trans ?_
        by_cases hsa : a ≤ p.shared.counters.started
        · have hc := hlucky hsa
          have hp := taskBody_chance hν Q D htks (T.mono hc) (L _ hc htks.sound.cur) tk.popIdx
          rw [hv] at hp
          have hA : Draws.law ν (Ev tk.popIdx m fun x => cur ≤ tk.cur → ¬ x.2.2.2.1.AtMost c v) ≤ 1 - ε := by
            have hsub : (Ev tk.popIdx m fun x => cur ≤ tk.cur → ¬ x.2.2.2.1.AtMost c v) ⊆
                (Ev tk.popIdx m fun x => x.2.2.2.1.AtMost c v)ᶜ := by
              rintro ω ⟨e', g, k1, k2⟩ ⟨e0, g0, k1', k3⟩
              rw [k1, Option.some.injEq, Prod.mk.injEq] at k1'
              obtain ⟨rfl, rfl⟩ := k1'
              exact k2 hc k3
            refine (measure_mono hsub).trans ?_
            rw [prob_compl_eq_one_sub (Ev.measurable _ _)]
            exact tsub_le_tsub_left hp 1
          refine (mul_le_mul_right hA _).trans ?_
          rw [← pow_succ]
          exact pow_le_pow_right_of_le_one' hle1 (by omega)
        · refine (mul_le_mul_right prob_le_one _).trans ?_
          rw [mul_one]
          exact pow_le_pow_right_of_le_one' hle1 (by omega)

/-- A run the clock decides can only stop when the driver has returned. -/
theorem timed_final (P : SensibleSearch o d ops) (σ : Clock o d) (hw : 1 ≤ nw) {ω : Draws} {orderRng : Rng (Fl ℚ)} {p q : Par ℚ} {tr : List ParEvent}
    (hnew : Par.new o d ω.rng orderRng = some p) (hfr : p.Fresh o o.populations) (h : ParRun o d nw p tr q) (past : List (ParEvent × Par ℚ))
    (hstuck : ∀ e r, ParStep o d nw q e r → ¬ σ.Allows past q e) : q.Final o := by
  obtain ⟨h1, h2, h3⟩ := C75_parallel P (fun i => draws_unit ω i) hnew h
  rcases C44_progress hw hfr h with k | ⟨e, r, k⟩ | k | k
  · exact k
  · exfalso
    have hrec : ∃ i, e = .receive i := by
      by_contra hn
      exact hstuck e r k fun i hi => absurd ⟨i, hi⟩ hn
    obtain ⟨i, rfl⟩ := hrec
    generalize hev : ParEvent.receive i = ev at k
    cases k with
    | start => cases hev
    | enter => cases hev
    | leave => cases hev
    | dispatch => cases hev
    | skip => cases hev
    | @receive xs ys tk res s k1 k2 k3 k4 k5 =>
      have hpos : 0 < q.pending.length := by rw [k3]; simp
      have hj := Nat.mod_lt (σ.see past q) hpos
      have hget : q.pending[σ.see past q % q.pending.length]? = some q.pending[σ.see past q % q.pending.length] :=
        List.getElem?_eq_getElem hj
      generalize hjj : σ.see past q % q.pending.length = j at hj hget
      generalize hx : q.pending[j] = x at hget
      have hmem : x ∈ q.pending := hx ▸ List.getElem_mem hj
      obtain ⟨res', hr'⟩ := Option.isSome_iff_exists.mp (h1 x hmem)
      cases ha : q.shared.apply o res' with
      | none => exact h3 (.apply k1 k2 hmem hr' ha)
      | some s' =>
        have hpend : q.pending = q.pending.take j ++ x :: q.pending.drop (j + 1) := by
          rw [← hx, List.cons_getElem_drop_succ, List.take_append_drop]
        refine hstuck _ _ (.receive k1 k2 hpend hr' ha) fun i' hi' => ?_
        rw [ParEvent.receive.injEq] at hi'
        rw [hjj, List.getElem?_map, hget, ← hi']; rfl
  · exact absurd k h3
  · exact absurd k h2

/-- The probability that a search in which the clock decides the schedule misses the target. -/
theorem missedTimed_chance (hν : ∀ b, FullLaw (ν b)) (P : SensibleSearch o d ops) (D : DrawsOk S o) (T : Target S o d ops cur t cs l c)
    {ε : ℝ≥0∞} (L : ∀ cur', cur ≤ cur' → cur' ≤ o.maxsize → Luck ν o d cur' t cs ε) {a : Nat}
    (ha : ∀ k cur', a ≤ k → k < o.niterations * o.populations → getCurMaxsize o (o.niterations * o.populations)
      (o.niterations * o.populations - k) = some cur' → cur ≤ cur') (orderRng : Rng (Fl ℚ)) (σ : Clock o d) (hw : 1 ≤ nw) :
    Draws.law ν (MissedTimed σ nw orderRng c (lossToCost E.RT l c o.parsimony o.useBaseline d.baseline)) ≤
      (1 - ε) ^ (o.niterations * o.populations - a) := by
  generalize hv : lossToCost E.RT l c o.parsimony o.useBaseline d.baseline = v
  let z : Rng (Fl ℚ) := ⟨fun _ => 0, fun _ => .fin 0⟩
  have Q := P.setting
  let B := o.niterations * (3 * o.populations + 2)
  let M := o.niterations * o.populations
  refine le_trans (measure_mono ?_) (initPops_chance (o := o) (d := d) hν z o.populations 0 (Hall.new o.maxsize)
    (fun pss hall f => ∃ s0, initWith o pss hall = some s0 ∧ (⟨s0, orderRng, .idle, 0, [], 0, 0, []⟩ : Par ℚ).Inv o nw o.populations ∧
      s0.Steady o d ops o.maxsize ∧ s0.counters.completed = 0 ∧ s0.counters.started = 0 ∧
      ∃ past2 q, past2.length ≤ B ∧ TimedRun σ nw [] ((⟨s0, orderRng, .idle, 0, [], 0, 0, []⟩ : Par ℚ).feed f) past2 q ∧
        q.pending = [] ∧ M ≤ q.shared.counters.started ∧ ¬ q.shared.hall.AtMost c v) ?_)
  · intro ω hω
    obtain ⟨s, h1, hs, hfresh⟩ := init_steady Q (Draws.rng ω)
    have hnew : Par.new o d ω.rng orderRng = some ⟨s, orderRng, .idle, 0, [], 0, 0, []⟩ := by rw [Par.new, h1]; rfl
    have hfr : Par.Fresh o o.populations (⟨s, orderRng, .idle, 0, [], 0, 0, []⟩ : Par ℚ) := ⟨hfresh, rfl, rfl, rfl, rfl⟩
    rcases hω with hω | ⟨p, past2, q, hp, hrun, hstuck, hmiss⟩
    · rw [hnew] at hω; cases hω
    rw [hnew, Option.some.injEq] at hp
    subst hp
    obtain ⟨tr, htr, hprun⟩ := hrun.run
    have hfin := timed_final P σ hw hnew hfr hprun past2 hstuck
    have hnot : ¬ q.shared.hall.AtMost c v := fun hat => hmiss ⟨hfin, hat⟩
    have hlenB : past2.length ≤ B := by
      have h := C44_terminates hfr hprun
      have h' := congrArg List.length htr
      simp at h'
      rw [h']; exact h
    have hdone : q.pending = [] ∧ M ≤ q.shared.counters.started := by
      have hi := (hfr.inv nw).run hprun
      refine ⟨(hi.idle hfin.1).1, ?_⟩
      obtain ⟨k1, k2⟩ := hi.idle hfin.1
      have k3 := hi.started
      have k4 := hi.flight
      rw [k1] at k4
      simp only [List.length_nil] at k4
      have : o.niterations * o.populations ≤ q.iter * o.populations := Nat.mul_le_mul_right _ hfin.2
      show o.niterations * o.populations ≤ _
      omega
    rw [init_eq, Option.bind_eq_some_iff] at h1
    obtain ⟨⟨qs, hall⟩, h4, h5⟩ := h1
    simp only at h5
    have hlen : qs.length = o.populations := by
      have := hfresh.pops
      unfold initWith at h5
      simp only [Option.bind_eq_bind, Option.bind_eq_some_iff, Option.some.injEq] at h5
      obtain ⟨_, _, _, _, rfl⟩ := h5
      simpa using this
    let f : Nat → Rng (Fl ℚ) := fun j => (qs[j]?.map (·.rng)).getD (Draws.rng ω j)
    have hq : qs = (qs.map fun ps => { ps with rng := z }).mapIdx fun j ps => { ps with rng := f j } := by
      apply List.ext_getElem?
      intro j
      simp only [List.getElem?_mapIdx, List.getElem?_map, Option.map_map]
      cases hj : qs[j]? with
      | none => rfl
      | some ps => simp [f, hj]
    rw [hq, initWith_feed, Option.map_eq_some_iff] at h5
    obtain ⟨s0, h6, rfl⟩ := h5
    have hfeed : ((⟨s0, orderRng, .idle, 0, [], 0, 0, []⟩ : Par ℚ).feed f) = ⟨s0.feed f, orderRng, .idle, 0, [], 0, 0, []⟩ := rfl
    refine ⟨qs.map fun ps => { ps with rng := z }, hall, f, ?_, ?_, ?_, s0, h6, ?_, Shared.feed_steady.mp hs, hfresh.completed,
      hfresh.started, past2, q, hlenB, ?_, hdone.1, hdone.2, hnot⟩
    · intro ps hps
      rw [List.mem_map] at hps
      obtain ⟨_, _, rfl⟩ := hps
      rfl
    · simp only [Nat.zero_add]
      rw [← hq]
      exact h4
    · intro j hj
      have : qs[j]? = none := List.getElem?_eq_none (by omega)
      simp [f, this]
    · exact Par.feed_inv.mp (hfeed ▸ hfr.inv nw)
    · rw [hfeed]; exact hrun
  · intro pss hall
    by_cases h : ∃ s0, initWith o pss hall = some s0 ∧ (⟨s0, orderRng, .idle, 0, [], 0, 0, []⟩ : Par ℚ).Inv o nw o.populations ∧
      s0.Steady o d ops o.maxsize ∧ s0.counters.completed = 0 ∧ s0.counters.started = 0
    · obtain ⟨s0, h1, h2, h3, h4, h5⟩ := h
      have := timed_chance hν P D T L ha σ M B [] ⟨s0, orderRng, .idle, 0, [], 0, 0, []⟩ h2 ⟨h3, by simp⟩
      rw [hv] at this
      simp only [h5, Nat.max_zero] at this
      refine le_trans (measure_mono ?_) this
      rintro (ω : Draws) ⟨s0', k1, -, -, -, -, k5⟩
      rw [h1, Option.some.injEq] at k1
      subst k1
      obtain ⟨past2, q, l1, l2, l3⟩ := k5
      exact ⟨ω.rng, [], past2, q, ⟨fun _ _ => rfl, fun t ht => (nomatch ht)⟩, .nil, by simpa using l1, l2, l3⟩
    · have he : {ω : Draws | ∃ s0, initWith o pss hall = some s0 ∧ (⟨s0, orderRng, .idle, 0, [], 0, 0, []⟩ : Par ℚ).Inv o nw o.populations ∧
          s0.Steady o d ops o.maxsize ∧ s0.counters.completed = 0 ∧ s0.counters.started = 0 ∧
          ∃ past2 q, past2.length ≤ B ∧ TimedRun σ nw [] ((⟨s0, orderRng, .idle, 0, [], 0, 0, []⟩ : Par ℚ).feed (Draws.rng ω)) past2 q ∧
            q.pending = [] ∧ M ≤ q.shared.counters.started ∧ ¬ q.shared.hall.AtMost c v} = ∅ := by
        refine Set.eq_empty_of_forall_notMem ?_
        rintro ω ⟨s0, k1, k2, k3, k4, k5, -⟩
        exact h ⟨s0, k1, k2, k3, k4, k5⟩
      rw [he, measure_empty]
      exact zero_le

/-- C90: the same bound holds when the order in which the results arrive depends on what the tasks in flight draw - how long a task takes
is decided by its draws - and on the whole past, and only not on the draws of tasks that are not yet dispatched. -/
theorem C90_timed_schedule (hν : ∀ b, FullLaw (ν b)) (P : SensibleSearch o d ops) (D : DrawsOk GridDraw o)
    (T : Target GridDraw o d ops cur t cs l c) :
    ∃ ε : ℝ≥0∞, ε ≠ 0 ∧ ∀ niterations, niterations * o.populations * o.populationSize < 2 ^ 53 → ∀ a,
      (∀ k limit, a ≤ k → k < niterations * o.populations →
        getCurMaxsize o (niterations * o.populations) (niterations * o.populations - k) = some limit → cur ≤ limit) →
      ∀ (orderRng : Rng (Fl ℚ)) (nw : Nat) (σ : Clock { o with niterations := niterations } d), 1 ≤ nw →
        Draws.law ν (MissedTimed σ nw orderRng c
          (lossToCost E.RT l c o.parsimony o.useBaseline d.baseline)) ≤ (1 - ε) ^ (niterations * o.populations - a) := by
  obtain ⟨p, h0, -, L⟩ := luck_exists hν P.setting (fun _ h => h) D T
  refine ⟨p, h0, fun k hk a ha orderRng nw σ hw => ?_⟩
  exact missedTimed_chance hν (P.niterations hk) (D.niterations k) (T.niterations k) (fun cur' h1 h2 => (L cur' h1 h2).niterations k) ha
    orderRng σ hw

/-- C90: so it is with the default options, for any operators of the set and on any data set. -/
theorem C90_default_timed_schedule (hν : ∀ b, FullLaw (ν b)) (hE : RustEnv E) (hexp : ∀ x : Fl ℚ, (E.libm.exp x).lt (.fin 0) = false)
    (hD : E.D ≤ 65505) (sqrt : Fl ℚ → Fl ℚ) (finiteMax : Nat) {ops : List OpId}
    (hknown : ∀ op ∈ ops, 1 ≤ op.arity ∧ op.arity ≤ E.D ∧ E.ops.known op.arity op.id = true)
    {d : Dataset ℚ} (hd : d.WF) (hrows : 0 < d.x.cols) (hf : 1 ≤ d.x.rows) (hf' : d.x.rows ≤ 65535)
    {o : SOptions ℚ} (ho : o = { SOptions.default E.D sqrt finiteMax with operators := Operators.of E.D ops })
    (T : Target GridDraw o d ops 30 t cs l c) :
    ∃ ε : ℝ≥0∞, ε ≠ 0 ∧ ∀ niterations, niterations * 31 * 27 < 2 ^ 53 → ∀ (orderRng : Rng (Fl ℚ)) (nw : Nat) (σ : Clock { o with niterations := niterations } d), 1 ≤ nw →
      Draws.law ν (MissedTimed σ nw orderRng c
        (lossToCost E.RT l c o.parsimony o.useBaseline d.baseline)) ≤ (1 - ε) ^ (niterations * 31) := by
  obtain ⟨h1, h2⟩ := C75_default hD sqrt finiteMax (Operators.of E.D ops)
  subst ho
  have P : SensibleSearch _ d ops := ⟨hE, h1, h2, rfl, hknown, hd, hrows, hf, hf'⟩
  obtain ⟨ε, h0, h⟩ := C90_timed_schedule hν P (C82_default_draws hE hexp sqrt finiteMax _) T
  refine ⟨ε, h0, fun k hk orderRng nw σ hw => ?_⟩
  refine (h k hk 0 (fun j limit _ _ hl => ?_) orderRng nw σ hw).trans (by rw [Nat.sub_zero]; rfl)
  unfold getCurMaxsize at hl
  simp only at hl
  rw [if_neg] at hl
  · exact (Option.some.inj hl).le
  · have : Fl.lt (.fin 0) (lit32 0) = false := by decide +kernel
    show ¬ ((Fl.lt (.fin 0) (lit32 0) && _) = true)
    rw [this]; simp

end

/-! ## Clocks -/

/-- A chooser is a clock. -/
def Chooser.clock [E : Env ℚ] (σ : Chooser) (o : SOptions ℚ) (d : Dataset ℚ) : Clock o d where
  see past p := σ (past.map Prod.fst) p.blind
  timely := by
    intro past past' p p' h1 h2
    rw [h2.state]
    congr 1
    induction h1 with
    | nil => rfl
    | cons h _ ih => rw [List.map_cons, List.map_cons, h.1, ih]

/-- The evaluations of a task. -/
def Task.work [E : Env ℚ] (o : SOptions ℚ) (d : Dataset ℚ) (t : Task ℚ) : ℕ := ((t.run o d).map (·.evals)).getD 0

theorem Task.SameDraws.work [E : Env ℚ] {o : SOptions ℚ} {d : Dataset ℚ} {t t' : Task ℚ} (h : t.SameDraws o d t') (hb : t.on t'.ps.rng = t') :
    t.work o d = t'.work o d := by
  obtain ⟨a, b, ⟨r, h1⟩, h2⟩ := h
  have h3 := h1 t.ps.rng ⟨fun _ _ => rfl, fun _ _ => rfl⟩
  have h4 := h1 _ h2
  rw [hb] at h4
  rw [show t.on t.ps.rng = t from rfl] at h3
  unfold Task.work
  rw [h3, h4]
  rfl

theorem Par.SoFar.works [E : Env ℚ] {o : SOptions ℚ} {d : Dataset ℚ} {p p' : Par ℚ} (h : p.SoFar o d p') :
    p.pending.map (Task.work o d) = p'.pending.map (Task.work o d) := by
  have hb := congrArg Par.pending h.state
  unfold Par.blind Par.feed at hb
  simp only at hb
  have hlen := congrArg List.length hb
  simp only [List.length_map] at hlen
  apply List.ext_getElem?
  intro j
  have hj := congrArg (fun l => l[j]?) hb
  simp only [List.getElem?_map] at hj ⊢
  cases h1 : p.pending[j]? with
  | none =>
    rw [h1] at hj
    cases h2 : p'.pending[j]? with
    | none => rfl
    | some t' => rw [h2] at hj; cases hj
  | some t =>
    rw [h1] at hj
    cases h2 : p'.pending[j]? with
    | none => rw [h2] at hj; cases hj
    | some t' =>
      rw [h2] at hj
      simp only [Option.map_some, Option.some.injEq] at hj ⊢
      refine (h.flight j t t' h1 h2).work ?_
      have := congrArg (fun x => Task.on x t'.ps.rng) hj
      exact this

/-- The clock of workers that take as long as the task evaluates: the task in flight with the fewest evaluations is received. -/
def shortest [E : Env ℚ] (o : SOptions ℚ) (d : Dataset ℚ) : Clock o d where
  see _ p := (p.pending.map (Task.work o d)).findIdx fun n => decide (∀ k ∈ p.pending.map (Task.work o d), n ≤ k)
  timely := by
    intro past past' p p' _ h
    rw [h.works]

end SR

namespace SR.Demo
open MeasureTheory Rand
open scoped ENNReal
local instance chanceTimedEnv : Env ℚ := rustEnv

/-- C90 (the hypotheses are met): a search with the default options for `x0 + x0`, with four workers that take as long as the task
evaluates. -/
example (orderRng : Rng (Fl ℚ)) : ∃ ε : ℝ≥0∞, ε ≠ 0 ∧ ∀ niterations, niterations * 31 * 27 < 2 ^ 53 →
    Draws.law (fun _ => uniformBelow (2 ^ 64))
      (MissedTimed (shortest { defaultOpts with niterations := niterations } data) 4 orderRng 3 (.fin 0)) ≤ (1 - ε) ^ (niterations * 31) := by
  obtain ⟨ε, h0, h⟩ := C90_default_timed_schedule (E := rustEnv) (fun _ => uniformBelow_full le_rfl) rustEnv_ok (fun _ => rfl) (by decide) id
    52 (ops := opIds) (by decide) data_wf (by decide) (by decide) (by decide) (o := defaultOpts) rfl defaultTarget
  have hv : (lossToCost rustEnv.RT (.fin 0 : Fl ℚ) 3 defaultOpts.parsimony defaultOpts.useBaseline data.baseline) = .fin 0 := by
    decide +kernel
  refine ⟨ε, h0, fun k hk => ?_⟩
  have := h k hk orderRng 4 (shortest _ _) (by decide)
  rwa [hv] at this

end SR.Demo
