import Verif.Spec.Chooser
import Verif.Props.ChanceDefault
import Verif.Props.Progress
/-
C90, with the multi-worker driver and populations that exchange what they find: whoever decides the schedule, without knowing the
draws to come, the search finds every expression the constraints allow with a probability that tends to one.
-/
namespace SR
open MeasureTheory Chance Rand
open scoped ENNReal
section
variable [E : Env ℚ]
variable {S : Fl ℚ → Prop} {o : SOptions ℚ} {d : Dataset ℚ} {ops : List OpId} {N cur : Nat} {t : Tree} {cs : List (Fl ℚ)}
  {l : Fl ℚ} {c : Nat} {ν : Bool → Measure ℕ} {σ : Chooser} {nw : Nat}

theorem ChosenRun.run {past tr : List ParEvent} {p q : Par ℚ} (h : ChosenRun σ o d nw past p tr q) : ParRun o d nw p tr q := by
  induction h with
  | refl past p => exact .refl p
  | cons hs _ _ ih =>
    have := (ParRun.snoc (.refl _) hs).trans ih
    simpa using this

/-! ## Generators -/

omit E in
theorem Task.on_on (t : Task ℚ) (g g' : Rng (Fl ℚ)) : (t.on g).on g' = t.on g' := rfl

omit E in
theorem Shared.feed_feed (s : Shared ℚ) (f f' : Nat → Rng (Fl ℚ)) : (s.feed f).feed f' = s.feed f' := by
  unfold Shared.feed
  simp only [List.mapIdx_mapIdx, Shared.mk.injEq, true_and, and_true]
  congr 1
  funext i x
  cases x <;> rfl

omit E in
theorem Par.feed_feed (p : Par ℚ) (f f' : Nat → Rng (Fl ℚ)) : (p.feed f).feed f' = p.feed f' := by
  simp [Par.feed, Shared.feed_feed, Task.on, Function.comp_def]

omit E in
theorem Par.feed_blind (p : Par ℚ) (f : Nat → Rng (Fl ℚ)) : (p.feed f).blind = p.blind := Par.feed_feed _ _ _

omit E in
theorem Par.feed_popIdx (p : Par ℚ) (f : Nat → Rng (Fl ℚ)) : (p.feed f).pending.map (·.popIdx) = p.pending.map (·.popIdx) := by
  simp [Par.feed, Task.on, Function.comp_def]

omit E in
theorem Chooser.allows_feed {past : List ParEvent} {p : Par ℚ} {e : ParEvent} {f : Nat → Rng (Fl ℚ)} :
    σ.Allows past (p.feed f) e ↔ σ.Allows past p e := by
  unfold Chooser.Allows
  rw [Par.feed_popIdx, Par.feed_blind, show (p.feed f).pending.length = p.pending.length by simp [Par.feed]]

omit E in
theorem Par.feed_inv {f : Nat → Rng (Fl ℚ)} {p : Par ℚ} {np : Nat} : (p.feed f).Inv o nw np ↔ p.Inv o nw np := by
  have hl : (p.feed f).shared.pops.length = p.shared.pops.length := by simp [Par.feed, Shared.feed]
  have hpl : (p.feed f).pending.length = p.pending.length := by simp [Par.feed]
  have hn : ∀ i : Nat, (p.feed f).shared.pops[i]? = some none ↔ p.shared.pops[i]? = some none := by
    intro i
    simp only [Par.feed, Shared.feed, List.getElem?_mapIdx]
    cases p.shared.pops[i]? with
    | none => simp
    | some x => cases x <;> simp
  have hidx := Par.feed_popIdx p f
  have hlt : (∀ t ∈ (p.feed f).pending, t.popIdx < np) ↔ ∀ t ∈ p.pending, t.popIdx < np := by
    constructor
    · intro h t ht
      exact h (t.on (f t.popIdx)) (List.mem_map_of_mem ht)
    · intro h t ht
      obtain ⟨t', h1, rfl⟩ := List.mem_map.mp ht
      exact h t' h1
  have hnil : (p.feed f).pending = [] ↔ p.pending = [] := by simp [Par.feed]
  constructor
  · intro h
    exact ⟨hl ▸ h.pops, h.bestSub, h.total, h.started, hpl ▸ h.flight, h.workers, hlt.mp h.lt, hidx ▸ h.nodup,
      fun i hi => (hn i).symm.trans ((h.place i hi).trans (by rw [hidx])), h.iter,
      fun hc => ⟨hnil.mp (h.idle hc).1, (h.idle hc).2⟩, fun hc => by have := h.active hc; rw [hidx] at this; exact this, h.inner⟩
  · intro h
    exact ⟨hl.trans h.pops, h.bestSub, h.total, h.started, h.flight.trans hpl.symm, h.workers, hlt.mpr h.lt, by rw [hidx]; exact h.nodup,
      fun i hi => (hn i).trans ((h.place i hi).trans (by rw [hidx])), h.iter,
      fun hc => ⟨hnil.mpr (h.idle hc).1, (h.idle hc).2⟩, fun hc => by rw [hidx]; exact h.active hc, h.inner⟩

theorem Task.on_steady {tk : Task ℚ} {g : Rng (Fl ℚ)} : (tk.on g).Steady o d ops N ↔ tk.Steady o d ops N := by
  constructor
  · intro h
    exact ⟨⟨⟨h.sound.ps.size, h.sound.ps.pop, h.sound.ps.ev⟩, h.sound.cur⟩, h.stats, h.ctx⟩
  · intro h
    exact ⟨⟨⟨h.sound.ps.size, h.sound.ps.pop, h.sound.ps.ev⟩, h.sound.cur⟩, h.stats, h.ctx⟩

theorem Par.feed_steady {f : Nat → Rng (Fl ℚ)} {p : Par ℚ} : (p.feed f).Steady o d ops N ↔ p.Steady o d ops N := by
  unfold Par.Steady
  refine and_congr Shared.feed_steady ?_
  constructor
  · intro h t ht
    exact Task.on_steady.mp (h (t.on (f t.popIdx)) (List.mem_map_of_mem ht))
  · intro h t ht
    obtain ⟨t', h1, rfl⟩ := List.mem_map.mp ht
    exact Task.on_steady.mpr (h t' h1)

/-! ## Steps that draw nothing -/

theorem quiet_step (Q : RunSetting o d ops N) {p : Par ℚ} (hi : p.Inv o nw o.populations)
    (hq : ¬ (p.pc = .inner ∧ ¬ (p.inFlight < nw ∧ p.nextTask < p.order.length))) :
    (∀ f e r, ¬ ParStep o d nw (p.feed f) e r) ∨ ∃ e1 p1, (∀ i, e1 ≠ .receive i) ∧ ParStep o d nw p e1 p1 ∧
      ∀ f e r, ParStep o d nw (p.feed f) e r → e = e1 ∧ r = p1.feed f := by
  have hlen : ∀ f, (p.feed f).shared.pops.length = p.shared.pops.length := fun f => by simp [Par.feed, Shared.feed]
  cases hpc : p.pc with
  | idle =>
    by_cases hlt : p.iter < o.niterations
    · obtain ⟨order, rng, hsh, -⟩ := C33_shuffle_perm (List.range p.shared.pops.length) p.orderRng
      refine .inr ⟨.start, _, fun i hc => (nomatch hc), .start hpc hlt hsh, fun f e r hs => ?_⟩
      cases hs with
      | start h1 h2 h3 =>
        rw [hlen] at h3
        rw [show (p.feed f).orderRng = p.orderRng from rfl, hsh, Option.some.injEq, Prod.mk.injEq] at h3
        obtain ⟨rfl, rfl⟩ := h3
        exact ⟨rfl, rfl⟩
      | enter h1 => exact absurd (hpc.symm.trans h1) (by decide)
      | leave h1 => exact absurd (hpc.symm.trans h1) (by decide)
      | dispatch h1 => exact absurd (hpc.symm.trans h1) (by decide)
      | skip h1 => exact absurd (hpc.symm.trans h1) (by decide)
      | receive h1 => exact absurd (hpc.symm.trans h1) (by decide)
    · refine .inl fun f e r hs => ?_
      cases hs with
      | start h1 h2 h3 => exact hlt h2
      | enter h1 => exact absurd (hpc.symm.trans h1) (by decide)
      | leave h1 => exact absurd (hpc.symm.trans h1) (by decide)
      | dispatch h1 => exact absurd (hpc.symm.trans h1) (by decide)
      | skip h1 => exact absurd (hpc.symm.trans h1) (by decide)
      | receive h1 => exact absurd (hpc.symm.trans h1) (by decide)
  | outer =>
    by_cases hcond : p.nextTask < p.order.length ∨ 0 < p.inFlight
    · refine .inr ⟨.other, _, fun i hc => (nomatch hc), .enter hpc hcond, fun f e r hs => ?_⟩
      cases hs with
      | start h1 => exact absurd (hpc.symm.trans h1) (by decide)
      | enter h1 => exact ⟨rfl, rfl⟩
      | leave h1 h2 => exact absurd hcond h2
      | dispatch h1 => exact absurd (hpc.symm.trans h1) (by decide)
      | skip h1 => exact absurd (hpc.symm.trans h1) (by decide)
      | receive h1 => exact absurd (hpc.symm.trans h1) (by decide)
    · refine .inr ⟨.other, _, fun i hc => (nomatch hc), .leave hpc hcond, fun f e r hs => ?_⟩
      cases hs with
      | start h1 => exact absurd (hpc.symm.trans h1) (by decide)
      | enter h1 h2 => exact absurd h2 hcond
      | leave h1 => exact ⟨rfl, rfl⟩
      | dispatch h1 => exact absurd (hpc.symm.trans h1) (by decide)
      | skip h1 => exact absurd (hpc.symm.trans h1) (by decide)
      | receive h1 => exact absurd (hpc.symm.trans h1) (by decide)
  | inner =>
    have hgo : p.inFlight < nw ∧ p.nextTask < p.order.length := by
      by_contra h; exact hq ⟨hpc, h⟩
    have hord : p.order[p.nextTask]? = some p.order[p.nextTask] := List.getElem?_eq_getElem hgo.2
    generalize p.order[p.nextTask]'hgo.2 = i at hord
    have hperm := (hi.active (by rw [hpc]; decide)).2.1
    have him : i < o.populations := by simpa using hperm.mem_iff.mp (List.mem_of_getElem? hord)
    obtain ⟨⟨ot, s⟩, hd⟩ := dispatch_total Q.warmup (s := p.shared) (i := i) (by rw [hi.pops]; exact him)
    cases ot with
    | some tk =>
      obtain rfl : tk.popIdx = i := (dispatch_task hd).2.1
      refine .inr ⟨.dispatch tk.popIdx, _, fun i hc => (nomatch hc), .dispatch hpc hgo.1 hord hd, fun f e r hs => ?_⟩
      have hd' := dispatch_feed hd f
      cases hs with
      | start h1 => exact absurd (hpc.symm.trans h1) (by decide)
      | enter h1 => exact absurd (hpc.symm.trans h1) (by decide)
      | leave h1 => exact absurd (hpc.symm.trans h1) (by decide)
      | @dispatch i' _ _ h1 h2 h3 h4 =>
        obtain rfl : tk.popIdx = i' := Option.some.inj (hord.symm.trans h3)
        rw [show (p.feed f).shared = p.shared.feed f from rfl, hd'] at h4
        simp only [Option.some.injEq, Prod.mk.injEq] at h4
        obtain ⟨rfl, rfl⟩ := h4
        refine ⟨rfl, ?_⟩
        simp [Par.feed]
      | @skip i' _ h1 h2 h3 h4 =>
        obtain rfl : tk.popIdx = i' := Option.some.inj (hord.symm.trans h3)
        rw [show (p.feed f).shared = p.shared.feed f from rfl, hd'] at h4
        simp at h4
      | receive h1 h2 => exact absurd hgo h2
    | none =>
      obtain ⟨h1', h2'⟩ := dispatch_skip hd
      refine .inr ⟨.other, _, fun i hc => (nomatch hc), .skip hpc hgo.1 hord hd, fun f e r hs => ?_⟩
      have hd' : (p.shared.feed f).dispatch o i = some (none, p.shared.feed f) := by
        unfold Shared.dispatch
        have : (p.shared.feed f).pops[i]? = some none := by
          rw [Shared.feed, List.getElem?_mapIdx, h1']; rfl
        rw [this]; rfl
      cases hs with
      | start h1 => exact absurd (hpc.symm.trans h1) (by decide)
      | enter h1 => exact absurd (hpc.symm.trans h1) (by decide)
      | leave h1 => exact absurd (hpc.symm.trans h1) (by decide)
      | @dispatch i' _ _ h1 h2 h3 h4 =>
        obtain rfl : i = i' := Option.some.inj (hord.symm.trans h3)
        rw [show (p.feed f).shared = p.shared.feed f from rfl, hd'] at h4
        simp at h4
      | skip h1 => exact ⟨rfl, rfl⟩
      | receive h1 h2 => exact absurd hgo h2

/-! ## Receiving a result -/

/-- What the application of a result returns has taken in the hall of fame of the task. -/
theorem stepBody_inv {e1 : Engine ℚ} {s1 : Shared ℚ} {tk : Task ℚ} {g0 g : Rng (Fl ℚ)} {x : Engine ℚ}
    (hx : stepBody o d e1 s1 tk g0 = some (x, g)) :
    ∃ r g1 hall, taskBody o d tk g0 = some (r, g1) ∧ s1.hall.update o.cx tk.cur r.2.2.2.1.members = some hall ∧
      Hall.Improves hall x.shared.hall ∧ x.shared.totalEvals < 2 ^ 64 := by
  unfold stepBody at hx
  rw [Rand.run_bind] at hx
  rcases h1 : taskBody o d tk g0 with _ | ⟨r, g1⟩
  · rw [h1] at hx; cases hx
  rw [h1] at hx
  simp only at hx
  rw [Rand.run_bind] at hx
  rcases h2 : s1.hall.update o.cx tk.cur r.2.2.2.1.members with _ | hall
  · rw [h2] at hx; cases hx
  rw [h2] at hx
  simp only [Rand.lift, Option.map_some] at hx
  rw [Rand.run_bind] at hx
  rcases h3 : absorbMembers o tk.cur r.1.pop (hall, s1.best) with _ | ⟨hall', best⟩
  · rw [h3] at hx; cases hx
  rw [h3] at hx
  simp only [Rand.lift, Option.map_some] at hx
  rw [Rand.run_bind] at hx
  split at hx
  · cases hx
  · refine ⟨r, g1, hall, rfl, h2, ?_⟩
    rw [Rand.run_pure] at hx
    simp only [Option.some.injEq, Prod.mk.injEq] at hx
    obtain ⟨rfl, -⟩ := hx
    exact ⟨(absorb_progress h3).1, by show satAdd64 _ _ < _; unfold satAdd64; omega⟩

/-- The application of a result, for all generators at once. -/
theorem apply_body {s1 : Shared ℚ} {tk : Task ℚ} (hi : tk.popIdx < s1.bestSub.length ∧ tk.popIdx < s1.pops.length) (e1 : Engine ℚ)
    (f : Nat → Rng (Fl ℚ)) (s : Shared ℚ) :
    (∃ res, (tk.on (f tk.popIdx)).run o d = some res ∧ (s1.feed f).apply o res = some s) ↔
      ∃ e' g, stepBody o d e1 s1 tk (f tk.popIdx) = some (e', g) ∧ s = e'.shared.feed (Function.update f tk.popIdx g) := by
  have h := apply_on (o := o) (d := d) hi e1 f
  unfold Engine.complete at h
  simp only [Option.bind_eq_bind] at h
  constructor
  · rintro ⟨res, h1, h2⟩
    rw [h1, Option.bind_some, h2, Option.bind_some] at h
    have h := h.symm
    rw [Option.map_eq_some_iff] at h
    obtain ⟨⟨e', g⟩, h3, h4⟩ := h
    exact ⟨e', g, h3, (congrArg Engine.shared h4).symm⟩
  · rintro ⟨e', g, h1, rfl⟩
    rw [h1, Option.map_some, Option.bind_eq_some_iff] at h
    obtain ⟨res, h2, h⟩ := h
    rw [Option.bind_eq_some_iff] at h
    obtain ⟨s', h3, h4⟩ := h
    rw [Option.some.injEq] at h4
    exact ⟨res, h2, by rw [show s' = e'.shared.feed (Function.update f tk.popIdx g) from congrArg Engine.shared h4] at h3; exact h3⟩

/-- With the generators that the draws make, every task returns and every result can be applied. -/
theorem body_total (P : SensibleSearch o d ops) {s1 : Shared ℚ} {tk : Task ℚ}
    (hi : tk.popIdx < s1.bestSub.length ∧ tk.popIdx < s1.pops.length) (hs1 : s1.Steady o d ops o.maxsize)
    (htk : tk.Steady o d ops o.maxsize) (e1 : Engine ℚ) (ω : Draws) :
    ∃ e' g, stepBody o d e1 s1 tk (ω.rng tk.popIdx) = some (e', g) := by
  have Q := P.setting
  have ht' : (tk.on (ω.rng tk.popIdx)).Steady o d ops o.maxsize := Task.on_steady.mpr htk
  obtain ⟨res, hres, -⟩ := Task.run_total Q ht'
  have hr := (task_done Q.search ht'.sound hres).sound Q.search.evol ht'.sound
  have hst : (s1.feed ω.rng).Steady o d ops o.maxsize := Shared.feed_steady.mpr hs1
  have hidx := (run_popIdx hres).1
  cases ha : (s1.feed ω.rng).apply o res with
  | none =>
    exfalso
    refine apply_not_stuck P.env P.migrants (fun k => ?_) (apply_stuck Q hst.sound hr ?_ ha)
    · exact (run_stream hres).floats (fun k => draws_unit ω tk.popIdx k) k
    · rw [hidx]; simpa [Shared.feed, Task.on] using hi
  | some s =>
    obtain ⟨e', g, h, -⟩ := (apply_body hi e1 ω.rng s).mp ⟨res, hres, ha⟩
    exact ⟨e', g, h⟩

/-- A task whose size limit allows the target finds it with the probability of one pass at least. -/
theorem body_chance (hν : ∀ b, FullLaw (ν b)) (P : SensibleSearch o d ops) (D : DrawsOk S o) {s1 : Shared ℚ} {tk : Task ℚ}
    (hi : tk.popIdx < s1.bestSub.length ∧ tk.popIdx < s1.pops.length) (hs1 : s1.Steady o d ops o.maxsize)
    (htk : tk.Steady o d ops o.maxsize) (e1 : Engine ℚ) {p : ℝ≥0∞} (T : Target S o d ops tk.cur t cs l c)
    (L : Luck ν o d tk.cur t cs p) :
    p ≤ Draws.law ν (Ev tk.popIdx (stepBody o d e1 s1 tk) fun e' =>
      e'.shared.hall.AtMost c (lossToCost E.RT l c o.parsimony o.useBaseline d.baseline)) := by
  have Q := P.setting
  refine (taskBody_chance hν Q D htk T L tk.popIdx).trans (measure_mono ?_)
  rintro ω ⟨r, g, hr, m, hm, hle⟩
  obtain ⟨e', g', h1⟩ := body_total P hi hs1 htk e1 ω
  obtain ⟨r', g1, hall, k1, k2, k3, -⟩ := stepBody_inv h1
  rw [hr, Option.some.injEq, Prod.mk.injEq] at k1
  obtain ⟨rfl, rfl⟩ := k1
  refine ⟨e', g', h1, ?_⟩
  have ht' : (tk.on (ω.rng tk.popIdx)).Steady o d ops o.maxsize := Task.on_steady.mpr htk
  obtain ⟨res, hres, -⟩ := Task.run_total Q ht'
  have hsnd := (task_done Q.search ht'.sound hres).sound Q.search.evol ht'.sound
  have hseen : r.2.2.2.1.Sound o d ops o.maxsize := by
    have : res.bestSeen = r.2.2.2.1 := by
      unfold Task.run at hres
      rw [show taskBody o d (tk.on (ω.rng tk.popIdx)) (tk.on (ω.rng tk.popIdx)).ps.rng = some (r, g) from hr] at hres
      simp only [Option.map_some, Option.some.injEq] at hres
      rw [← hres]
    rw [← this]; exact hsnd.seen
  have hbs : ∀ m ∈ r.2.2.2.1.members, m.Sound o d ops o.maxsize := by
    intro m hm
    obtain ⟨c, hc⟩ := mem_members.mp hm
    exact (hseen.entry c m hc).1
  have hc := T.le (Q.search.evol.down htk.sound.cur)
  obtain ⟨a1, rfl, a3, a4⟩ := hseen.entry c m hm
  have := update_atMost Q.search htk.sound.cur r.2.2.2.1.members hs1.sound.hall hbs k2 m (mem_members.mpr ⟨_, hm⟩)
    (feasible_at Q.search.evol a1 a4 hc) a3 (hc.trans htk.sound.cur)
  obtain ⟨b, hb, hb2⟩ := this.improves k3
  exact ⟨b, hb, Fl.le_trans hb2 hle⟩

omit E in
theorem task_split : ∀ {a a' b b' : List (Task ℚ)} {x x' : Task ℚ}, a ++ x :: b = a' ++ x' :: b' → x.popIdx = x'.popIdx →
    ((a ++ x :: b).map (·.popIdx)).Nodup → a = a' ∧ x = x' ∧ b = b'
  | [], [], b, b', x, x', h, _, _ => by
    simp only [List.nil_append, List.cons.injEq] at h
    exact ⟨rfl, h.1, h.2⟩
  | [], y :: a', b, b', x, x', h, hx, hn => by
    simp only [List.nil_append, List.cons_append, List.cons.injEq] at h
    obtain ⟨rfl, rfl⟩ := h
    simp [hx] at hn
  | y :: a, [], b, b', x, x', h, hx, hn => by
    simp only [List.nil_append, List.cons_append, List.cons.injEq] at h
    obtain ⟨rfl, rfl⟩ := h
    simp [hx] at hn
  | y :: a, y' :: a', b, b', x, x', h, hx, hn => by
    simp only [List.cons_append, List.cons.injEq] at h
    obtain ⟨rfl, h⟩ := h
    simp only [List.cons_append, List.map_cons, List.nodup_cons] at hn
    obtain ⟨rfl, h2, h3⟩ := task_split h hx hn.2
    exact ⟨rfl, h2, h3⟩

/-- The state after the result of a task has been received. -/
def Par.received (p : Par ℚ) (a b : List (Task ℚ)) (s : Shared ℚ) : Par ℚ :=
  { p with shared := s, pc := .outer, inFlight := p.inFlight - 1, pending := a ++ b }

/-- The reception of the task `tk`, for all generators at once. -/
theorem receive_step {p : Par ℚ} (hi : p.Inv o nw o.populations) (hpc : p.pc = .inner)
    (hg : ¬ (p.inFlight < nw ∧ p.nextTask < p.order.length)) {a b : List (Task ℚ)} {tk : Task ℚ} (hp : p.pending = a ++ tk :: b)
    (e1 : Engine ℚ) (f : Nat → Rng (Fl ℚ)) (q : Par ℚ) :
    ParStep o d nw (p.feed f) (.receive tk.popIdx) q ↔ ∃ e' g, stepBody o d e1 p.shared tk (f tk.popIdx) = some (e', g) ∧
      q = (p.received a b e'.shared).feed (Function.update f tk.popIdx g) := by
  have hn : ((a ++ tk :: b).map (·.popIdx)).Nodup := hp ▸ hi.nodup
  have hidx : tk.popIdx < p.shared.bestSub.length ∧ tk.popIdx < p.shared.pops.length := by
    rw [hi.bestSub, hi.pops]
    have := hi.lt tk (by rw [hp]; simp)
    exact ⟨this, this⟩
  have hpf : (p.feed f).pending = a.map (fun t => t.on (f t.popIdx)) ++ tk.on (f tk.popIdx) :: b.map (fun t => t.on (f t.popIdx)) := by
    simp [Par.feed, hp]
  have hres : ∀ (s : Shared ℚ) (g : Rng (Fl ℚ)),
      ({ p.feed f with
          shared := s.feed (Function.update f tk.popIdx g), pc := .outer, inFlight := (p.feed f).inFlight - 1
          pending := a.map (fun t => t.on (f t.popIdx)) ++ b.map (fun t => t.on (f t.popIdx)) } : Par ℚ) =
        (p.received a b s).feed (Function.update f tk.popIdx g) := by
    intro s g
    unfold Par.received Par.feed
    simp only [List.map_append, Par.mk.injEq, true_and]
    have hne : ∀ t ∈ a ++ b, t.popIdx ≠ tk.popIdx := by
      simp only [List.map_append, List.map_cons, List.nodup_append, List.nodup_cons, List.mem_map, List.mem_cons] at hn
      intro t ht
      rcases List.mem_append.mp ht with ht | ht
      · exact fun h => hn.2.2 t.popIdx ⟨t, ht, rfl⟩ tk.popIdx (.inl rfl) h
      · exact fun h => hn.2.1.1 ⟨t, ht, h⟩
    rw [← List.map_append, ← List.map_append]
    refine List.map_congr_left fun t ht => ?_
    rw [Function.update_of_ne (hne t ht)]
  constructor
  · intro h
    generalize hev : ParEvent.receive tk.popIdx = ev at h
    cases h with
    | start => cases hev
    | enter => cases hev
    | leave => cases hev
    | dispatch => cases hev
    | skip => cases hev
    | @receive a' b' tk' res s h1 h2 h3 h4 h5 =>
      rw [ParEvent.receive.injEq] at hev
      have hn' : (((a.map (fun t => t.on (f t.popIdx)) ++ tk.on (f tk.popIdx) :: b.map (fun t => t.on (f t.popIdx)) : List (Task ℚ))).map
          (·.popIdx)).Nodup := by
        rw [← hpf, Par.feed_popIdx]; exact hi.nodup
      obtain ⟨rfl, rfl, rfl⟩ := task_split (hpf.symm.trans h3) hev hn'
      obtain ⟨e', g, k1, rfl⟩ := (apply_body hidx e1 f s).mp ⟨res, h4, h5⟩
      exact ⟨e', g, k1, hres _ _⟩
  · rintro ⟨e', g, h1, rfl⟩
    obtain ⟨res, h2, h3⟩ := (apply_body hidx e1 f _).mpr ⟨e', g, h1, rfl⟩
    rw [← hres]
    exact .receive (t := tk.on (f tk.popIdx)) hpc hg hpf h2 h3

/-! ## Many steps -/

/-- How many cycles may still be without a chance: the tasks in flight whose size limit does not allow the target, and those to come. -/
def Par.idleCycles (cur a : Nat) (p : Par ℚ) : Nat :=
  p.pending.countP (fun t => decide (t.cur < cur)) + (a - p.shared.counters.started)

/-- The draws with which a chosen run of at most `n` steps completes `M` cycles without the target. -/
def chosenMiss (σ : Chooser) (nw : Nat) (o : SOptions ℚ) (d : Dataset ℚ) (c : Nat) (v : Fl ℚ) (M : Nat) (past : List ParEvent) (p : Par ℚ)
    (n : Nat) : Set Draws :=
  {ω | ∃ tr q, tr.length ≤ n ∧ ChosenRun σ o d nw past (p.feed ω.rng) tr q ∧ M ≤ q.shared.counters.completed ∧ ¬ q.shared.hall.AtMost c v}

/-- A step that draws nothing completes no cycle and does not add to the cycles without a chance. -/
theorem quiet_counts {p q : Par ℚ} {e : ParEvent} (hi : p.Inv o nw o.populations) {a : Nat}
    (ha : ∀ k cur', a ≤ k → k < o.niterations * o.populations → getCurMaxsize o (o.niterations * o.populations)
      (o.niterations * o.populations - k) = some cur' → cur ≤ cur') (hs : ParStep o d nw p e q) (he : ∀ i, e ≠ .receive i) :
    q.shared.counters.completed = p.shared.counters.completed ∧ q.idleCycles cur a ≤ p.idleCycles cur a ∧
      q.shared.totalEvals = p.shared.totalEvals := by
  cases hs with
  | start => exact ⟨rfl, le_rfl, rfl⟩
  | enter => exact ⟨rfl, le_rfl, rfl⟩
  | leave => exact ⟨rfl, le_rfl, rfl⟩
  | skip => exact ⟨rfl, le_rfl, rfl⟩
  | receive => exact absurd rfl (he _)
  | @dispatch i tk s hpc hw hord hd =>
    obtain ⟨-, -, -, hcur, rfl⟩ := dispatch_task hd
    refine ⟨rfl, ?_, rfl⟩
    unfold Par.idleCycles
    simp only [List.countP_append, List.countP_singleton]
    obtain ⟨k1, k2, k3, k4, -⟩ := hi.active (by rw [hpc]; decide)
    have hnt : p.nextTask < o.populations := by
      have := (List.getElem?_eq_some_iff.mp hord).1
      have h2 := k2.length_eq
      simp only [List.length_range] at h2
      omega
    have hlt : p.shared.counters.started < o.niterations * o.populations := by
      have h5 : p.iter * o.populations ≤ o.niterations * o.populations := Nat.mul_le_mul_right _ hi.iter
      obtain ⟨k, hk⟩ : ∃ k, p.iter = k + 1 := ⟨p.iter - 1, by omega⟩
      rw [hk] at k4 h5
      simp only [Nat.add_sub_cancel] at k4
      rw [Nat.succ_mul] at h5
      omega
    by_cases hs : a ≤ p.shared.counters.started
    · have := ha _ tk.cur hs hlt (by rw [← hi.total]; exact hcur)
      rw [if_neg (by simpa using this)]
      omega
    · split <;> omega

/-- With nothing to dispatch, the only step is to receive a result. -/
theorem inner_receives {p : Par ℚ} {f : Nat → Rng (Fl ℚ)} {e : ParEvent} {r : Par ℚ} (hpc : p.pc = .inner)
    (hg : ¬ (p.inFlight < nw ∧ p.nextTask < p.order.length)) (h : ParStep o d nw (p.feed f) e r) : ∃ i, e = .receive i := by
  cases h with
  | start h1 => exact absurd (hpc.symm.trans h1) (by decide)
  | enter h1 => exact absurd (hpc.symm.trans h1) (by decide)
  | leave h1 => exact absurd (hpc.symm.trans h1) (by decide)
  | dispatch _ h2 h3 => exact absurd ⟨h2, (List.getElem?_eq_some_iff.mp h3).1⟩ hg
  | skip _ h2 h3 => exact absurd ⟨h2, (List.getElem?_eq_some_iff.mp h3).1⟩ hg
  | receive => exact ⟨_, rfl⟩

theorem apply_counts {s s' : Shared ℚ} {r : TaskResult ℚ} (h : s.apply o r = some s') :
    s'.counters = { s.counters with completed := s.counters.completed + 1 } := by
  unfold Shared.apply at h
  split at h
  · simp only [Option.bind_eq_bind, Option.bind_eq_some_iff, Option.some.injEq] at h
    obtain ⟨_, _, _, _, _, _, rfl⟩ := h
    rfl
  · cases h

theorem chosen_chance (hν : ∀ b, FullLaw (ν b)) (P : SensibleSearch o d ops) (D : DrawsOk S o) (T : Target S o d ops cur t cs l c)
    {ε : ℝ≥0∞} (L : ∀ cur', cur ≤ cur' → cur' ≤ o.maxsize → Luck ν o d cur' t cs ε) {a : Nat}
    (ha : ∀ k cur', a ≤ k → k < o.niterations * o.populations → getCurMaxsize o (o.niterations * o.populations)
      (o.niterations * o.populations - k) = some cur' → cur ≤ cur') (M : Nat) : ∀ (n : Nat) (past : List ParEvent) (p : Par ℚ),
    p.Inv o nw o.populations → p.Steady o d ops o.maxsize →
    Draws.law ν (chosenMiss σ nw o d c (lossToCost E.RT l c o.parsimony o.useBaseline d.baseline) M past p n) ≤
      (1 - ε) ^ (M - p.shared.counters.completed - p.idleCycles cur a) := by
  have := law_prob hν
  have : IsProbabilityMeasure (Draws.law ν) := by rw [law_eq]; unfold Chance.law; infer_instance
  have Q := P.setting
  have hle1 : (1 - ε : ℝ≥0∞) ≤ 1 := tsub_le_self
  generalize hv : lossToCost E.RT l c o.parsimony o.useBaseline d.baseline = v
  intro n
  induction n with
  | zero =>
    intro past p hi hs
    by_cases hM : M ≤ p.shared.counters.completed
    · rw [show M - p.shared.counters.completed - p.idleCycles cur a = 0 by omega, pow_zero]
      exact prob_le_one
    · have he : chosenMiss σ nw o d c v M past p 0 = ∅ := by
        refine Set.eq_empty_of_forall_notMem ?_
        rintro ω ⟨tr, q, h1, h2, h3, -⟩
        cases h2 with
        | refl => exact hM h3
        | cons => simp at h1
      rw [he, measure_empty]; exact zero_le
  | succ n ih =>
    intro past p hi hs
    by_cases hM : M ≤ p.shared.counters.completed
    · rw [show M - p.shared.counters.completed - p.idleCycles cur a = 0 by omega, pow_zero]
      exact prob_le_one
    have hfirst : ∀ ω ∈ chosenMiss σ nw o d c v M past p (n + 1), ∃ e q1 tr q, ParStep o d nw (p.feed ω.rng) e q1 ∧ σ.Allows past p e ∧
        tr.length ≤ n ∧ ChosenRun σ o d nw (past ++ [e]) q1 tr q ∧ M ≤ q.shared.counters.completed ∧ ¬ q.shared.hall.AtMost c v := by
      rintro ω ⟨tr, q, h1, h2, h3, h4⟩
      cases h2 with
      | refl => exact absurd h3 hM
      | cons k1 k2 k3 =>
        exact ⟨_, _, _, q, k1, Chooser.allows_feed.mp k2, by simpa using h1, k3, h3, h4⟩
    by_cases hq : p.pc = .inner ∧ ¬ (p.inFlight < nw ∧ p.nextTask < p.order.length)
    · obtain ⟨hpc, hg⟩ := hq
      -- the task the chooser takes
      cases htk : (p.pending.map (·.popIdx))[σ past p.blind % p.pending.length]? with
      | none =>
        have he : chosenMiss σ nw o d c v M past p (n + 1) = ∅ := by
          refine Set.eq_empty_of_forall_notMem fun ω hω => ?_
          obtain ⟨e, q1, tr, q, h1, h2, -⟩ := hfirst ω hω
          have hrec : ∃ i, e = .receive i := by
            exact inner_receives hpc hg h1
          obtain ⟨i, hi'⟩ := hrec
          have := h2 i hi'
          rw [htk] at this; cases this
        rw [he, measure_empty]; exact zero_le
      | some i =>
        rw [List.getElem?_map, Option.map_eq_some_iff] at htk
        obtain ⟨tk, htk, rfl⟩ := htk
        obtain ⟨hj, htk'⟩ := List.getElem?_eq_some_iff.mp htk
        generalize hjj : σ past p.blind % p.pending.length = j at hj htk htk'
        have hpend : p.pending = p.pending.take j ++ tk :: p.pending.drop (j + 1) := by
          rw [← htk', List.cons_getElem_drop_succ, List.take_append_drop]
        generalize p.pending.take j = xs at hpend
        generalize p.pending.drop (j + 1) = ys at hpend
        have hmem : tk ∈ p.pending := by rw [hpend]; simp
        have htks := hs.2 tk hmem
        have hidx : tk.popIdx < p.shared.bestSub.length ∧ tk.popIdx < p.shared.pops.length := by
          rw [hi.bestSub, hi.pops]
          exact ⟨hi.lt tk hmem, hi.lt tk hmem⟩
        let e1 : Engine ℚ := ⟨p.shared, p.orderRng, 0, [], 0, false⟩
        let m := stepBody o d e1 p.shared tk
        have hm : m.Consumes := inferInstanceAs (stepBody o d e1 p.shared tk).Consumes
        have hfirst' : ∀ ω ∈ chosenMiss σ nw o d c v M past p (n + 1), ∃ e' g tr q, m (ω.rng tk.popIdx) = some (e', g) ∧ tr.length ≤ n ∧
            ChosenRun σ o d nw (past ++ [.receive tk.popIdx])
              ((p.received xs ys e'.shared).feed (Function.update ω.rng tk.popIdx g)) tr q ∧
            M ≤ q.shared.counters.completed ∧ ¬ q.shared.hall.AtMost c v := by
          intro ω hω
          obtain ⟨e, q1, tr, q, h1, h2, h3, h4, h5, h6⟩ := hfirst ω hω
          have hrec : e = .receive tk.popIdx := by
            have hrec : ∃ i, e = .receive i := by
              exact inner_receives hpc hg h1
            obtain ⟨i, hi'⟩ := hrec
            have := h2 i hi'
            rw [List.getElem?_map, hjj, htk, Option.map_some, Option.some.injEq] at this
            rw [hi', this]
          subst hrec
          obtain ⟨e', g, k1, rfl⟩ := (receive_step hi hpc hg hpend e1 ω.rng q1).mp h1
          exact ⟨e', g, tr, q, k1, h3, h4, h5, h6⟩
        have hret : ∀ (ω : Draws) (e' : Engine ℚ) (g : Rng (Fl ℚ)), m (ω.rng tk.popIdx) = some (e', g) →
            (p.received xs ys e'.shared).Inv o nw o.populations ∧ (p.received xs ys e'.shared).Steady o d ops o.maxsize ∧
            e'.shared.counters.completed = p.shared.counters.completed + 1 ∧ e'.shared.counters.started = p.shared.counters.started ∧
            e'.shared.totalEvals < 2 ^ 64 := by
          intro ω e' g h
          have hstep := (receive_step hi hpc hg hpend e1 ω.rng _).mpr ⟨e', g, h, rfl⟩
          have h1 := (Par.feed_inv.mpr hi).step hstep
          have h2 := Par.Steady.step Q (Par.feed_inv.mpr hi) (Par.feed_steady.mpr hs) hstep
          obtain ⟨r, g1, hall, -, -, -, k4⟩ := stepBody_inv h
          obtain ⟨res, k5, k6⟩ := (apply_body hidx e1 ω.rng _).mpr ⟨e', g, h, rfl⟩
          have hc : e'.shared.counters = { p.shared.counters with completed := p.shared.counters.completed + 1 } := by
            have := apply_counts k6
            exact this
          exact ⟨Par.feed_inv.mp h1, Par.feed_steady.mp h2, by rw [hc], by rw [hc], k4⟩
        have key := markov_le (fun j : ℕ × Bool => ν j.2)
          (Ev.saturated (i := tk.popIdx) m fun e' => ¬ e'.shared.hall.AtMost c v) (G := chosenMiss σ nw o d c v M past p (n + 1))
          (q := (1 - ε) ^ (M - (p.shared.counters.completed + 1) -
            ((xs ++ ys).countP (fun t => decide (t.cur < cur)) + (a - p.shared.counters.started)))) (by
            intro ω hω
            obtain ⟨e', g, tr, q, k1, k2, k3, k4, k5⟩ := hfirst' ω hω
            refine ⟨e', g, k1, fun hat => k5 ?_⟩
            have hlt := (hret ω e' g k1).2.2.2.2
            exact Hall.AtMost.improves (h := ((p.received xs ys e'.shared).feed _).shared.hall) hat
              (C46_parallel (p := (p.received xs ys e'.shared).feed _) hlt k3.run).hall) (by
            rintro ω ⟨e', g, k1, k2⟩
            obtain ⟨r1, r2, r3, r4, -⟩ := hret ω e' g k1
            refine ⟨chosenMiss σ nw o d c v M (past ++ [.receive tk.popIdx]) (p.received xs ys e'.shared) n, ?_, ?_⟩
            · have := ih (past ++ [.receive tk.popIdx]) (p.received xs ys e'.shared) r1 r2
              rw [show (p.received xs ys e'.shared).shared.counters.completed = p.shared.counters.completed + 1 from r3,
                show (p.received xs ys e'.shared).idleCycles cur a = (xs ++ ys).countP (fun t => decide (t.cur < cur)) +
                  (a - p.shared.counters.started) by rw [← r4]; rfl] at this
              exact this
            · obtain ⟨x, y, ht⟩ := takes_of k1
              rw [ht.taken_eq]
              intro h hh hsame
              obtain ⟨e'', g', tr, q, l1, l2, l3, l4, l5⟩ := hfirst' h hh
              rw [ht h hsame, Option.some.injEq, Prod.mk.injEq] at l1
              obtain ⟨rfl, rfl⟩ := l1
              rw [feed_drop] at l3
              exact ⟨tr, q, l2, l3, l4, l5⟩)
        refine (show Draws.law ν _ ≤ _ from key).trans ?_
        have hcount : p.idleCycles cur a = (xs ++ ys).countP (fun t => decide (t.cur < cur)) +
            (if tk.cur < cur then 1 else 0) + (a - p.shared.counters.started) := by
          unfold Par.idleCycles
          rw [hpend]
          simp only [List.countP_append, List.countP_cons, decide_eq_true_eq]
          omega
        by_cases hcur : cur ≤ tk.cur
        · have hp := body_chance (t := t) (cs := cs) (l := l) (c := c) hν P D hidx hs.1 htks e1 (T.mono hcur) (L _ hcur htks.sound.cur)
          rw [hv] at hp
          have hA : Draws.law ν (Ev tk.popIdx m fun e' => ¬ e'.shared.hall.AtMost c v) ≤ 1 - ε := by
            have hsub : (Ev tk.popIdx m fun e' => ¬ e'.shared.hall.AtMost c v) ⊆ (Ev tk.popIdx m fun e' => e'.shared.hall.AtMost c v)ᶜ := by
              rintro ω ⟨e', g, k1, k2⟩ ⟨e0, g0, k1', k3⟩
              rw [k1, Option.some.injEq, Prod.mk.injEq] at k1'
              obtain ⟨rfl, rfl⟩ := k1'
              exact k2 k3
            refine (measure_mono hsub).trans ?_
            rw [prob_compl_eq_one_sub (Ev.measurable _ _)]
            exact tsub_le_tsub_left hp 1
          refine (mul_le_mul_right hA _).trans ?_
          rw [← pow_succ]
          rw [hcount, if_neg (by omega)]
          exact pow_le_pow_right_of_le_one' hle1 (by omega)
        · refine (mul_le_mul_right prob_le_one _).trans ?_
          rw [mul_one, hcount, if_pos (by omega)]
          exact pow_le_pow_right_of_le_one' hle1 (by omega)
    · rcases quiet_step Q hi hq with h | ⟨e1, p1, h1, h2, h3⟩
      · have he : chosenMiss σ nw o d c v M past p (n + 1) = ∅ := by
          refine Set.eq_empty_of_forall_notMem fun ω hω => ?_
          obtain ⟨e, q1, tr, q, k1, -⟩ := hfirst ω hω
          exact h _ _ _ k1
        rw [he, measure_empty]; exact zero_le
      · obtain ⟨c1, c2, -⟩ := quiet_counts (cur := cur) hi ha h2 h1
        refine (measure_mono ?_).trans ((ih (past ++ [e1]) p1 (hi.step h2) (Par.Steady.step Q hi hs h2)).trans ?_)
        · intro ω hω
          obtain ⟨e, q1, tr, q, k1, k2, k3, k4, k5, k6⟩ := hfirst ω hω
          obtain ⟨rfl, rfl⟩ := h3 _ _ _ k1
          exact ⟨tr, q, k3, k4, k5, k6⟩
        · rw [c1]
          exact pow_le_pow_right_of_le_one' hle1 (by omega)

/-- A run the chooser decides can only stop when the driver has returned. -/
theorem chosen_final (P : SensibleSearch o d ops) (hw : 1 ≤ nw) {ω : Draws} {orderRng : Rng (Fl ℚ)} {p q : Par ℚ} {tr : List ParEvent}
    (hnew : Par.new o d ω.rng orderRng = some p) (hfr : p.Fresh o o.populations) (h : ParRun o d nw p tr q) (past : List ParEvent)
    (hstuck : ∀ e r, ParStep o d nw q e r → ¬ σ.Allows past q e) : q.Final o := by
  obtain ⟨h1, h2, h3⟩ := C75_parallel P (fun i => draws_unit ω i) hnew h
  rcases C44_progress hw hfr h with k | ⟨e, r, k⟩ | k | k
  · exact k
  · exfalso
    have hrec : ∃ i, e = .receive i := by
      by_contra hn
      exact hstuck e r k fun i hi => absurd ⟨i, hi⟩ hn
    obtain ⟨i, rfl⟩ := hrec
    generalize hev : ParEvent.receive i = ev at k
    cases k with
    | start => cases hev
    | enter => cases hev
    | leave => cases hev
    | dispatch => cases hev
    | skip => cases hev
    | @receive xs ys tk res s k1 k2 k3 k4 k5 =>
      have hpos : 0 < q.pending.length := by rw [k3]; simp
      have hj := Nat.mod_lt (σ past q.blind) hpos
      have hget : q.pending[σ past q.blind % q.pending.length]? = some q.pending[σ past q.blind % q.pending.length] :=
        List.getElem?_eq_getElem hj
      generalize hjj : σ past q.blind % q.pending.length = j at hj hget
      generalize hx : q.pending[j] = x at hget
      have hmem : x ∈ q.pending := hx ▸ List.getElem_mem hj
      obtain ⟨res', hr'⟩ := Option.isSome_iff_exists.mp (h1 x hmem)
      cases ha : q.shared.apply o res' with
      | none => exact h3 (.apply k1 k2 hmem hr' ha)
      | some s' =>
        have hpend : q.pending = q.pending.take j ++ x :: q.pending.drop (j + 1) := by
          rw [← hx, List.cons_getElem_drop_succ, List.take_append_drop]
        refine hstuck _ _ (.receive k1 k2 hpend hr' ha) fun i' hi' => ?_
        rw [ParEvent.receive.injEq] at hi'
        rw [hjj, List.getElem?_map, hget, ← hi']; rfl
  · exact absurd k h3
  · exact absurd k h2

/-- The probability that a search in which the chooser decides the schedule misses the target. -/
theorem missedWith_chance (hν : ∀ b, FullLaw (ν b)) (P : SensibleSearch o d ops) (D : DrawsOk S o) (T : Target S o d ops cur t cs l c)
    {ε : ℝ≥0∞} (L : ∀ cur', cur ≤ cur' → cur' ≤ o.maxsize → Luck ν o d cur' t cs ε) {a : Nat}
    (ha : ∀ k cur', a ≤ k → k < o.niterations * o.populations → getCurMaxsize o (o.niterations * o.populations)
      (o.niterations * o.populations - k) = some cur' → cur ≤ cur') (orderRng : Rng (Fl ℚ)) (σ : Chooser) (hw : 1 ≤ nw) :
    Draws.law ν (MissedWith σ nw o d orderRng c (lossToCost E.RT l c o.parsimony o.useBaseline d.baseline)) ≤
      (1 - ε) ^ (o.niterations * o.populations - a) := by
  generalize hv : lossToCost E.RT l c o.parsimony o.useBaseline d.baseline = v
  let z : Rng (Fl ℚ) := ⟨fun _ => 0, fun _ => .fin 0⟩
  have Q := P.setting
  let B := o.niterations * (3 * o.populations + 2)
  let M := o.niterations * o.populations
  refine le_trans (measure_mono ?_) (initPops_chance (o := o) (d := d) hν z o.populations 0 (Hall.new o.maxsize)
    (fun pss hall f => ∃ s0, initWith o pss hall = some s0 ∧ (⟨s0, orderRng, .idle, 0, [], 0, 0, []⟩ : Par ℚ).Inv o nw o.populations ∧
      s0.Steady o d ops o.maxsize ∧ s0.counters.completed = 0 ∧ s0.counters.started = 0 ∧
      ∃ tr q, tr.length ≤ B ∧ ChosenRun σ o d nw [] ((⟨s0, orderRng, .idle, 0, [], 0, 0, []⟩ : Par ℚ).feed f) tr q ∧
        M ≤ q.shared.counters.completed ∧ ¬ q.shared.hall.AtMost c v) ?_)
  · intro ω hω
    obtain ⟨s, h1, hs, hfresh⟩ := init_steady Q (Draws.rng ω)
    have hnew : Par.new o d ω.rng orderRng = some ⟨s, orderRng, .idle, 0, [], 0, 0, []⟩ := by rw [Par.new, h1]; rfl
    have hfr : Par.Fresh o o.populations (⟨s, orderRng, .idle, 0, [], 0, 0, []⟩ : Par ℚ) := ⟨hfresh, rfl, rfl, rfl, rfl⟩
    rcases hω with hω | ⟨p, tr, q, hp, hrun, hstuck, hmiss⟩
    · rw [hnew] at hω; cases hω
    rw [hnew, Option.some.injEq] at hp
    subst hp
    have hfin := chosen_final P hw hnew hfr hrun.run tr hstuck
    have hnot : ¬ q.shared.hall.AtMost c v := fun hat => hmiss ⟨hfin, hat⟩
    have hlenB := C44_terminates hfr hrun.run
    have hdone : M ≤ q.shared.counters.completed := by
      have hi := (hfr.inv nw).run hrun.run
      obtain ⟨k1, k2⟩ := hi.idle hfin.1
      have k3 := hi.started
      have k4 := hi.flight
      rw [k1] at k4
      simp only [List.length_nil] at k4
      have : o.niterations * o.populations ≤ q.iter * o.populations := Nat.mul_le_mul_right _ hfin.2
      show o.niterations * o.populations ≤ _
      omega
    rw [init_eq, Option.bind_eq_some_iff] at h1
    obtain ⟨⟨qs, hall⟩, h4, h5⟩ := h1
    simp only at h5
    have hlen : qs.length = o.populations := by
      have := hfresh.pops
      unfold initWith at h5
      simp only [Option.bind_eq_bind, Option.bind_eq_some_iff, Option.some.injEq] at h5
      obtain ⟨_, _, _, _, rfl⟩ := h5
      simpa using this
    let f : Nat → Rng (Fl ℚ) := fun j => (qs[j]?.map (·.rng)).getD (Draws.rng ω j)
    have hq : qs = (qs.map fun ps => { ps with rng := z }).mapIdx fun j ps => { ps with rng := f j } := by
      apply List.ext_getElem?
      intro j
      simp only [List.getElem?_mapIdx, List.getElem?_map, Option.map_map]
      cases hj : qs[j]? with
      | none => rfl
      | some ps => simp [f, hj]
    rw [hq, initWith_feed, Option.map_eq_some_iff] at h5
    obtain ⟨s0, h6, rfl⟩ := h5
    have hfeed : ((⟨s0, orderRng, .idle, 0, [], 0, 0, []⟩ : Par ℚ).feed f) = ⟨s0.feed f, orderRng, .idle, 0, [], 0, 0, []⟩ := rfl
    refine ⟨qs.map fun ps => { ps with rng := z }, hall, f, ?_, ?_, ?_, s0, h6, ?_, Shared.feed_steady.mp hs, hfresh.completed,
      hfresh.started, tr, q, hlenB, ?_, hdone, hnot⟩
    · intro ps hps
      rw [List.mem_map] at hps
      obtain ⟨_, _, rfl⟩ := hps
      rfl
    · simp only [Nat.zero_add]
      rw [← hq]
      exact h4
    · intro j hj
      have : qs[j]? = none := List.getElem?_eq_none (by omega)
      simp [f, this]
    · exact Par.feed_inv.mp (hfeed ▸ hfr.inv nw)
    · rw [hfeed]; exact hrun
  · intro pss hall
    by_cases h : ∃ s0, initWith o pss hall = some s0 ∧ (⟨s0, orderRng, .idle, 0, [], 0, 0, []⟩ : Par ℚ).Inv o nw o.populations ∧
      s0.Steady o d ops o.maxsize ∧ s0.counters.completed = 0 ∧ s0.counters.started = 0
    · obtain ⟨s0, h1, h2, h3, h4, h5⟩ := h
      have := chosen_chance (σ := σ) hν P D T L ha M B [] ⟨s0, orderRng, .idle, 0, [], 0, 0, []⟩ h2 ⟨h3, by simp⟩
      rw [hv] at this
      simp only [Par.idleCycles, h4, h5, List.countP_nil, Nat.zero_add, Nat.sub_zero] at this
      refine le_trans (measure_mono ?_) this
      rintro ω ⟨s0', k1, -, -, -, -, k5⟩
      rw [h1, Option.some.injEq] at k1
      subst k1
      exact k5
    · have he : {ω : Draws | ∃ s0, initWith o pss hall = some s0 ∧ (⟨s0, orderRng, .idle, 0, [], 0, 0, []⟩ : Par ℚ).Inv o nw o.populations ∧
          s0.Steady o d ops o.maxsize ∧ s0.counters.completed = 0 ∧ s0.counters.started = 0 ∧
          ∃ tr q, tr.length ≤ B ∧ ChosenRun σ o d nw [] ((⟨s0, orderRng, .idle, 0, [], 0, 0, []⟩ : Par ℚ).feed (Draws.rng ω)) tr q ∧
            M ≤ q.shared.counters.completed ∧ ¬ q.shared.hall.AtMost c v} = ∅ := by
        refine Set.eq_empty_of_forall_notMem ?_
        rintro ω ⟨s0, k1, k2, k3, k4, k5, -⟩
        exact h ⟨s0, k1, k2, k3, k4, k5⟩
      rw [he, measure_empty]
      exact zero_le

/-- C90: with the multi-worker driver: whatever the number of workers, and whoever decides which of the tasks in flight is received next -
from everything that has happened, but without knowing the draws to come - the probability that the search does not end, or ends without
the target, falls geometrically with the number of cycles in which the size limit allows the target, at a rate that does not depend on
the chooser, the number of workers or the number of iterations. -/
theorem C90_chosen_schedule (hν : ∀ b, FullLaw (ν b)) (P : SensibleSearch o d ops) (D : DrawsOk GridDraw o)
    (T : Target GridDraw o d ops cur t cs l c) :
    ∃ ε : ℝ≥0∞, ε ≠ 0 ∧ ∀ niterations, niterations * o.populations * o.populationSize < 2 ^ 53 → ∀ a,
      (∀ k limit, a ≤ k → k < niterations * o.populations →
        getCurMaxsize o (niterations * o.populations) (niterations * o.populations - k) = some limit → cur ≤ limit) →
      ∀ (orderRng : Rng (Fl ℚ)) (σ : Chooser) (nw : Nat), 1 ≤ nw →
        Draws.law ν (MissedWith σ nw { o with niterations := niterations } d orderRng c
          (lossToCost E.RT l c o.parsimony o.useBaseline d.baseline)) ≤ (1 - ε) ^ (niterations * o.populations - a) := by
  obtain ⟨p, h0, -, L⟩ := luck_exists hν P.setting (fun _ h => h) D T
  refine ⟨p, h0, fun k hk a ha orderRng σ nw hw => ?_⟩
  exact missedWith_chance hν (P.niterations hk) (D.niterations k) (T.niterations k) (fun cur' h1 h2 => (L cur' h1 h2).niterations k) ha
    orderRng σ hw

/-- C90: so it is with the default options, for any operators of the set and on any data set. -/
theorem C90_default_chosen_schedule (hν : ∀ b, FullLaw (ν b)) (hE : RustEnv E) (hexp : ∀ x : Fl ℚ, (E.libm.exp x).lt (.fin 0) = false)
    (hD : E.D ≤ 65505) (sqrt : Fl ℚ → Fl ℚ) (finiteMax : Nat) {ops : List OpId}
    (hknown : ∀ op ∈ ops, 1 ≤ op.arity ∧ op.arity ≤ E.D ∧ E.ops.known op.arity op.id = true)
    {d : Dataset ℚ} (hd : d.WF) (hrows : 0 < d.x.cols) (hf : 1 ≤ d.x.rows) (hf' : d.x.rows ≤ 65535)
    {o : SOptions ℚ} (ho : o = { SOptions.default E.D sqrt finiteMax with operators := Operators.of E.D ops })
    (T : Target GridDraw o d ops 30 t cs l c) :
    ∃ ε : ℝ≥0∞, ε ≠ 0 ∧ ∀ niterations, niterations * 31 * 27 < 2 ^ 53 → ∀ (orderRng : Rng (Fl ℚ)) (σ : Chooser) (nw : Nat), 1 ≤ nw →
      Draws.law ν (MissedWith σ nw { o with niterations := niterations } d orderRng c
        (lossToCost E.RT l c o.parsimony o.useBaseline d.baseline)) ≤ (1 - ε) ^ (niterations * 31) := by
  obtain ⟨h1, h2⟩ := C75_default hD sqrt finiteMax (Operators.of E.D ops)
  subst ho
  have P : SensibleSearch _ d ops := ⟨hE, h1, h2, rfl, hknown, hd, hrows, hf, hf'⟩
  obtain ⟨ε, h0, h⟩ := C90_chosen_schedule hν P (C82_default_draws hE hexp sqrt finiteMax _) T
  refine ⟨ε, h0, fun k hk orderRng σ nw hw => ?_⟩
  refine (h k hk 0 (fun j limit _ _ hl => ?_) orderRng σ nw hw).trans (by rw [Nat.sub_zero]; rfl)
  unfold getCurMaxsize at hl
  simp only at hl
  rw [if_neg] at hl
  · exact (Option.some.inj hl).le
  · have : Fl.lt (.fin 0) (lit32 0) = false := by decide +kernel
    show ¬ ((Fl.lt (.fin 0) (lit32 0) && _) = true)
    rw [this]; simp

end
end SR

namespace SR.Demo
open MeasureTheory Rand
open scoped ENNReal
local instance chanceParEnv : Env ℚ := rustEnv

/-- A chooser that always receives the result of the task that is longest in flight, and one that always takes the last. -/
def fifo : Chooser := fun _ _ => 0
def lifo : Chooser := fun _ p => p.pending.length - 1

/-- C90 (the hypotheses are met): a search with the default options for `x0 + x0`, with four workers, first in first out and last in
first out. -/
example (orderRng : Rng (Fl ℚ)) : ∃ ε : ℝ≥0∞, ε ≠ 0 ∧ ∀ niterations, niterations * 31 * 27 < 2 ^ 53 →
    Draws.law (fun _ => uniformBelow (2 ^ 64))
      (MissedWith fifo 4 { defaultOpts with niterations := niterations } data orderRng 3 (.fin 0)) ≤ (1 - ε) ^ (niterations * 31) ∧
    Draws.law (fun _ => uniformBelow (2 ^ 64))
      (MissedWith lifo 4 { defaultOpts with niterations := niterations } data orderRng 3 (.fin 0)) ≤ (1 - ε) ^ (niterations * 31) := by
  obtain ⟨ε, h0, h⟩ := C90_default_chosen_schedule (E := rustEnv) (fun _ => uniformBelow_full le_rfl) rustEnv_ok (fun _ => rfl) (by decide) id
    52 (ops := opIds) (by decide) data_wf (by decide) (by decide) (by decide) (o := defaultOpts) rfl defaultTarget
  have hv : (lossToCost rustEnv.RT (.fin 0 : Fl ℚ) 3 defaultOpts.parsimony defaultOpts.useBaseline data.baseline) = .fin 0 := by
    decide +kernel
  refine ⟨ε, h0, fun k hk => ⟨?_, ?_⟩⟩
  · have := h k hk orderRng fifo 4 (by decide)
    rwa [hv] at this
  · have := h k hk orderRng lifo 4 (by decide)
    rwa [hv] at this

end SR.Demo
