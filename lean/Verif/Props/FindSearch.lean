import Verif.Props.Find
/-
C82: a search can find every expression the constraints allow.
-/
namespace SR
open Rand
section
variable {K : Type} [Field K] [LinearOrder K] [E : Env K] [IsStrictOrderedRing K]
variable {S : Fl K → Prop} {o : SOptions K} {d : Dataset K} {ops : List OpId} {N cur : Nat} {t : Tree} {cs : List (Fl K)}
  {l : Fl K} {c : Nat}

/-! ## Tasks and their results on other generators -/

/-- The task on another generator. -/
def Task.on (tk : Task K) (g : Rng (Fl K)) : Task K := { tk with ps := { tk.ps with rng := g } }

/-- The result with another generator. -/
def TaskResult.on (r : TaskResult K) (g : Rng (Fl K)) : TaskResult K := { r with ps := { r.ps with rng := g } }

/-- The task can return `r`, whatever is drawn afterwards. -/
def Task.Can (S : Fl K → Prop) (o : SOptions K) (d : Dataset K) (tk : Task K) (r : TaskResult K) : Prop :=
  ∀ g0 : Rng (Fl K), g0.Within S → ∃ g, g.Within S ∧ (tk.on g).run o d = some (r.on g0)

theorem Task.can_some (Q : RunSetting o d ops N) {tk : Task K} (ht : tk.Steady o d ops N) {u : Fl K} (hu : S u) :
    ∃ r, tk.Can S o d r := by
  let g : Rng (Fl K) := ⟨fun _ => 0, fun _ => u⟩
  have ht' : (tk.on g).Steady o d ops N := ⟨⟨⟨ht.sound.ps.size, ht.sound.ps.pop, ht.sound.ps.ev⟩, ht.sound.cur⟩, ht.stats, ht.ctx⟩
  obtain ⟨r, hr, -⟩ := Task.run_total Q ht'
  refine ⟨r, fun g0 h0 => ?_⟩
  unfold Task.run at hr
  rw [Option.map_eq_some_iff] at hr
  obtain ⟨⟨x, g'⟩, h1, rfl⟩ := hr
  obtain ⟨g1, h2, h3⟩ := Rand.Consumes.reaches (S := S) (m := taskBody o d (tk.on g)) (Rng.within_const hu) h1 g0 h0
  refine ⟨g1, h2, ?_⟩
  unfold Task.run
  rw [show taskBody o d (tk.on g1) (tk.on g1).ps.rng = taskBody o d (tk.on g) g1 from rfl, h3]
  rfl

theorem Task.Can.sound (Q : RunSetting o d ops N) {tk : Task K} (ht : tk.Steady o d ops N) {r : TaskResult K}
    (h : tk.Can S o d r) {u : Fl K} (hu : S u) : r.Sound o d ops N ∧ (o.shouldOptimizeConstants = true → CtxSafe d r.ps.ctx) ∧
      r.popIdx = tk.popIdx ∧ r.cur = tk.cur := by
  obtain ⟨g, -, hr⟩ := h ⟨fun _ => 0, fun _ => u⟩ (Rng.within_const hu)
  have ht' : (tk.on g).Steady o d ops N := ⟨⟨⟨ht.sound.ps.size, ht.sound.ps.pop, ht.sound.ps.ev⟩, ht.sound.cur⟩, ht.stats, ht.ctx⟩
  have hs := (task_done Q.search ht'.sound hr).sound Q.search.evol ht'.sound
  obtain ⟨r', hr', hctx⟩ := Task.run_total Q ht'
  rw [hr, Option.some.injEq] at hr'
  subst hr'
  exact ⟨⟨hs.cur, ⟨hs.ps.size, hs.ps.pop, hs.ps.ev⟩, hs.scored, hs.seen, hs.sub⟩, hctx, (run_popIdx hr).1, (run_popIdx hr).2⟩

/-! ## Migration -/

theorem migrate_reaches {dst migrants : List (Member K)} {frac : Fl K} (cn : Counters) (hl : dst.length = o.populationSize)
    (hp : ∃ k, Reaches S (poissonSample E.R E.libm E.ptrs E.fuel (E.R.mul (E.R.ofNat o.populationSize) frac)) k) {u : Fl K}
    (hu : S u) : ∃ x, Reaches S (migrate dst migrants frac cn) x ∧ x.1.length = dst.length := by
  suffices h : ∃ x, Reaches S (migrate dst migrants frac cn) x by
    obtain ⟨x, hx⟩ := h
    exact ⟨x, hx, (hx.post (C30_migrate E.R _ dst migrants frac cn) hu).1⟩
  unfold migrate
  rw [migrateInto]
  by_cases h1 : migrants.isEmpty = true
  · rw [if_pos h1]; exact ⟨_, Reaches.pure _⟩
  rw [if_neg h1]
  by_cases h2 : frac.le (.fin 0) = true
  · rw [if_pos h2]; exact ⟨_, Reaches.pure _⟩
  rw [if_neg h2]
  by_cases h3 : dst.isEmpty = true
  · rw [if_pos h3]; exact ⟨_, Reaches.pure _⟩
  rw [if_neg h3]
  simp only
  by_cases h4 : (!(E.R.mul (E.R.ofNat dst.length) frac).isFinite) = true
  · rw [if_pos h4]; exact ⟨_, Reaches.pure _⟩
  rw [if_neg h4]
  obtain ⟨k, hk⟩ := hp
  obtain ⟨x, hx, -⟩ := (migrateLoop_total (F := Fl K) migrants (by simpa using h1) (min (min k dst.length) migrants.length) dst cn
    (by simpa using h3)).reaches hu
  refine ⟨x, Reaches.bind (a := k) ?_ hx⟩
  rw [hl]; exact hk

theorem migrations_reaches (D : DrawsOk S o) (cands front : List (Member K)) {pop : Population K}
    (hl : pop.length = o.populationSize) (cn : Counters) : ∃ x, Reaches S (migrations o cands front pop cn) x := by
  have key : ∀ (b : Bool) (dst ms : List (Member K)) (frac : Fl K) (cn : Counters), dst.length = o.populationSize →
      (b = true → ∃ k, Reaches S (poissonSample E.R E.libm E.ptrs E.fuel (E.R.mul (E.R.ofNat o.populationSize) frac)) k) →
      ∃ x, Reaches S (if b = true then migrate dst ms frac cn else pure (dst, cn)) x ∧ x.1.length = dst.length := by
    intro b dst ms frac cn hd hp
    cases b with
    | true => exact migrate_reaches cn hd (hp rfl) D.zero
    | false => exact ⟨_, Reaches.pure _, rfl⟩
  obtain ⟨⟨p1, c1⟩, h1, h1l⟩ := key o.migration pop cands o.fractionReplaced cn hl D.migration
  obtain ⟨x, h2, -⟩ := key o.hofMigration p1 front o.fractionReplacedHof c1 (h1l.trans hl) D.hof
  refine ⟨x, ?_⟩
  unfold migrations
  simp only
  cases hm : o.migration with
  | true =>
    rw [hm, if_pos rfl] at h1
    rw [if_pos rfl]
    exact Reaches.bind (a := (p1, c1)) h1 h2
  | false =>
    rw [hm, if_neg (by simp)] at h1
    rw [if_neg (by simp)]
    exact Reaches.bind (a := (p1, c1)) h1 h2

/-! ## The shared state with other generators -/

/-- The same shared state, population `i` with the generator `f i`. -/
def Shared.feed (f : Nat → Rng (Fl K)) (s : Shared K) : Shared K :=
  { s with pops := s.pops.mapIdx fun i p => p.map fun ps => { ps with rng := f i } }

def Engine.feed (f : Nat → Rng (Fl K)) (e : Engine K) : Engine K := { e with shared := e.shared.feed f }

omit [Field K] [LinearOrder K] E [IsStrictOrderedRing K] in
theorem Shared.feed_mem {f : Nat → Rng (Fl K)} {s : Shared K} {ps : PopState K} :
    some ps ∈ (s.feed f).pops ↔ ∃ (i : Nat) (ps' : PopState K), s.pops[i]? = some (some ps') ∧ ps = { ps' with rng := f i } := by
  rw [List.mem_iff_getElem?]
  refine exists_congr fun i => ?_
  rw [Shared.feed, List.getElem?_mapIdx]
  constructor
  · intro h
    rw [Option.map_eq_some_iff] at h
    obtain ⟨x, h1, h2⟩ := h
    rw [Option.map_eq_some_iff] at h2
    obtain ⟨ps', rfl, rfl⟩ := h2
    exact ⟨ps', h1, rfl⟩
  · rintro ⟨ps', h1, rfl⟩
    rw [h1]; rfl

omit [IsStrictOrderedRing K] in
theorem Shared.feed_steady {f : Nat → Rng (Fl K)} {s : Shared K} : (s.feed f).Steady o d ops N ↔ s.Steady o d ops N := by
  constructor
  · intro h
    have get : ∀ ps, some ps ∈ s.pops → ∃ g : Rng (Fl K), some { ps with rng := g } ∈ (s.feed f).pops := by
      intro ps hps
      obtain ⟨i, hi⟩ := List.mem_iff_getElem?.mp hps
      exact ⟨f i, Shared.feed_mem.mpr ⟨i, ps, hi, rfl⟩⟩
    refine ⟨⟨h.sound.hall, fun ps hps => ?_, h.sound.bestSub, h.sound.best, h.sound.bestScored, h.sound.total⟩, h.stats,
      fun hc ps hps => ?_⟩
    · obtain ⟨g, hg⟩ := get ps hps
      have := h.sound.pops _ hg
      exact ⟨this.size, this.pop, this.ev⟩
    · obtain ⟨g, hg⟩ := get ps hps
      have := h.ctx hc _ hg
      exact this
  · intro h
    refine ⟨⟨h.sound.hall, fun ps hps => ?_, h.sound.bestSub, h.sound.best, h.sound.bestScored, h.sound.total⟩, h.stats,
      fun hc ps hps => ?_⟩
    · obtain ⟨i, ps', h1, rfl⟩ := Shared.feed_mem.mp hps
      have := h.sound.pops _ (List.mem_of_getElem? h1)
      exact ⟨this.size, this.pop, this.ev⟩
    · obtain ⟨i, ps', h1, rfl⟩ := Shared.feed_mem.mp hps
      have := h.ctx hc _ (List.mem_of_getElem? h1)
      exact this

omit [IsStrictOrderedRing K] in
theorem Engine.feed_inv {f : Nat → Rng (Fl K)} {e : Engine K} {np : Nat} : (e.feed f).Inv o np ↔ e.Inv o np := by
  have hl : (e.feed f).shared.pops.length = e.shared.pops.length := by simp [Engine.feed, Shared.feed]
  have hp : ∀ i : Nat, (∃ ps, (e.feed f).shared.pops[i]? = some (some ps)) ↔ ∃ ps, e.shared.pops[i]? = some (some ps) := by
    intro i
    simp only [Engine.feed, Shared.feed, List.getElem?_mapIdx]
    cases e.shared.pops[i]? with
    | none => simp
    | some x => cases x <;> simp
  constructor
  · intro h
    exact ⟨hl ▸ h.pops, fun i hi => (hp i).mp (h.present i hi), h.bestSub, h.total, h.started, h.iter, h.fresh, h.running⟩
  · intro h
    exact ⟨hl.trans h.pops, fun i hi => (hp i).mpr (h.present i hi), h.bestSub, h.total, h.started, h.iter, h.fresh, h.running⟩

omit [IsStrictOrderedRing K] in
theorem dispatch_feed {s s' : Shared K} {i : Nat} {tk : Task K} (h : s.dispatch o i = some (some tk, s')) (f : Nat → Rng (Fl K)) :
    (s.feed f).dispatch o i = some (some (tk.on (f i)), s'.feed f) := by
  obtain ⟨h1, h2, h3, h4, h5⟩ := dispatch_task h
  unfold Shared.dispatch
  have : (s.feed f).pops[i]? = some (some { tk.ps with rng := f i }) := by
    rw [Shared.feed, List.getElem?_mapIdx, h1]; rfl
  rw [this]
  simp only [Option.bind_eq_bind, Option.bind_some]
  rw [show getCurMaxsize o (s.feed f).counters.total ((s.feed f).counters.total - (s.feed f).counters.started) = some tk.cur from h4]
  simp only [Option.bind_some, Option.some.injEq, Prod.mk.injEq]
  constructor
  · cases tk
    simp only at h2 h3
    subst h2 h3
    rfl
  · rw [h5]
    simp only [Shared.feed, List.mapIdx_set, Option.map_none]

/-! ## One step -/

omit [IsStrictOrderedRing K] in
theorem feasible_at (ES : EvolSetting o d o.maxsize ops N) {m : Member K} (hm : m.Sound o d ops N)
    (hf : FeasibleExpr o.cx o.maxsize m.expr) (hc : m.complexity ≤ cur) : FeasibleExpr o.cx cur m.expr := by
  obtain ⟨t, ht, ha⟩ := hf
  have hg := hm.good.expr
  obtain ⟨t', ht', hu, -⟩ := hg
  obtain rfl := toPostfix_injective (ht.symm.trans ht')
  have hx := hm.complexity
  rw [ht, C24_complexity o.cx ES.cx t (ES.arityLe hu), Option.some.injEq] at hx
  have h1 : (t.toPostfix.map o.cx.weights.node).sum ≤ o.maxsize := ha.size
  have := ES.cur_lt
  refine ⟨t, ht, ?_, ha.depth, ha.arg, ha.nest⟩
  show (t.toPostfix.map o.cx.weights.node).sum ≤ cur
  split at hx <;> omega

/-- Applying a result a task can return. -/
theorem apply_reaches (Q : RunSetting o d ops N) (D : DrawsOk S o) {s : Shared K} (hs : s.Steady o d ops N) {r : TaskResult K}
    (hr : r.Sound o d ops N) (hi : r.popIdx < s.bestSub.length ∧ r.popIdx < s.pops.length) :
    ∃ s' : Shared K, (∀ c v, r.bestSeen.AtMost c v → c ≤ r.cur → s'.hall.AtMost c v) ∧ s'.totalEvals < 2 ^ 64 ∧
      ∀ (f0 : Nat → Rng (Fl K)), (∀ i, (f0 i).Within S) → ∃ g, g.Within S ∧
        (s.feed f0).apply o (r.on g) = some (s'.feed f0) := by
  have ES := Q.search.evol
  have hbs : ∀ m ∈ r.bestSeen.members, m.Sound o d ops N := by
    intro m hm
    obtain ⟨c, hc⟩ := mem_members.mp hm
    exact (hr.seen.entry c m hc).1
  obtain ⟨hall, h1, hh1⟩ := update_sound ES hr.cur r.bestSeen.members hs.sound.hall hbs
  obtain ⟨⟨hall', best⟩, h2⟩ := absorb_total ES hr.cur r.ps.pop hall s.best hr.ps.pop hh1
  obtain ⟨⟨pop, cn⟩, h3⟩ := migrations_reaches D (migrationCandidates (s.bestSub.set r.popIdx r.bestSub) r.popIdx) hall'.paretoFront
    hr.ps.size r.ps.counters
  refine ⟨{
      counters := { s.counters with completed := s.counters.completed + 1 }
      stats := (s.stats.updateFromPopulation E.R (r.ps.pop.map (·.complexity))).moveWindow E.R
      hall := hall', best
      bestSub := s.bestSub.set r.popIdx r.bestSub
      pops := s.pops.set r.popIdx (some { r.ps with pop, counters := cn })
      totalEvals := satAdd64 s.totalEvals r.evals }, ?_, by show satAdd64 _ _ < _; unfold satAdd64; omega, ?_⟩
  · rintro c v ⟨m, hm, hle⟩ hc
    obtain ⟨k1, rfl, k3, k4⟩ := hr.seen.entry c m hm
    have := update_atMost Q.search hr.cur r.bestSeen.members hs.sound.hall hbs h1 m (mem_members.mpr ⟨_, hm⟩)
      (feasible_at ES k1 k4 hc) k3 (hc.trans hr.cur)
    obtain ⟨b, hb, hb2⟩ := this.improves (absorb_progress h2).1
    exact ⟨b, hb, Fl.le_trans hb2 hle⟩
  · intro f0 hf0
    obtain ⟨g, hg, e⟩ := h3 (f0 r.popIdx) (hf0 _)
    refine ⟨g, hg, ?_⟩
    unfold Shared.apply
    rw [if_pos (by simpa [Shared.feed, TaskResult.on] using hi)]
    simp only [Shared.feed, TaskResult.on, Option.bind_eq_bind]
    rw [h1]
    simp only [Option.bind_some]
    rw [h2]
    simp only [Option.bind_some]
    rw [e]
    simp only [Option.bind_some, List.mapIdx_set, Option.map_some]

/-- One step of an unfinished engine: it can return, and, if there is a target for the size limit of the step, with an entry
as good as the target - whatever is drawn afterwards. -/
theorem stepOne_reaches (Q : RunSetting o d ops N) (D : DrawsOk S o) {e : Engine K} (hi : e.Inv o o.populations)
    (hs : e.shared.Steady o d ops N) (hf : e.shared.finished = false) :
    ∃ e' : Engine K, e'.Inv o o.populations ∧ e'.shared.Steady o d ops N ∧
      e'.shared.counters.completed = e.shared.counters.completed + 1 ∧
      (∀ cur t cs l c, getCurMaxsize o e.shared.counters.total (e.shared.counters.total - e.shared.counters.completed) = some cur →
        Target S o d ops cur t cs l c → ∃ e' : Engine K, e'.shared.totalEvals < 2 ^ 64 ∧
          e'.shared.hall.AtMost c (lossToCost E.RT l c o.parsimony o.useBaseline d.baseline) ∧
          ∀ f0 : Nat → Rng (Fl K), (∀ i, (f0 i).Within S) → ∃ f, (∀ i, (f i).Within S) ∧
            (e.feed f).stepOne o d = some (true, e'.feed f0)) ∧
      ∀ f0 : Nat → Rng (Fl K), (∀ i, (f0 i).Within S) → ∃ f, (∀ i, (f i).Within S) ∧
        (e.feed f).stepOne o d = some (true, e'.feed f0) := by
  obtain ⟨e1, hp, hi1, hs1, hpf, hpos, hn⟩ := prepare_spec hi hf
  obtain ⟨hperm, hle, hcomp⟩ := hi1.running hpos
  have hlen : e1.taskOrder.length = o.populations := by simpa using hperm.length_eq
  have hord : e1.taskOrder[e1.nextTask]? = some e1.taskOrder[e1.nextTask] := List.getElem?_eq_getElem (by omega)
  generalize hii : e1.taskOrder[e1.nextTask] = i at hord
  have him : i < o.populations := by simpa using hperm.mem_iff.mp (List.mem_of_getElem? hord)
  obtain ⟨ps, hps⟩ := hi.present i him
  obtain ⟨⟨ot, s1⟩, hd⟩ := dispatch_total Q.warmup (s := e.shared) (i := i) (by rw [hi.pops]; exact him)
  obtain ⟨tk, rfl⟩ : ∃ tk, ot = some tk := by
    cases ot with
    | none => have := (dispatch_skip hd).1; rw [hps] at this; simp at this
    | some tk => exact ⟨tk, rfl⟩
  obtain ⟨htk, hs1'⟩ := dispatch_steady Q hs hd
  obtain ⟨-, d2, -, d4, hseq⟩ := dispatch_task hd
  have hpre : ∀ f : Nat → Rng (Fl K), (e.feed f).prepare o = some (e1.feed f) := by
    intro f
    unfold Engine.prepare at hp ⊢
    by_cases h1 : o.niterations ≤ e.curIter
    · rw [if_pos h1] at hp
      rw [if_pos (by exact h1)]
      rw [Option.some.injEq] at hp; rw [hp]
    rw [if_neg h1] at hp
    rw [if_neg (by exact h1)]
    by_cases h2 : e.taskOrder ≠ [] ∧ e.nextTask < e.taskOrder.length
    · rw [if_pos h2] at hp
      rw [if_pos (by exact h2)]
      rw [Option.some.injEq] at hp; rw [hp]
    rw [if_neg h2] at hp
    rw [if_neg (by exact h2)]
    have hll : (e.feed f).shared.pops.length = e.shared.pops.length := by simp [Engine.feed, Shared.feed]
    rw [hll]
    rw [Option.map_eq_some_iff] at hp ⊢
    obtain ⟨x, hx, rfl⟩ := hp
    exact ⟨x, hx, rfl⟩
  have key : ∀ r, tk.Can S o d r → ∃ e' : Engine K, (e'.Inv o o.populations ∧ e'.shared.Steady o d ops N ∧
      e'.shared.counters.completed = e.shared.counters.completed + 1 ∧
      (∀ c v, r.bestSeen.AtMost c v → c ≤ tk.cur → e'.shared.hall.AtMost c v) ∧ e'.shared.totalEvals < 2 ^ 64) ∧
      ∀ f0 : Nat → Rng (Fl K), (∀ i, (f0 i).Within S) → ∃ f, (∀ i, (f i).Within S) ∧
        (e.feed f).stepOne o d = some (true, e'.feed f0) := by
    intro r hr
    obtain ⟨hrs, hrc, hri, hrcur⟩ := hr.sound Q htk D.zero
    obtain ⟨s', hat, hev, happ⟩ := apply_reaches Q D hs1' hrs (by
      rw [hri, d2, hseq]; simp only [List.length_set, hi.bestSub, hi.pops]; exact ⟨him, him⟩)
    have hstep : ∀ f0 : Nat → Rng (Fl K), (∀ i, (f0 i).Within S) → ∃ f, (∀ i, (f i).Within S) ∧
        (e.feed f).stepOne o d = some (true, ({ e1 with shared := s', nextTask := e1.nextTask + 1,
                                                        progressFinished := e1.progressFinished || s'.finished } : Engine K).feed f0) := by
      intro f0 hf0
      obtain ⟨g1, hg1, ha⟩ := happ f0 hf0
      obtain ⟨g, hg, hrun⟩ := hr g1 hg1
      refine ⟨fun j => if j = i then g else f0 j, fun j => ?_, ?_⟩
      · dsimp only; split
        · exact hg
        · exact hf0 j
      generalize hff : (fun j => if j = i then g else f0 j : Nat → Rng (Fl K)) = f
      have hfi : f i = g := by rw [← hff]; simp
      have hd' := dispatch_feed hd f
      rw [hfi] at hd'
      have hsf : s1.feed f = s1.feed f0 := by
        unfold Shared.feed
        congr 1
        apply List.ext_getElem? 
        intro j
        rw [List.getElem?_mapIdx, List.getElem?_mapIdx, hseq]
        by_cases hj : j = i
        · subst hj
          rw [List.getElem?_set]
          rw [if_pos rfl, if_pos (by rw [hi.pops]; exact him)]
          rfl
        · rw [← hff]; simp [hj]
      rw [hsf] at hd'
      unfold Engine.stepOne
      rw [show (e.feed f).shared.finished = false from hf, hpre f]
      simp only [Bool.false_eq_true, if_false, Option.bind_eq_bind, Option.bind_some]
      unfold Engine.runNext
      have hfin1 : (e1.feed f).shared.finished = false := by
        show e1.shared.finished = false
        rw [hs1]; exact hf
      rw [hfin1]
      have hord' : (e1.feed f).taskOrder[(e1.feed f).nextTask]? = some i := hord
      simp only [Bool.false_eq_true, if_false, Option.bind_eq_bind, hord', Option.bind_some]
      have hsh : (e1.feed f).shared = e.shared.feed f := by show e1.shared.feed f = _; rw [hs1]
      rw [hsh, hd']
      simp only [Option.bind_some]
      unfold Engine.complete
      simp only [hrun, ha, Option.bind_eq_bind, Option.bind_some]
      rfl
    refine ⟨{ e1 with shared := s', nextTask := e1.nextTask + 1, progressFinished := e1.progressFinished || s'.finished },
      ?_, hstep⟩
    obtain ⟨f, hfS, hst⟩ := hstep (fun _ => ⟨fun _ => 0, fun _ => .fin 0⟩) (fun _ => Rng.within_const D.zero)
    have hi0 : (e.feed f).Inv o o.populations := Engine.feed_inv.mpr hi
    obtain ⟨-, hi', hc', -⟩ := stepOne_spec hi0 hf hst
    have hst2 : s'.Steady o d ops N := by
      obtain ⟨g1, hg1, ha⟩ := happ (fun _ => ⟨fun _ => 0, fun _ => .fin 0⟩) (fun _ => Rng.within_const D.zero)
      refine Shared.feed_steady.mp (apply_steady Q (Shared.feed_steady.mpr hs1') (r := r.on g1)
        ⟨hrs.cur, ⟨hrs.ps.size, hrs.ps.pop, hrs.ps.ev⟩, hrs.scored, hrs.seen, hrs.sub⟩ hrc ?_ ha)
      show s1.counters.completed + 1 ≤ _
      rw [hseq]
      show e.shared.counters.completed + 1 ≤ _
      unfold Shared.finished at hf
      rw [hi.total] at hf
      simp only [beq_eq_false_iff_ne, ne_eq] at hf
      omega
    exact ⟨Engine.feed_inv.mp hi', hst2, hc', fun c v h hle => hat c v h (by rw [hrcur]; exact hle), hev⟩
  obtain ⟨r, hr⟩ := Task.can_some Q htk D.zero
  obtain ⟨e', ⟨k1, k2, k3, -⟩, k4⟩ := key r hr
  refine ⟨e', k1, k2, k3, ?_, k4⟩
  intro cur t cs l c hcur T
  rw [hi.started, hcur, Option.some.injEq] at d4
  obtain ⟨r, hat, hr⟩ := C82_task Q D htk (d4 ▸ T)
  obtain ⟨e', ⟨k1, k2, k3, k5, k6⟩, k4⟩ := key r hr
  exact ⟨e', k6, k5 _ _ hat (d4 ▸ T.le (Q.search.evol.down (d4 ▸ htk.sound.cur))), k4⟩

/-! ## Initialisation -/

omit [IsStrictOrderedRing K] in
theorem initPops_congr {seeds seeds' : Nat → Rng (Fl K)} : ∀ (k i : Nat) (hall : Hall K), (∀ j, i ≤ j → seeds j = seeds' j) →
    initPops o d seeds k i hall = initPops o d seeds' k i hall
  | 0, _, _, _ => rfl
  | k + 1, i, hall, h => by
    simp only [initPops, h i le_rfl]
    have := fun hl => initPops_congr k (i + 1) hl (seeds := seeds) (seeds' := seeds') fun j hj => h j (by omega)
    simp only [this]

omit [IsStrictOrderedRing K] in
theorem initPops_reaches {seeds : Nat → Rng (Fl K)} (hS : ∀ i, (seeds i).Within S) {f0 : Nat → Rng (Fl K)}
    (h0 : ∀ i, (f0 i).Within S) : ∀ (k i : Nat) (hall hall' : Hall K) (pss : List (PopState K)),
    initPops o d seeds k i hall = some (pss, hall') → ∃ seeds' : Nat → Rng (Fl K), (∀ i, (seeds' i).Within S) ∧
      initPops o d seeds' k i hall = some (pss.mapIdx fun j ps => { ps with rng := f0 (i + j) }, hall')
  | 0, i, hall, hall', pss, h => by
    simp only [initPops, Option.some.injEq, Prod.mk.injEq] at h
    obtain ⟨rfl, rfl⟩ := h
    exact ⟨seeds, hS, rfl⟩
  | k + 1, i, hall, hall', pss, h => by
    simp only [initPops, Option.bind_eq_bind, Option.bind_eq_some_iff, Option.some.injEq, Prod.mk.injEq] at h
    obtain ⟨⟨ps, h1⟩, e1, ⟨rest, h2⟩, e2, rfl, rfl⟩ := h
    obtain ⟨seeds', hs', e3⟩ := initPops_reaches hS h0 k (i + 1) h1 h2 rest e2
    unfold initPop at e1
    rw [Option.map_eq_some_iff] at e1
    obtain ⟨⟨st, g'⟩, e1, e4⟩ := e1
    obtain ⟨g, hg, e5⟩ := Rand.Consumes.reaches (S := S) (hS i) e1 (f0 i) (h0 i)
    refine ⟨fun j => if j = i then g else seeds' j, fun j => ?_, ?_⟩
    · dsimp only; split
      · exact hg
      · exact hs' j
    · simp only [Prod.mk.injEq] at e4
      obtain ⟨rfl, rfl⟩ := e4
      have hc : initPops o d (fun j => if j = i then g else seeds' j) k (i + 1) st.hall = _ :=
        (initPops_congr k (i + 1) _ fun j hj => by rw [if_neg (by omega)]).trans e3
      simp only [initPops, if_true]
      unfold initPop
      simp only [e5, Option.map_some, Option.bind_eq_bind, Option.bind_some, hc, List.mapIdx_cons, Nat.add_zero]
      congr 3
      congr 1
      funext j ps
      rw [show i + 1 + j = i + (j + 1) by omega]

omit [IsStrictOrderedRing K] in
theorem init_reaches {seeds : Nat → Rng (Fl K)} (hS : ∀ i, (seeds i).Within S) {f0 : Nat → Rng (Fl K)}
    (h0 : ∀ i, (f0 i).Within S) {s : Shared K} (h : Shared.init o d seeds = some s) :
    ∃ seeds' : Nat → Rng (Fl K), (∀ i, (seeds' i).Within S) ∧ Shared.init o d seeds' = some (s.feed f0) := by
  unfold Shared.init at h
  simp only [Option.bind_eq_bind, Option.bind_eq_some_iff, Option.some.injEq] at h
  obtain ⟨⟨pss, hall⟩, e1, best, e2, bs, e3, rfl⟩ := h
  obtain ⟨seeds', hs', e4⟩ := initPops_reaches hS h0 _ _ _ _ _ e1
  refine ⟨seeds', hs', ?_⟩
  simp only [Nat.zero_add] at e4
  have hpop : ∀ (f : Nat → Rng (Fl K)) (pss : List (PopState K)),
      (pss.mapIdx fun j ps => { ps with rng := f j }).map (·.pop) = pss.map (·.pop) := by
    intro f pss
    apply List.ext_getElem?
    intro j
    simp only [List.getElem?_map, List.getElem?_mapIdx, Option.map_map]
    rfl
  have hbest : ∀ pss pss' : List (PopState K), pss.map (·.pop) = pss'.map (·.pop) → initBest o pss = initBest o pss' := by
    intro a b hab
    unfold initBest
    have h1 : a.flatMap (·.pop) = b.flatMap (·.pop) := by rw [List.flatMap_def, List.flatMap_def, hab]
    have h2 : a.head?.bind (·.pop.head?) = b.head?.bind (·.pop.head?) := by
      have := congrArg (fun l => l.head?.bind List.head?) hab
      simpa [List.head?_map, Option.bind_map] using this
    rw [h1]
    simp only [Option.bind_eq_bind]
    rw [h2]
  have hsub : ∀ pss : List (PopState K), (pss.mapM fun ps => bestSubPop E.sort ps.pop o.topn) =
      (pss.map (·.pop)).mapM fun p => bestSubPop E.sort p o.topn := by
    intro pss; rw [List.mapM_map]; rfl
  unfold Shared.init
  rw [hsub, ← hpop f0, ← hsub] at e3
  rw [hbest _ _ (hpop f0 pss).symm] at e2
  simp only [e4, Option.bind_eq_bind, Option.bind_some, e2, e3, Option.some.injEq]
  unfold Shared.feed
  simp only [Shared.mk.injEq, true_and, and_true]
  apply List.ext_getElem?
  intro j
  simp only [List.getElem?_map, List.getElem?_mapIdx, Option.map_map]
  rfl

/-! ## The search -/

/-- Any number of steps can return; and one more step can find the target. -/
theorem steps_reach (Q : RunSetting o d ops N) (D : DrawsOk S o) (T : Target S o d ops cur t cs l c) : ∀ (n : Nat) (e : Engine K),
    e.Inv o o.populations → e.shared.Steady o d ops N → e.shared.counters.completed + n < o.niterations * o.populations →
    getCurMaxsize o (o.niterations * o.populations) (o.niterations * o.populations - (e.shared.counters.completed + n)) = some cur →
    ∃ e' : Engine K, (e'.shared.totalEvals < 2 ^ 64 ∧
        e'.shared.hall.AtMost c (lossToCost E.RT l c o.parsimony o.useBaseline d.baseline)) ∧
      ∀ f0 : Nat → Rng (Fl K), (∀ i, (f0 i).Within S) → ∃ f, (∀ i, (f i).Within S) ∧
        (e.feed f).step o d (n + 1) = some (n + 1, e'.feed f0) := by
  intro n
  induction n with
  | zero =>
    intro e hi hs hn hcur
    have hf : e.shared.finished = false := by
      unfold Shared.finished
      rw [hi.total]
      simp only [beq_eq_false_iff_ne, ne_eq]
      omega
    obtain ⟨-, -, -, -, h, -⟩ := stepOne_reaches Q D hi hs hf
    obtain ⟨e', h0, h1, h2⟩ := h cur t cs l c (by rw [hi.total]; simpa using hcur) T
    refine ⟨e', ⟨h0, h1⟩, fun f0 hf0 => ?_⟩
    obtain ⟨f, hfS, h3⟩ := h2 f0 hf0
    refine ⟨f, hfS, ?_⟩
    rw [step_succ, h3]
    rfl
  | succ n ih =>
    intro e hi hs hn hcur
    have hf : e.shared.finished = false := by
      unfold Shared.finished
      rw [hi.total]
      simp only [beq_eq_false_iff_ne, ne_eq]
      omega
    obtain ⟨e1, hi1, hs1, hc1, -, h⟩ := stepOne_reaches Q D hi hs hf
    obtain ⟨e', h1, h2⟩ := ih e1 hi1 hs1 (by omega) (by
      rw [hc1, show e.shared.counters.completed + 1 + n = e.shared.counters.completed + (n + 1) by omega]; exact hcur)
    refine ⟨e', h1, fun f0 hf0 => ?_⟩
    obtain ⟨f1, hf1, h3⟩ := h2 f0 hf0
    obtain ⟨f, hfS, h4⟩ := h f1 hf1
    refine ⟨f, hfS, ?_⟩
    rw [step_succ, h4]
    simp only [Option.bind_some, if_true, h3, Option.map_some]

/-- C82: a search can find, in every one of its cycles, every expression that the constraints allow under the size limit of
that cycle: some seeds make the search, on every order of the populations, end the cycle with an entry of the complexity of
that expression in the hall of fame that costs at most as much as the expression - and it keeps such an entry. -/
theorem C82_search (Q : RunSetting o d ops N) (D : DrawsOk S o) (orderRng : Rng (Fl K)) {n : Nat}
    (hn : n < o.niterations * o.populations)
    (hcur : getCurMaxsize o (o.niterations * o.populations) (o.niterations * o.populations - n) = some cur)
    (T : Target S o d ops cur t cs l c) :
    ∃ seeds : Nat → Rng (Fl K), (∀ i, (seeds i).Within S) ∧ ∃ e e', Engine.new o d seeds orderRng = some e ∧
      e.step o d (n + 1) = some (n + 1, e') ∧
      ∀ m k e'', e'.step o d m = some (k, e'') →
        e''.shared.hall.AtMost c (lossToCost E.RT l c o.parsimony o.useBaseline d.baseline) := by
  let z : Rng (Fl K) := ⟨fun _ => 0, fun _ => .fin 0⟩
  obtain ⟨s, h1, hs, hfresh⟩ := init_steady Q (fun _ => z)
  let e : Engine K := ⟨s, orderRng, 0, [], 0, false⟩
  have hi : e.Inv o o.populations := Engine.Fresh.inv ⟨hfresh, rfl, rfl, rfl⟩
  have hc0 : e.shared.counters.completed = 0 := hfresh.completed
  obtain ⟨e', ⟨h0, h2⟩, h3⟩ := steps_reach Q D T n e hi hs (by rw [hc0]; omega) (by rw [hc0, Nat.zero_add]; exact hcur)
  obtain ⟨f, hfS, h4⟩ := h3 (fun _ => z) (fun _ => Rng.within_const D.zero)
  obtain ⟨seeds, hS, h5⟩ := init_reaches (S := S) (fun _ => Rng.within_const D.zero) hfS h1
  refine ⟨seeds, hS, e.feed f, e'.feed _, by rw [Engine.new, h5]; rfl, h4, fun m k e'' h6 => ?_⟩
  exact Hall.AtMost.improves h2 (C46_stepwise (e := e'.feed _) m h0 h6).hall

/-- In exact arithmetic, a positive weight of the mutation that replaces the whole expression is enough: a draw from `[0, 1)`
chooses it, whatever the conditioning of the weights switches off. -/
theorem C82_randomize_drawn (hE : E.R = Rounding.exact K) (W : DrawableWeights o) (hpos : Fl.lt (.fin 0) o.weights.randomize = true)
    (m : Member K) (cur nf : Nat) : Reaches (fun u : Fl K => ∃ x : K, u = .fin x ∧ 0 ≤ x ∧ x < 1)
      (sampleMutation (conditionWeights o m cur nf o.weights)) .randomize := by
  have hfin : ∀ (ws : List (Fl K)) (a b : Fl K), weightedTotal E.R ws a = some b → ∃ ks : List K, ws = ks.map .fin ∧ ∀ k ∈ ks, 0 ≤ k := by
    intro ws
    induction ws with
    | nil => intro a b _; exact ⟨[], rfl, by simp⟩
    | cons w ws ih =>
      intro a b h
      rw [weightedTotal] at h
      split at h
      · cases h
      · next hw =>
        obtain ⟨ks, rfl, hk⟩ := ih _ _ h
        cases w with
        | fin x =>
          refine ⟨x :: ks, rfl, ?_⟩
          simp only [Fl.isFinite, Fl.lt, Bool.not_true, Bool.false_or, decide_eq_true_eq, not_lt] at hw
          simp only [List.mem_cons, forall_eq_or_imp]
          exact ⟨hw, hk⟩
        | _ => simp [Fl.isFinite] at hw
  obtain ⟨total, ht, -⟩ := W.conditioned (hE ▸ Rounding.exact_lawful K) m cur nf
  obtain ⟨ks, hks, hnn⟩ := hfin _ _ _ ht
  have hc : ∀ w : MutWeights K, (w.choices.map Prod.snd)[9]? = some w.randomize ∧ w.choices[9]? = some (.randomize, w.randomize) :=
    fun w => ⟨rfl, rfl⟩
  have hr : (conditionWeights o m cur nf o.weights).randomize = o.weights.randomize := by
    unfold conditionWeights MutWeights.leaf
    split
    · cases m.expr.consts.isEmpty <;> rfl
    · rfl
  have h9 := (hc (conditionWeights o m cur nf o.weights)).1
  rw [hr, hks, List.getElem?_map, Option.map_eq_some_iff] at h9
  obtain ⟨w, hw, hww⟩ := h9
  rw [← hww] at hpos
  have hwp : 0 < w := by simpa [Fl.lt] using hpos
  intro g0 hg0
  obtain ⟨u, hu0, hu1, he⟩ := C32_positive_reached ks hnn 9 w hw hwp g0
  refine ⟨Rand.consFloat (.fin u) g0, ⟨fun k => ?_, hg0.words⟩, ?_⟩
  · cases k with
    | zero => exact ⟨u, rfl, hu0, hu1⟩
    | succ k => exact hg0.floats k
  · unfold sampleMutation
    rw [Rand.run_bind, hE, hks, he]
    simp only [(hc _).2]
    rfl

/-- The Poisson sampler of a mean below 30 can return zero, if zero can be drawn and the exponential is never negative. -/
theorem C82_migration_drawn (hR : E.R.Lawful) {mean : Fl K} (hmean : mean.lt (E.R.ofNat 30) = true)
    (hexp : (Fl.fin 0).le (E.libm.exp mean.neg) = true) (hfuel : 0 < E.fuel) (h0 : S (.fin 0)) :
    Reaches S (poissonSample E.R E.libm E.ptrs E.fuel mean) 0 := by
  unfold poissonSample
  by_cases h : (!mean.isFinite || mean.le (.fin 0)) = true
  · rw [if_pos h]; exact Reaches.pure _
  rw [if_neg h, if_pos hmean]
  obtain ⟨n, hn⟩ : ∃ n, E.fuel = n + 1 := ⟨E.fuel - 1, by omega⟩
  rw [hn, knuthLoop]
  refine Reaches.bind (Reaches.float h0) ?_
  have : E.R.mul (.fin 1) (.fin 0) = .fin 0 := by simp [Rounding.mul, hR.zero]
  simp only [this, hexp, if_true]
  exact Reaches.pure _

end
end SR

namespace SR.Demo
open Rand
local instance findEnv : Env ℚ := env

/-- `x0 + x0`. -/
def findTree : Tree := .op 0 [.var 0, .var 0]

/-- Draws from `[0, 1)` are enough for the demonstration search ... -/
theorem findDraws (mig : Bool) : DrawsOk (fun u : Fl ℚ => ∃ x : ℚ, u = .fin x ∧ 0 ≤ x ∧ x < 1) (runOpts mig) where
  zero := ⟨0, rfl, by decide +kernel, by decide +kernel⟩
  mutate := ⟨.fin (3 / 4), ⟨3 / 4, rfl, by decide +kernel, by decide +kernel⟩, by cases mig <;> decide +kernel⟩
  randomize m cur nf := C82_randomize_drawn rfl (runSetting mig).weights (by cases mig <;> decide +kernel) m cur nf
  exp _ := rfl
  migration _ := ⟨0, C82_migration_drawn (Rounding.exact_lawful ℚ) (by cases mig <;> decide +kernel) (by cases mig <;> decide +kernel)
    (by decide) ⟨0, rfl, by decide +kernel, by decide +kernel⟩⟩
  hof _ := ⟨0, C82_migration_drawn (Rounding.exact_lawful ℚ) (by cases mig <;> decide +kernel) (by cases mig <;> decide +kernel)
    (by decide) ⟨0, rfl, by decide +kernel, by decide +kernel⟩⟩

/-- ... and `x0 + x0`, which fits the data exactly, can be looked for. -/
theorem findTarget (mig : Bool) : Target (fun u : Fl ℚ => ∃ x : ℚ, u = .fin x ∧ 0 ≤ x ∧ x < 1) (runOpts mig) data opIds 3 findTree []
    (.fin 0) 3 where
  few := by decide
  uses := by
    simp only [findTree, Tree.Uses, data, Tree.all_op, List.length_cons, List.length_nil]
    exact ⟨by decide, by simp⟩
  consts i hi := by simp [findTree] at hi
  size := by decide
  allowed := by
    obtain ⟨b, hb, hiff⟩ := C23_accepts_iff (runOpts mig).cx cx_wf 3 (by decide) findTree (by simp [findTree, Tree.Proper])
      (by simp [findTree, Tree.ArityLe, runOpts, smallOpts, cx])
    apply hiff.mp
    have h : checkConstraints (runOpts mig).cx 3 findTree.toPostfix = some true := by cases mig <;> decide
    rw [h] at hb
    simpa using hb.symm
  loss := by
    have hc : Computable data findTree [] := by
      refine ⟨?_, by simp [ConstRootFinite, findTree]⟩
      intro o ts hm r hr
      simp only [findTree, Tree.subtrees_op, List.mem_append, List.mem_flatten, List.mem_map, List.mem_cons, List.not_mem_nil,
        or_false] at hm
      rcases hm with ⟨_, ⟨t, rfl | rfl, rfl⟩, hm⟩ | hm
      · simp at hm
      · simp at hm
      · cases hm
        have : r = 0 ∨ r = 1 := by have : r < 2 := hr; omega
        rcases this with rfl | rfl <;> decide +kernel
    unfold exprLoss
    rw [if_pos hc]
    cases mig <;> decide +kernel
  complexity := by cases mig <;> decide
  counted := by decide
  cost := by cases mig <;> decide +kernel

end SR.Demo

namespace SR
open Demo
local instance findEnv' : Env ℚ := env

/-- C82 (the hypotheses are met): some seeds make the demonstration search, which has both migrations, find in its second cycle an
expression of complexity 3 that fits the data exactly. -/
example (orderRng : Rng (Fl ℚ)) : ∃ seeds : Nat → Rng (Fl ℚ), ∃ e e', Engine.new (runOpts true) data seeds orderRng = some e ∧
    e.step (runOpts true) data 2 = some (2, e') ∧ e'.shared.hall.AtMost 3 (.fin 0) := by
  obtain ⟨seeds, -, e, e', h1, h2, h3⟩ := C82_search (runSetting true) (findDraws true) orderRng (n := 1) (by decide) (by rfl)
    (findTarget true)
  refine ⟨seeds, e, e', h1, h2, ?_⟩
  have := h3 0 0 e' rfl
  have hv : (lossToCost env.RT (.fin 0 : Fl ℚ) 3 (runOpts true).parsimony (runOpts true).useBaseline data.baseline) = .fin 0 := by
    decide +kernel
  rw [← hv]
  exact this

end SR
