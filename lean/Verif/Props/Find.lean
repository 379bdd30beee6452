import Verif.Spec.Find
import Verif.Proofs.Find
/-
C82: a search can find every expression the constraints allow.
-/
namespace SR
open Rand
section
variable {K : Type} [Field K] [LinearOrder K] [E : Env K] [IsStrictOrderedRing K]
variable {S : Fl K → Prop} {o : SOptions K} {d : Dataset K} {ops : List OpId} {N cur : Nat} {t : Tree} {cs : List (Fl K)}
  {l : Fl K} {c : Nat}

/-- The acceptance probability is never negative. -/
theorem acceptProb_nn (hR : E.R.Lawful) (hexp : ∀ x : Fl K, (E.libm.exp x).lt (.fin 0) = false) {s : Stats K} (hs : s.Usable o)
    (temperature : Fl K) (m b : Member K) : NN (acceptProb o s temperature m b) := by
  have h1 : NN (.fin 1 : Fl K) := nn_fin.mpr zero_le_one
  have hf : ∀ n, NN (sizeFreq o s n) := by
    intro n
    unfold sizeFreq
    have hr : NN (E.R.rnd (1 / 1000000)) := nn_rnd hR (by positivity)
    split
    · unfold Stats.freq
      split
      · exact hr
      · split
        · exact hr
        · next v hv =>
          have h0 := (hs.2 v (List.mem_of_getElem? hv)).1
          have hv0 : NN v := by cases v <;> simp_all [Fl.le, NN, Fl.lt]
          unfold Fl.max
          repeat' split
          all_goals assumption
    · exact nn_rnd hR (by positivity)
  have hp : NN (if o.annealing then
      E.R.mul (.fin 1) (E.libm.exp (E.R.div (E.R.sub b.cost m.cost).neg (E.R.mul temperature o.alpha))) else (.fin 1 : Fl K)) := by
    split
    · exact nn_mul hR h1 (hexp _)
    · exact h1
  unfold acceptProb
  simp only
  split
  · exact nn_mul hR hp (nn_div hR (hf _) (hf _))
  · exact hp

/-- One pass of evolution can put the target into the population. -/
theorem evolStep_reaches (Q : RunSetting o d ops N) (D : DrawsOk S o) (hcur : cur ≤ o.maxsize) (temperature : Fl K) {s : Stats K}
    (hs : s.Usable o) (st : EvolState K) (hst : st.Steady o d ops N) (T : Target S o d ops cur t cs l c) :
    ∃ st', Reaches S (evolStep o d cur temperature s st) st' ∧ st'.Steady o d ops N ∧ ∃ m ∈ st'.pop, m.complexity = c ∧
      m.cost = lossToCost E.RT l c o.parsimony o.useBaseline d.baseline ∧ FeasibleExpr o.cx cur m.expr := by
  have ES := Q.search.evol.down hcur
  suffices h : ∃ st', Reaches S (evolStep o d cur temperature s st) st' ∧ ∃ m ∈ st'.pop, m.complexity = c ∧
      m.cost = lossToCost E.RT l c o.parsimony o.useBaseline d.baseline ∧ FeasibleExpr o.cx cur m.expr by
    obtain ⟨st', h1, h2⟩ := h
    exact ⟨st', h1, h1.post (evolStep_total Q hcur temperature hs st hst).post D.zero, h2⟩
  obtain ⟨u, hu, hlt⟩ := D.mutate
  have hb : Rand.Total (bestOfSample E.R E.sort E.libm E.fuel o.tour s st.pop) (· ∈ st.pop) :=
    bestOfSample_total Q.search.formats.1 Q.tour Q.search.populationSize hst.size
      (fun m hm => (hst.sound m hm).cost_not_nan Q.search.evol Q.search.costs) hs.1 hs.2
  obtain ⟨a, ha, ham⟩ := hb.reaches D.zero
  have hgood := hst.ok.pop a ham
  obtain ⟨e, hw, hr⟩ := C77_candidate (S := S) T.few ES temperature a st.ev t cs T.uses T.consts T.size
    (T.size.trans (max_le_max hcur le_rfl)) T.allowed 9 0
  obtain ⟨-, hfound⟩ := hr.post (attemptLoop_spec Q.search.formats Q.search.ls ES a hgood temperature .randomize 10 0 st.ev
    hst.ok.ev).post D.zero
  obtain ⟨hge, hfe, -⟩ := hfound e false rfl
  obtain ⟨b, b', ok, ev', k1, k2, -, -, -, -, k3, k4, k5, k6⟩ := born_spec ES hge st.counters.nextId (some a.id)
    st.counters.nextBirth st.ev hst.ok.ev
  obtain ⟨v, hv, hcx, hl, hc⟩ := k5
  rw [k3] at hv hcx hl hc
  have huse : v.Uses ops d.x.rows e.consts.length := by
    obtain ⟨v', hv', hu', -⟩ := hge
    rwa [toPostfix_injective (hv.symm.trans hv')]
  rw [hw.complexity hv o.cx ES.cx (ES.arityLe huse) (ES.arityLe T.uses), T.complexity] at hcx
  simp only [Option.some.injEq] at hcx
  rw [hw.loss hv o d, T.loss] at hl hc
  simp only [Option.isSome_some, if_true, Option.getD_some] at hl hc
  rw [hl, ← hcx] at hc
  have hlf : l.isFinite = true := by
    have := T.loss
    unfold exprLoss at this
    split at this
    · rw [Option.filter_eq_some_iff] at this; exact this.2
    · cases this
  have hok : ok = true := k6.mpr (by rw [hl]; exact hlf)
  subst hok
  have hgen : Reaches S (generationWith o d cur temperature s st.ev st.counters a .randomize) ⟨b', true, 1, ev', st.counters.tick⟩ := by
    unfold generationWith
    refine Reaches.bind hr ?_
    simp only
    refine Reaches.bind (Reaches.lift k1) (Reaches.bind (Reaches.lift k2) ?_)
    have hfin : b'.cost.isFinite = true := by rw [hc]; exact T.cost
    simp only [hfin, Bool.not_true, Bool.or_self, Bool.false_eq_true, if_false]
    refine Reaches.bind (Reaches.float D.zero) ?_
    rw [show (acceptProb o s temperature a b').lt (.fin 0) = false from acceptProb_nn Q.search.formats.1 D.exp hs temperature a b']
    exact Reaches.pure _
  obtain ⟨i, m0, hi, h0, -⟩ := C29_replace_oldest st.pop (by
    intro h; have := hst.size; have := Q.two; rw [h] at *; simp at *; omega) b'
  refine ⟨{ st with ev := ev', counters := st.counters.tick, evals := st.evals + 1, pop := st.pop.set i b' }, ?_, b', ?_, hcx.symm,
    hc, k3 ▸ hfe⟩
  · unfold evolStep
    refine Reaches.bind (Reaches.float hu) ?_
    rw [if_pos hlt]
    unfold mutationStep
    refine Reaches.bind ha (Reaches.bind (a := ⟨b', true, 1, ev', st.counters.tick⟩) ?_ ?_)
    · unfold nextGeneration
      exact Reaches.bind (D.randomize a cur d.x.rows) hgen
    · simp only [Bool.not_true, Bool.false_and, Bool.false_eq_true, if_false]
      exact Reaches.bind (Reaches.lift h0) (Reaches.pure _)
  · exact List.mem_set (List.getElem?_eq_some_iff.mp hi).1 _


theorem Target.le (ES : EvolSetting o d cur ops N) (T : Target S o d ops cur t cs l c) : c ≤ cur := by
  have h := C24_complexity o.cx ES.cx t (ES.arityLe T.uses)
  rw [T.complexity] at h
  simp only [Option.some.injEq] at h
  have h2 : (t.toPostfix.map o.cx.weights.node).sum ≤ cur := T.allowed.size
  split at h <;> omega

/-- After a member has been offered, the hall has an entry of its complexity that is at least as good. -/
theorem update_atMost (Q : SearchSetting o d ops N) (hcur : cur ≤ o.maxsize) : ∀ (ms : List (Member K)) {h h' : Hall K},
    h.Sound o d ops N → (∀ m ∈ ms, m.Sound o d ops N) → h.update o.cx cur ms = some h' → ∀ m ∈ ms,
    FeasibleExpr o.cx cur m.expr → 1 ≤ m.complexity → m.complexity ≤ o.maxsize → h'.AtMost m.complexity m.cost
  | [], _, _, _, _, _, m, hm, _, _, _ => by cases hm
  | x :: ms, h, h', hh, hms, hu, m, hm, hf, h1, h2 => by
    rw [Hall.update] at hu
    simp only [Option.bind_eq_bind, Option.bind_eq_some_iff] at hu
    obtain ⟨hall1, e1, e2⟩ := hu
    obtain ⟨hall1', e1', hs1⟩ := consider_sound Q.evol hcur hh (hms x (by simp))
    rw [e1] at e1'
    cases e1'
    have hrest : ∀ y ∈ ms, y.Sound o d ops N := fun y hy => hms y (by simp [hy])
    rcases List.mem_cons.mp hm with rfl | hm
    · classical
      have hnan := (hms m (by simp)).cost_not_nan Q.evol Q.costs
      obtain ⟨h1', e1', hl, hslot⟩ := consider_tree o.cx Q.evol.cx cur (Q.evol.down hcur).cur_lt h m (Q.evol.isTree (hms m (by simp)).good)
      rw [e1] at e1'
      cases e1'
      have hin : m.complexity < h.length := by rw [hh.length]; omega
      have hat : hall1.AtMost m.complexity m.cost := by
        have := hslot m.complexity
        rw [if_pos ⟨hf, rfl, by omega⟩, List.getElem?_eq_getElem hin, Option.map_some] at this
        cases hb : h[m.complexity] with
        | none =>
          rw [hb] at this
          exact ⟨m, by simpa [slotStep, Hall.better] using this, Fl.le_refl hnan⟩
        | some b =>
          rw [hb, slotStep_some] at this
          have hbn := (hh.entry m.complexity b (by rw [List.getElem?_eq_getElem hin, hb])).1.cost_not_nan Q.evol Q.costs
          by_cases hlt : m.cost.lt b.cost = true
          · rw [if_pos hlt] at this
            exact ⟨m, this, Fl.le_refl hnan⟩
          · rw [if_neg hlt] at this
            exact ⟨b, this, (by
              revert hlt hnan hbn; cases m.cost <;> cases b.cost <;> simp [Fl.lt, Fl.le, Fl.isNan])⟩
      obtain ⟨b, hb, hle⟩ := hat
      obtain ⟨b', hb', hor⟩ := (update_improves e2).entry _ b hb
      refine ⟨b', hb', ?_⟩
      rcases hor with rfl | hor
      · exact hle
      · exact Fl.le_of_lt (Fl.lt_of_lt_of_le hor hle)
    · exact update_atMost Q hcur ms hs1 hrest e2 m hm hf h1 h2

omit [Field K] E [IsStrictOrderedRing K] in
theorem Hall.AtMost.improves {h h' : Hall K} {v : Fl K} (ha : h.AtMost c v) (hi : Hall.Improves h h') : h'.AtMost c v := by
  obtain ⟨b, hb, hle⟩ := ha
  obtain ⟨b', hb', hor⟩ := hi.entry _ b hb
  refine ⟨b', hb', ?_⟩
  rcases hor with rfl | hor
  · exact hle
  · exact Fl.le_of_lt (Fl.lt_of_lt_of_le hor hle)

/-- The passes of one cycle can end with the target in the population. -/
theorem evolLoop_reaches (Q : RunSetting o d ops N) (D : DrawsOk S o) (hcur : cur ≤ o.maxsize) (temperature : Fl K) {s : Stats K}
    (hs : s.Usable o) (T : Target S o d ops cur t cs l c) : ∀ (k : Nat) (st : EvolState K), st.Steady o d ops N →
    ∃ st', Reaches S (evolLoop o d cur temperature s (k + 1) st) st' ∧ st'.Steady o d ops N ∧ ∃ m ∈ st'.pop, m.complexity = c ∧
      m.cost = lossToCost E.RT l c o.parsimony o.useBaseline d.baseline ∧ FeasibleExpr o.cx cur m.expr
  | 0, st, hst => by
    obtain ⟨st', h1, h2⟩ := evolStep_reaches Q D hcur temperature hs st hst T
    exact ⟨st', Reaches.bind h1 (Reaches.pure _), h2⟩
  | k + 1, st, hst => by
    obtain ⟨st1, h1, hst1⟩ := (evolStep_total Q hcur temperature hs st hst).reaches D.zero
    obtain ⟨st', h2, h3⟩ := evolLoop_reaches Q D hcur temperature hs T k st1 hst1
    exact ⟨st', Reaches.bind h1 h2, h3⟩

/-- The cycles of one task can end with the target counted. -/
theorem srLoop_reaches (Q : RunSetting o d ops N) (D : DrawsOk S o) (hcur : cur ≤ o.maxsize) {s : Stats K} (hs : s.Usable o)
    (T : Target S o d ops cur t cs l c) (n : Nat) : ∀ (k : Nat) (st : EvolState K) (best : Hall K), st.Steady o d ops N →
    best.Sound o d ops N → ∃ st' best', Reaches S (srLoop o d cur s n (k + 1) st best) (st', best') ∧ st'.Steady o d ops N ∧
      best'.Sound o d ops N ∧ best'.AtMost c (lossToCost E.RT l c o.parsimony o.useBaseline d.baseline)
  | 0, st, best, hst, hb => by
    obtain ⟨k, hk⟩ : ∃ k, nEvolCycles st.pop.length o.tour.n = k + 1 := by
      have h1 := Q.tour.entrants
      have h2 := Q.two
      rw [← hst.size] at h2
      unfold nEvolCycles
      rw [if_neg (by omega)]
      have : 1 ≤ (st.pop.length + o.tour.n - 1) / o.tour.n := by
        rw [Nat.le_div_iff_mul_le (by omega)]; omega
      exact ⟨_, (Nat.sub_add_cancel this).symm⟩
    obtain ⟨st', h1, hst', m, hm, hmc, hmv, hmf⟩ := evolLoop_reaches Q D hcur (temperatureAt o n (n - 1)) hs T k st hst
    obtain ⟨b', e, hb'⟩ := update_sound Q.search.evol hcur st'.pop hb hst'.sound
    have := update_atMost Q.search hcur st'.pop hb hst'.sound e m hm hmf (hmc ▸ T.counted)
      (hmc ▸ (T.le (Q.search.evol.down hcur)).trans hcur)
    rw [hmc, hmv] at this
    refine ⟨st', b', ?_, hst', hb', this⟩
    unfold srLoop
    refine Reaches.bind (a := st') ?_ (Reaches.bind (Reaches.lift e) (Reaches.pure _))
    unfold regEvolCycle
    rw [hk]
    exact h1
  | k + 1, st, best, hst, hb => by
    obtain ⟨st1, h1, hst1⟩ := (evolLoop_total Q hcur (temperatureAt o n (n - (k + 1 + 1))) hs
      (nEvolCycles st.pop.length o.tour.n) st hst).reaches D.zero
    obtain ⟨b1, e, hb1⟩ := update_sound Q.search.evol hcur st1.pop hb hst1.sound
    obtain ⟨st', b', h2, h3⟩ := srLoop_reaches Q D hcur hs T n k st1 b1 hst1 hb1
    refine ⟨st', b', ?_, h3⟩
    rw [srLoop]
    exact Reaches.bind h1 (Reaches.bind (Reaches.lift e) h2)


/-- C82: a task can find every target: some draws make it return with an entry of the complexity of the target, among the
members it has seen, that costs at most as much as the target - whatever the population, and whatever is drawn
afterwards. -/
theorem C82_task (Q : RunSetting o d ops N) (D : DrawsOk S o) {tk : Task K} (ht : tk.Steady o d ops N)
    (T : Target S o d ops tk.cur t cs l c) :
    ∃ r : TaskResult K, r.bestSeen.AtMost c (lossToCost E.RT l c o.parsimony o.useBaseline d.baseline) ∧
      ∀ g0 : Rng (Fl K), g0.Within S → ∃ g, g.Within S ∧
        ({ tk with ps := { tk.ps with rng := g } } : Task K).run o d = some { r with ps := { r.ps with rng := g0 } } := by
  have hcur := ht.sound.cur
  have hph : ∀ b, phaseDataset o d b = pure (d, b) := by
    intro b; unfold phaseDataset; rw [Q.search.batching]; rfl
  have S' := Q.search.evol
  have hst0 : (⟨tk.ps.pop, tk.ps.ev, tk.ps.counters, 0⟩ : EvolState K).Steady o d ops N :=
    ⟨⟨fun m hm => (ht.sound.ps.pop m hm).good, ht.sound.ps.ev⟩, ht.sound.ps.pop, ht.sound.ps.size⟩
  obtain ⟨b0, e0, hb0⟩ := update_sound Q.search.evol hcur tk.ps.pop (Hall.Sound.new (o := o) (d := d) (ops := ops) (N := N)) ht.sound.ps.pop
  obtain ⟨n, hn⟩ : ∃ n, max o.ncyclesPerIteration 1 = n + 1 := ⟨max o.ncyclesPerIteration 1 - 1, by omega⟩
  obtain ⟨st, seen, h1, hst, -, hat⟩ := srLoop_reaches Q D hcur ht.stats T (n + 1) n _ b0 hst0 hb0
  obtain ⟨⟨st2, ctx⟩, h2, k0, k1, -⟩ := ((optimizeAndSimplify_total Q.search.formats Q.search.ls S' tk.ps.ctx st hst.ok.pop
      hst.ok.ev.2 ht.ctx).and_post (C58_rescored S' d S'.data rfl S'.rows tk.ps.ctx st hst.ok.pop hst.ok.ev.2)).reaches D.zero
  simp only at k0 k1
  have hcost : ∀ m ∈ st2.pop, m.cost.isNan = false := by
    intro m hm
    have := (List.forall₂_iff_get.mp k1)
    obtain ⟨i, hi, rfl⟩ := List.mem_iff_getElem.mp hm
    have h := this.2 i (this.1 ▸ hi) hi
    exact (h.scored.sound h.good).cost_not_nan S' Q.search.costs
  obtain ⟨best, _, hb, -⟩ := C30_best_sub_pop E.sort st2.pop o.topn hcost
  have hbody : Reaches S (taskBody o d tk) (st2, ctx, tk.ps.batch, seen, best) := by
    unfold taskBody
    rw [hph]
    refine Reaches.bind (Reaches.pure _) ?_
    simp only
    refine Reaches.bind (a := (st, seen)) ?_ ?_
    · unfold srCycle
      rw [hn]
      exact Reaches.bind (Reaches.lift e0) h1
    · simp only
      rw [hph]
      refine Reaches.bind (Reaches.pure _) ?_
      exact Reaches.bind h2 (Reaches.bind (Reaches.lift hb) (Reaches.pure _))
  refine ⟨⟨tk.popIdx, tk.cur, st2.evals, seen, best, ⟨st2.pop, st2.ev, ctx, tk.ps.rng, tk.ps.batch, st2.counters⟩⟩, hat, fun g0 hg0 => ?_⟩
  obtain ⟨g, hg, e⟩ := hbody g0 hg0
  refine ⟨g, hg, ?_⟩
  have : taskBody o d ({ tk with ps := { tk.ps with rng := g } } : Task K) = taskBody o d tk := rfl
  unfold Task.run
  rw [this, e]
  rfl

end
end SR
