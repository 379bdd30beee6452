import Verif.Proofs.ChanceRand
import Verif.Props.FindDefault
/-
C90: a search finds every expression the constraints allow with a probability that tends to one.
-/
namespace SR
open MeasureTheory Chance Rand
open scoped ENNReal
section
variable [E : Env ℚ]
variable {S : Fl ℚ → Prop} {o : SOptions ℚ} {d : Dataset ℚ} {ops : List OpId} {N cur : Nat} {t : Tree} {cs : List (Fl ℚ)}
  {l : Fl ℚ} {c : Nat} {ν : Bool → Measure ℕ}

/-- A lower bound for the probability that one pass of evolution produces the tree `t`: the product of the probabilities of a
mutation, of the mutation that replaces the expression, of the right size, of the right expression `e`, and of a draw that is
accepted by every test. -/
structure Luck (ν : Bool → Measure ℕ) (o : SOptions ℚ) (d : Dataset ℚ) (cur : Nat) (t : Tree) (cs : List (Fl ℚ)) (p : ℝ≥0∞) : Prop where
  intro ::
  parts : ∃ (u : Fl ℚ) (e : PostfixExpr (Fl ℚ)) (p1 p2 p3 p4 p5 : ℝ≥0∞), o.crossoverProbability.lt u = true ∧ Writes e t cs ∧
    AtLeast ν p1 (Rand.float : Rand (Fl ℚ) (Fl ℚ)) (· = u) ∧
    (∀ m : Member ℚ, AtLeast ν p2 (sampleMutation (conditionWeights o m cur d.x.rows o.weights)) (· = .randomize)) ∧
    AtLeast ν p3 (usizeRangeInclusive 1 (min (max cur 1) (max o.maxsize 1)) : Rand (Fl ℚ) Nat) (· = t.size) ∧
    AtLeast ν p4 (randomExpr normalT o.operators d.x.rows t.size) (· = e) ∧
    AtLeast ν p5 (Rand.float : Rand (Fl ℚ) (Fl ℚ)) (· = .fin 0) ∧ p = p1 * (p2 * (p3 * p4 * p5))

variable (hν : ∀ b, FullLaw (ν b))

include hν in
/-- One pass of evolution puts the target into the population with the probability `p` at least. -/
theorem evolStep_chance (Q : RunSetting o d ops N) (D : DrawsOk S o) (hcur : cur ≤ o.maxsize) (temperature : Fl ℚ) {s : Stats ℚ}
    (hs : s.Usable o) (st : EvolState ℚ) (hst : st.Steady o d ops N) (T : Target S o d ops cur t cs l c) {p : ℝ≥0∞}
    (L : Luck ν o d cur t cs p) :
    AtLeast ν p (evolStep o d cur temperature s st) fun st' => st'.Steady o d ops N ∧ ∃ m ∈ st'.pop, m.complexity = c ∧
      m.cost = lossToCost E.RT l c o.parsimony o.useBaseline d.baseline ∧ FeasibleExpr o.cx cur m.expr := by
  have ES := Q.search.evol.down hcur
  obtain ⟨u, e0, p1, p2, p3, p4, p5, hlt, he0, h1, h2, h3, h4, h5, rfl⟩ := L.parts
  suffices h : AtLeast ν (p1 * (p2 * (p3 * p4 * p5))) (evolStep o d cur temperature s st) fun st' => ∃ m ∈ st'.pop, m.complexity = c ∧
      m.cost = lossToCost E.RT l c o.parsimony o.useBaseline d.baseline ∧ FeasibleExpr o.cx cur m.expr from
    (h.post (evolStep_total Q hcur temperature hs st hst).post).mono le_rfl fun _ hx => ⟨hx.2, hx.1⟩
  have hb : Rand.Total (bestOfSample E.R E.sort E.libm E.fuel o.tour s st.pop) (· ∈ st.pop) :=
    bestOfSample_total Q.search.formats.1 Q.tour Q.search.populationSize hst.size
      (fun m hm => (hst.sound m hm).cost_not_nan Q.search.evol Q.search.costs) hs.1 hs.2
  have hmx := ES.maxsize_le
  have hsz := T.size
  obtain ⟨e, ch, hcomp, hw⟩ := he0.compress (by omega)
  obtain ⟨v, hv, hsh, hcu⟩ := hw.shape
  have huu : v.Uses ops d.x.rows e.consts.length := by
    refine Tree.all_iff.mpr ⟨?_, hcu, ?_⟩
    · rw [← Tree.features_mapConst (fun _ => 0) v, hsh, Tree.features_mapConst]; exact (Tree.all_iff.mp T.uses).1
    · rw [← Tree.opNodes_mapConst (fun _ => 0) v, hsh, Tree.opNodes_mapConst]; exact (Tree.all_iff.mp T.uses).2.2
  obtain ⟨b, hb2, hiff⟩ := C23_accepts_iff o.cx ES.cx cur ES.cur_lt v (ES.proper huu) (ES.arityLe huu)
  obtain rfl : b = true := hiff.mpr (hw.allows _ T.allowed hv)
  rw [← hv] at hb2
  have hattempt : ∀ a ∈ st.pop, AtLeast ν (p3 * p4) (attemptLoop o d cur temperature a .randomize 10 0 st.ev) fun r =>
      r = ⟨some (e, false), 0, st.ev⟩ ∧ GoodExpr ops d.x.rows N e ∧ FeasibleExpr o.cx cur e := by
    intro a ham
    have hA : AtLeast ν (p3 * p4) (attemptLoop o d cur temperature a .randomize 10 0 st.ev) (· = ⟨some (e, false), 0, st.ev⟩) := by
      have happ : AtLeast ν (p3 * p4) (Mutation.apply o d cur temperature a st.ev .randomize) (· = ⟨e0, true, 0, false, st.ev⟩) := by
        unfold Mutation.apply
        refine AtLeast.bind hν inferInstance (fun _ => by consumes) h3 fun x hx => ?_
        subst hx
        rw [← mul_one p4]
        refine AtLeast.bind hν inferInstance (fun _ => by consumes) h4 fun x hx => ?_
        subst hx
        exact AtLeast.pure hν rfl
      unfold attemptLoop
      rw [← mul_one (p3 * p4)]
      refine AtLeast.bind hν inferInstance (fun _ => by consumes) happ fun x hx => ?_
      subst hx
      simp only [Bool.not_true, Bool.false_eq_true, if_false, Nat.add_zero]
      rw [← mul_one (1 : ℝ≥0∞)]
      refine AtLeast.bind hν inferInstance (fun _ => by consumes) (AtLeast.lift hν hcomp rfl) fun x hx => ?_
      subst hx
      rw [← mul_one (1 : ℝ≥0∞)]
      refine AtLeast.bind hν inferInstance (fun _ => by consumes) (AtLeast.lift hν hb2 rfl) fun x hx => ?_
      subst hx
      exact AtLeast.pure hν rfl
    refine (hA.post (attemptLoop_spec Q.search.formats Q.search.ls ES a (hst.ok.pop a ham) temperature .randomize 10 0 st.ev
      hst.ok.ev).post).mono le_rfl ?_
    rintro r ⟨rfl, -, hr⟩
    obtain ⟨hge, hfe, -⟩ := hr e false rfl
    exact ⟨rfl, hge, hfe⟩
  unfold evolStep
  refine AtLeast.bind hν inferInstance (fun _ => by consumes) h1 fun x hx => ?_
  subst hx
  rw [if_pos hlt]
  unfold mutationStep
  rw [← one_mul (p2 * (p3 * p4 * p5))]
  refine AtLeast.bind hν inferInstance (fun _ => by consumes) (AtLeast.total hν hb) fun a ham => ?_
  rw [← mul_one (p2 * (p3 * p4 * p5))]
  refine AtLeast.bind hν (A := fun r : GenOut ℚ => r.accepted = true ∧ r.baby.complexity = c ∧
      r.baby.cost = lossToCost E.RT l c o.parsimony o.useBaseline d.baseline ∧ FeasibleExpr o.cx cur r.baby.expr)
    inferInstance (fun _ => by consumes) ?_ ?_
  · unfold nextGeneration
    refine AtLeast.bind hν inferInstance (fun _ => by consumes) (h2 a) fun x hx => ?_
    subst hx
    unfold generationWith
    refine AtLeast.bind hν inferInstance (fun _ => by consumes) (hattempt a ham) fun x hx => ?_
    obtain ⟨rfl, hge, hfe⟩ := hx
    obtain ⟨b, b', ok, ev', k1, k2, -, -, -, -, k3, k4, k5, k6⟩ := born_spec ES hge st.counters.nextId (some a.id)
      st.counters.nextBirth st.ev hst.ok.ev
    obtain ⟨v', hv', hcx, hl, hc⟩ := k5
    rw [k3] at hv' hcx hl hc
    obtain rfl := toPostfix_injective (hv'.symm.trans hv)
    rw [hw.complexity hv o.cx ES.cx (ES.arityLe huu) (ES.arityLe T.uses), T.complexity] at hcx
    simp only [Option.some.injEq] at hcx
    rw [hw.loss hv o d, T.loss] at hl hc
    simp only [Option.isSome_some, if_true, Option.getD_some] at hl hc
    rw [hl, ← hcx] at hc
    have hlf : l.isFinite = true := by
      have := T.loss
      unfold exprLoss at this
      split at this
      · rw [Option.filter_eq_some_iff] at this; exact this.2
      · cases this
    have hok : ok = true := k6.mpr (by rw [hl]; exact hlf)
    subst hok
    simp only
    rw [← one_mul p5]
    refine AtLeast.bind hν inferInstance (fun _ => by consumes) (AtLeast.lift hν k1 rfl) fun x hx => ?_
    subst hx
    rw [← one_mul p5]
    refine AtLeast.bind hν inferInstance (fun _ => by consumes) (AtLeast.lift hν k2 rfl) fun x hx => ?_
    subst hx
    have hfin : b'.cost.isFinite = true := by rw [hc]; exact T.cost
    simp only [hfin, Bool.not_true, Bool.or_self, Bool.false_eq_true, if_false]
    rw [← mul_one p5]
    refine AtLeast.bind hν inferInstance (fun _ => by consumes) h5 fun x hx => ?_
    subst hx
    rw [show (acceptProb o s temperature a b').lt (.fin 0) = false from acceptProb_nn Q.search.formats.1 D.exp hs temperature a b']
    exact AtLeast.pure hν ⟨rfl, hcx.symm, hc, k3 ▸ hfe⟩
  · rintro r ⟨r1, r2, r3, r4⟩
    obtain ⟨i, m0, hi, h0, -⟩ := C29_replace_oldest st.pop (by
      intro h; have := hst.size; have := Q.two; rw [h] at *; simp at *; omega) r.baby
    simp only [r1, Bool.not_true, Bool.false_and, Bool.false_eq_true, if_false]
    rw [← mul_one (1 : ℝ≥0∞)]
    refine AtLeast.bind hν inferInstance (fun _ => by consumes) (AtLeast.lift hν h0 rfl) fun x hx => ?_
    subst hx
    exact AtLeast.pure hν ⟨r.baby, List.mem_set (List.getElem?_eq_some_iff.mp hi).1 _, r2, r3, r4⟩

/-! ## The probability is positive -/

/-- The weights of the mutations for a member and a size limit, by the little of the member that they depend on. -/
def weightsBy (o : SOptions ℚ) (nf : Nat) (leaf empty binary big : Bool) (n : Fin 9) : MutWeights ℚ :=
  if leaf then o.weights.leaf empty
  else
    { o.weights with
      swapOperands := zeroIf (!binary) o.weights.swapOperands
      mutateConstant := E.R.mul o.weights.mutateConstant (E.R.div (E.R.ofNat n) (E.R.ofNat 8))
      mutateFeature := zeroIf (nf ≤ 1) o.weights.mutateFeature
      addNode := zeroIf big o.weights.addNode
      insertNode := zeroIf big o.weights.insertNode
      simplify := zeroIf (!o.shouldSimplify) o.weights.simplify
      optimize := zeroIf (!o.shouldOptimizeConstants || o.optimizerProbability.feq (.fin 0) || empty) o.weights.optimize }

theorem weightsBy_eq (o : SOptions ℚ) (m : Member ℚ) (cur nf : Nat) : conditionWeights o m cur nf o.weights =
    weightsBy o nf (m.expr.nodes.all PNode.isLeafNode) m.expr.consts.isEmpty (hasBinaryOp m.expr.nodes) (decide (cur ≤ m.complexity))
      ⟨min (countConstants m.expr.nodes) 8, by omega⟩ := rfl

include hν in
/-- The mutation that replaces the expression is chosen with a positive probability, the same for all members and limits. -/
theorem randomize_chance (hS : ∀ u, S u → GridDraw u) (D : DrawsOk S o) (nf : Nat) : ∃ p : ℝ≥0∞, p ≠ 0 ∧ p ≤ 1 ∧ ∀ (m : Member ℚ) (cur : Nat),
    AtLeast ν p (sampleMutation (conditionWeights o m cur nf o.weights)) (· = .randomize) := by
  have hk : ∀ k : (Bool × Bool × Bool × Bool) × Fin 9, ∃ p : ℝ≥0∞, p ≠ 0 ∧ ∀ (m : Member ℚ) (cur : Nat),
      conditionWeights o m cur nf o.weights = weightsBy o nf k.1.1 k.1.2.1 k.1.2.2.1 k.1.2.2.2 k.2 →
      AtLeast ν p (sampleMutation (conditionWeights o m cur nf o.weights)) (· = .randomize) := by
    intro k
    by_cases h : ∃ (m : Member ℚ) (cur : Nat), conditionWeights o m cur nf o.weights = weightsBy o nf k.1.1 k.1.2.1 k.1.2.2.1 k.1.2.2.2 k.2
    · obtain ⟨m, cur, h⟩ := h
      obtain ⟨p, h0, -, hp⟩ := (D.randomize m cur nf).atLeast hν hS D.zero
      exact ⟨p, h0, fun m' cur' h' => by rw [h', ← h]; exact hp⟩
    · exact ⟨1, one_ne_zero, fun m cur h' => absurd ⟨m, cur, h'⟩ h⟩
  choose f h0 hf using hk
  obtain ⟨p, hp0, hp1, hp⟩ := exists_low f h0
  exact ⟨p, hp0, hp1, fun m cur => (hf _ m cur (weightsBy_eq o m cur nf)).mono (hp ⟨⟨_, _, _, _⟩, _⟩) fun _ h => h⟩

omit E in
theorem Target.mono [Env ℚ] {cur' : Nat} (T : Target S o d ops cur t cs l c) (h : cur ≤ cur') : Target S o d ops cur' t cs l c where
  few := T.few
  uses := T.uses
  consts := T.consts
  size := T.size.trans (max_le_max h le_rfl)
  allowed := ⟨T.allowed.size.trans h, T.allowed.depth, T.allowed.arg, T.allowed.nest⟩
  loss := T.loss
  complexity := T.complexity
  counted := T.counted
  cost := T.cost

include hν in
/-- One pass has a positive probability of producing the target, the same for all size limits that allow it. -/
theorem luck_exists (Q : RunSetting o d ops N) (hS : ∀ u, S u → GridDraw u) (D : DrawsOk S o) (T : Target S o d ops cur t cs l c) :
    ∃ p : ℝ≥0∞, p ≠ 0 ∧ p ≤ 1 ∧ ∀ cur', cur ≤ cur' → cur' ≤ o.maxsize → Luck ν o d cur' t cs p := by
  have ES := Q.search.evol
  obtain ⟨u, hu, hlt⟩ := D.mutate
  obtain ⟨p1, a1, b1, h1⟩ := (Reaches.float (S := S) hu).atLeast hν hS D.zero
  obtain ⟨p2, a2, b2, h2⟩ := randomize_chance hν hS D d.x.rows
  obtain ⟨p5, a5, b5, h5⟩ := (Reaches.float (S := S) D.zero).atLeast hν hS D.zero
  have hpos : 1 ≤ t.size := by cases t <;> simp
  have h3' : ∀ k : Fin (o.maxsize + 1), ∃ p : ℝ≥0∞, p ≠ 0 ∧ (cur ≤ k →
      AtLeast ν p (usizeRangeInclusive 1 (min (max k 1) (max o.maxsize 1)) : Rand (Fl ℚ) Nat) (· = t.size)) := by
    intro k
    by_cases h : cur ≤ k
    · have hsz := T.size
      obtain ⟨p, h0, -, hp⟩ := (range_reaches (S := S) (a := 1) (b := min (max k 1) (max o.maxsize 1)) (i := t.size) hpos
        (by have := k.2; omega) (by have := ES.maxsize_le; omega)).atLeast hν hS D.zero
      exact ⟨p, h0, fun _ => hp⟩
    · exact ⟨1, one_ne_zero, fun h' => absurd h' h⟩
  choose f h0 hf using h3'
  obtain ⟨p3, a3, b3, h3⟩ := exists_low f h0
  have hmx := ES.maxsize_le
  by_cases hcm : cur ≤ o.maxsize
  · obtain ⟨e, he, hr⟩ := C77_generate (S := S) normalT E.D ops T.few (fun op h => ⟨(ES.ops_ok op h).1, (ES.ops_ok op h).2.1⟩) d.x.rows
      ES.nf_pos (by have := ES.nf_le; omega) t (by have := T.size; omega) cs T.uses (by have := numConsts_le_size t; have := T.size; omega) T.consts
    rw [← ES.operators] at hr
    obtain ⟨p4, a4, b4, h4⟩ := hr.atLeast hν hS D.zero
    refine ⟨p1 * (p2 * (p3 * p4 * p5)), ?_, ?_, fun cur' hc hc' => ⟨u, e, p1, p2, p3, p4, p5, hlt, he, h1, fun m => h2 m cur', ?_, h4,
      h5, rfl⟩⟩
    · simp only [mul_ne_zero_iff]; exact ⟨a1, a2, ⟨a3, a4⟩, a5⟩
    · exact mul_le_one' b1 (mul_le_one' b2 (mul_le_one' (mul_le_one' b3 b4) b5))
    · exact (hf ⟨cur', by omega⟩ hc).mono (h3 _) fun _ h => h
  · exact ⟨1, one_ne_zero, le_rfl, fun cur' h h' => absurd (h.trans h') hcm⟩

/-! ## One task -/

include hν in
theorem evolLoop_chance (Q : RunSetting o d ops N) (D : DrawsOk S o) (hcur : cur ≤ o.maxsize) (temperature : Fl ℚ) {s : Stats ℚ}
    (hs : s.Usable o) (T : Target S o d ops cur t cs l c) {p : ℝ≥0∞} (L : Luck ν o d cur t cs p) : ∀ (k : Nat) (st : EvolState ℚ),
    st.Steady o d ops N → AtLeast ν p (evolLoop o d cur temperature s (k + 1) st) fun st' => st'.Steady o d ops N ∧
      ∃ m ∈ st'.pop, m.complexity = c ∧ m.cost = lossToCost E.RT l c o.parsimony o.useBaseline d.baseline ∧
        FeasibleExpr o.cx cur m.expr
  | 0, st, hst => by
    rw [evolLoop, ← mul_one p]
    exact AtLeast.bind hν inferInstance (fun _ => by consumes) (evolStep_chance hν Q D hcur temperature hs st hst T L)
      fun x hx => AtLeast.pure hν hx
  | k + 1, st, hst => by
    rw [evolLoop, ← one_mul p]
    exact AtLeast.bind hν inferInstance (fun _ => by consumes) (AtLeast.total hν (evolStep_total Q hcur temperature hs st hst))
      fun x hx => evolLoop_chance Q D hcur temperature hs T L k x hx

include hν in
theorem srLoop_chance (Q : RunSetting o d ops N) (D : DrawsOk S o) (hcur : cur ≤ o.maxsize) {s : Stats ℚ} (hs : s.Usable o)
    (T : Target S o d ops cur t cs l c) {p : ℝ≥0∞} (L : Luck ν o d cur t cs p) (n : Nat) : ∀ (k : Nat) (st : EvolState ℚ)
    (best : Hall ℚ), st.Steady o d ops N → best.Sound o d ops N → AtLeast ν p (srLoop o d cur s n (k + 1) st best) fun r =>
      r.1.Steady o d ops N ∧ r.2.AtMost c (lossToCost E.RT l c o.parsimony o.useBaseline d.baseline)
  | 0, st, best, hst, hb => by
    obtain ⟨k, hk⟩ : ∃ k, nEvolCycles st.pop.length o.tour.n = k + 1 := by
      have h1 := Q.tour.entrants
      have h2 := Q.two
      rw [← hst.size] at h2
      unfold nEvolCycles
      rw [if_neg (by omega)]
      have : 1 ≤ (st.pop.length + o.tour.n - 1) / o.tour.n := by
        rw [Nat.le_div_iff_mul_le (by omega)]; omega
      exact ⟨_, (Nat.sub_add_cancel this).symm⟩
    rw [srLoop, ← mul_one p]
    refine AtLeast.bind hν inferInstance (fun _ => by consumes) (A := fun st' => st'.Steady o d ops N ∧
      ∃ m ∈ st'.pop, m.complexity = c ∧ m.cost = lossToCost E.RT l c o.parsimony o.useBaseline d.baseline ∧
        FeasibleExpr o.cx cur m.expr) ?_ ?_
    · unfold regEvolCycle
      rw [hk]
      exact evolLoop_chance hν Q D hcur _ hs T L k st hst
    · rintro st' ⟨hst', m, hm, hmc, hmv, hmf⟩
      obtain ⟨b', e, hb'⟩ := update_sound Q.search.evol hcur st'.pop hb hst'.sound
      have := update_atMost Q.search hcur st'.pop hb hst'.sound e m hm hmf (hmc ▸ T.counted)
        (hmc ▸ (T.le (Q.search.evol.down hcur)).trans hcur)
      rw [hmc, hmv] at this
      rw [← mul_one (1 : ℝ≥0∞)]
      refine AtLeast.bind hν inferInstance (fun _ => by consumes) (AtLeast.lift hν e (A := (· = b')) rfl) fun x hx => ?_
      subst hx
      exact AtLeast.pure hν ⟨hst', this⟩
  | k + 1, st, best, hst, hb => by
    rw [srLoop, ← one_mul p]
    refine AtLeast.bind hν inferInstance (fun _ => by consumes) (AtLeast.total hν (evolLoop_total Q hcur
      (temperatureAt o n (n - (k + 1 + 1))) hs (nEvolCycles st.pop.length o.tour.n) st hst)) fun st1 hst1 => ?_
    obtain ⟨b1, e, hb1⟩ := update_sound Q.search.evol hcur st1.pop hb hst1.sound
    rw [← one_mul p]
    refine AtLeast.bind hν inferInstance (fun _ => by consumes) (AtLeast.lift hν e (A := (· = b1)) rfl) fun x hx => ?_
    subst hx
    exact srLoop_chance Q D hcur hs T L n k st1 x hst1 hb1

include hν in
/-- One task counts the target with probability `p` at least. -/
theorem taskBody_chance (Q : RunSetting o d ops N) (D : DrawsOk S o) {tk : Task ℚ} (ht : tk.Steady o d ops N)
    (T : Target S o d ops tk.cur t cs l c) {p : ℝ≥0∞} (L : Luck ν o d tk.cur t cs p) :
    AtLeast ν p (taskBody o d tk) fun r =>
      r.2.2.2.1.AtMost c (lossToCost E.RT l c o.parsimony o.useBaseline d.baseline) := by
  have hcur := ht.sound.cur
  have hph : ∀ b, phaseDataset o d b = pure (d, b) := by
    intro b; unfold phaseDataset; rw [Q.search.batching]; rfl
  have S' := Q.search.evol
  have hst0 : (⟨tk.ps.pop, tk.ps.ev, tk.ps.counters, 0⟩ : EvolState ℚ).Steady o d ops N :=
    ⟨⟨fun m hm => (ht.sound.ps.pop m hm).good, ht.sound.ps.ev⟩, ht.sound.ps.pop, ht.sound.ps.size⟩
  obtain ⟨b0, e0, hb0⟩ := update_sound Q.search.evol hcur tk.ps.pop (Hall.Sound.new (o := o) (d := d) (ops := ops) (N := N)) ht.sound.ps.pop
  obtain ⟨n, hn⟩ : ∃ n, max o.ncyclesPerIteration 1 = n + 1 := ⟨max o.ncyclesPerIteration 1 - 1, by omega⟩
  unfold taskBody
  rw [hph, ← one_mul p]
  refine AtLeast.bind hν inferInstance (fun _ => by consumes) (AtLeast.pure hν (A := (· = (d, tk.ps.batch))) rfl) fun x hx => ?_
  subst hx
  simp only
  rw [← mul_one p]
  refine AtLeast.bind hν inferInstance (fun _ => by consumes) (A := fun r =>
    r.1.Steady o d ops N ∧ r.2.AtMost c (lossToCost E.RT l c o.parsimony o.useBaseline d.baseline)) ?_ ?_
  · unfold srCycle
    rw [hn, ← one_mul p]
    refine AtLeast.bind hν inferInstance (fun _ => by consumes) (AtLeast.lift hν e0 (A := (· = b0)) rfl) fun x hx => ?_
    subst hx
    exact srLoop_chance hν Q D hcur ht.stats T L (n + 1) n _ x hst0 hb0
  · rintro ⟨st, seen⟩ ⟨hst, hat⟩
    simp only at hst hat ⊢
    rw [hph, ← mul_one (1 : ℝ≥0∞)]
    refine AtLeast.bind hν inferInstance (fun _ => by consumes) (AtLeast.pure hν (A := (· = (d, tk.ps.batch))) rfl) fun x hx => ?_
    subst hx
    simp only
    rw [← mul_one (1 : ℝ≥0∞)]
    refine AtLeast.bind hν inferInstance (fun _ => by consumes) (AtLeast.total hν ((optimizeAndSimplify_total Q.search.formats Q.search.ls S'
      tk.ps.ctx st hst.ok.pop hst.ok.ev.2 ht.ctx).and_post (C58_rescored S' d S'.data rfl S'.rows tk.ps.ctx st hst.ok.pop hst.ok.ev.2)))
      ?_
    rintro ⟨st2, ctx⟩ ⟨k0, k1, -⟩
    simp only at k0 k1 ⊢
    have hcost : ∀ m ∈ st2.pop, m.cost.isNan = false := by
      intro m hm
      have := (List.forall₂_iff_get.mp k1)
      obtain ⟨i, hi, rfl⟩ := List.mem_iff_getElem.mp hm
      have h := this.2 i (this.1 ▸ hi) hi
      exact (h.scored.sound h.good).cost_not_nan S' Q.search.costs
    obtain ⟨best, _, hb, -⟩ := C30_best_sub_pop E.sort st2.pop o.topn hcost
    rw [← mul_one (1 : ℝ≥0∞)]
    refine AtLeast.bind hν inferInstance (fun _ => by consumes) (AtLeast.lift hν hb (A := (· = best)) rfl) fun x hx => ?_
    exact AtLeast.pure hν hat

end
end SR
