import Verif.Proofs.Evolve
import Verif.Props.Population
import Verif.Props.Hall
/-
C34 (mutation weights), C35 (generations), C36 (evolution).
-/
namespace SR
variable {K : Type} [Field K] [LinearOrder K] [E : Env K]

/-! ## C34 -/

theorem all_leaf_iff (t : Tree) : t.toPostfix.all PNode.isLeafNode = true ↔ t.IsLeaf := by
  unfold Tree.IsLeaf
  rw [← opNodes_toPostfix, List.filterMap_eq_nil_iff, List.all_eq_true]
  refine forall₂_congr fun n _ => ?_
  cases n <;> simp [PNode.isLeafNode]

theorem hasBinary_iff (t : Tree) : hasBinaryOp t.toPostfix = false ↔ ∀ p ∈ t.opNodes, p.2 ≠ 2 := by
  unfold hasBinaryOp
  rw [← opNodes_toPostfix, List.any_eq_false]
  simp only [List.mem_filterMap]
  constructor
  · rintro h ⟨a, b⟩ ⟨n, hn, he⟩ rfl
    cases n <;> simp at he
    obtain ⟨rfl, rfl⟩ := he
    exact h _ hn rfl
  · intro h n hn hb
    cases n with
    | op a b =>
      by_cases ha : a = 2
      · subst ha
        exact h _ ⟨_, hn, rfl⟩ rfl
      · unfold PNode.isBinary at hb; split at hb <;> simp_all
    | _ => simp [PNode.isBinary] at hb

theorem countConstants_eq (t : Tree) : countConstants t.toPostfix = t.constIdxs.length := by
  rw [← constIdxs_toPostfix]
  unfold countConstants
  generalize t.toPostfix = l
  induction l with
  | nil => rfl
  | cons n l ih => cases n <;> simp [List.filter_cons, List.filterMap_cons, PNode.isConst, PNode.constIdx?, ih]

omit [Field K] [LinearOrder K] E in
theorem feq_zero [Field K] [LinearOrder K] (x : Fl K) : x.feq (.fin 0) = true ↔ x = .fin 0 := by
  cases x <;> simp [Fl.feq, Fl.le]
  exact le_antisymm_iff.symm

open Classical in
/-- C34: the exact effect of conditioning: a weight becomes zero exactly in the listed situations; the weight of the
constant mutation of an expression with operators is multiplied by `min(number of constant leaves, 8) / 8`; every
other weight is unchanged. -/
theorem C34_exact (o : SOptions K) (m : Member K) (cur nf : Nat) (w : MutWeights K) (t : Tree)
    (hn : m.expr.nodes = t.toPostfix) (k : Mutation) :
    (conditionWeights o m cur nf w).of k =
      if SwitchedOff o cur nf t m.expr.consts.length m.complexity k then .fin 0
      else if k = .mutateConstant ∧ ¬ t.IsLeaf then
        E.R.mul w.mutateConstant (E.R.div (E.R.ofNat (min t.constIdxs.length 8)) (E.R.ofNat 8))
      else w.of k := by
  unfold conditionWeights
  rw [hn]
  by_cases hl : t.IsLeaf
  · rw [if_pos ((all_leaf_iff t).mpr hl)]
    have hsw : ∀ p ∈ t.opNodes, p.2 ≠ 2 := by unfold Tree.IsLeaf at hl; simp [hl]
    unfold MutWeights.leaf
    cases hc : m.expr.consts with
    | nil => cases k <;> simp [MutWeights.of, SwitchedOff, hl] <;> exact fun x hx => absurd rfl (hsw _ hx)
    | cons => cases k <;> simp [MutWeights.of, SwitchedOff, hl] <;> exact fun x hx => absurd rfl (hsw _ hx)
  · rw [if_neg (fun h => hl ((all_leaf_iff t).mp h))]
    cases k <;> simp only [MutWeights.of, SwitchedOff, hl, zeroIf, countConstants_eq]
    all_goals try simp
    · by_cases hb : hasBinaryOp t.toPostfix = false
      · have h := (hasBinary_iff t).mp hb
        rw [if_pos hb, if_pos (by simpa using h)]
      · have h := fun h => hb ((hasBinary_iff t).mpr h)
        rw [if_neg hb, if_neg (by simpa using h)]
    · simp only [feq_zero]
      refine if_congr ?_ rfl rfl
      tauto

/-- C34: in every lawful float format in which 8 is representable, a non-negative finite weight vector is never raised:
each weight stays, becomes zero, or (constant mutation) is scaled down to something between zero and the old weight. -/
theorem C34_never_raised [IsStrictOrderedRing K] (hR : E.R.Lawful) (h8 : E.R.rnd 8 = .fin 8) (o : SOptions K)
    (m : Member K) (cur nf : Nat) (w : MutWeights K) (t : Tree) (hn : m.expr.nodes = t.toPostfix)
    (x : K) (hx : w.mutateConstant = .fin x) (hx0 : 0 ≤ x) (hrep : E.R.rnd x = .fin x) (k : Mutation) :
    (conditionWeights o m cur nf w).of k = w.of k ∨ (conditionWeights o m cur nf w).of k = .fin 0 ∨
      (k = .mutateConstant ∧ ∃ y, (conditionWeights o m cur nf w).of k = .fin y ∧ 0 ≤ y ∧ y ≤ x) := by
  classical
  rw [C34_exact o m cur nf w t hn k]
  split
  · exact .inr (.inl rfl)
  split
  · next hk =>
    obtain ⟨rfl, -⟩ := hk
    refine .inr (.inr ⟨rfl, ?_⟩)
    have hle : ((min t.constIdxs.length 8 : Nat) : K) ≤ 8 := by
      calc ((min t.constIdxs.length 8 : Nat) : K) ≤ ((8 : Nat) : K) := by exact_mod_cast Nat.min_le_right _ _
        _ = 8 := by norm_num
    have h0 : (0 : K) ≤ ((min t.constIdxs.length 8 : Nat) : K) := Nat.cast_nonneg _
    have e8 : E.R.ofNat 8 = .fin (8 : K) := by
      unfold Rounding.ofNat
      rw [show ((8 : Nat) : K) = 8 by norm_num, h8]
    -- a rounded value between two representable ones
    have between : ∀ a b v : K, E.R.rnd a = .fin a → E.R.rnd b = .fin b → a ≤ v → v ≤ b →
        ∃ u, E.R.rnd v = .fin u ∧ a ≤ u ∧ u ≤ b := by
      intro a b v ha hb hav hvb
      have m1 := hR.mono hav
      have m2 := hR.mono hvb
      have m3 := hR.not_nan v
      rw [ha] at m1
      rw [hb] at m2
      cases hv : E.R.rnd v with
      | fin u => rw [hv] at m1 m2; simp [Fl.le] at m1 m2; exact ⟨u, rfl, m1, m2⟩
      | pinf => rw [hv] at m2; simp [Fl.le] at m2
      | ninf => rw [hv] at m1; simp [Fl.le] at m1
      | nan => rw [hv] at m3; cases m3
    obtain ⟨u, hu, hu0, hu8⟩ := between 0 8 _ hR.zero h8 h0 hle
    have hq0 : 0 ≤ u / 8 := by positivity
    have hq1 : u / 8 ≤ 1 := by rw [div_le_one (by norm_num)]; exact hu8
    obtain ⟨q, hq, hq0, hq1⟩ := between 0 1 _ hR.zero hR.one hq0 hq1
    have hm1 : x * q ≤ x := by
      calc x * q ≤ x * 1 := mul_le_mul_of_nonneg_left hq1 hx0
        _ = x := mul_one x
    obtain ⟨y, hy, hy0, hy1⟩ := between 0 x _ hR.zero hrep (mul_nonneg hx0 hq0) hm1
    refine ⟨y, ?_, hy0, hy1⟩
    rw [hx, e8, Rounding.ofNat, hu]
    simp only [Rounding.div]
    rw [if_neg (by norm_num), hq]
    simp only [Rounding.mul]
    exact hy
  · exact .inl rfl

/-- C34: mutations that cannot apply are switched off: operator, swap and delete mutations without operators; swap
without a binary operator; constant mutation and optimisation without constants; feature mutation of a constant, or of
an expression with operators over a single feature; additions and insertions to an expression with operators that is
at the size limit; simplification and optimisation when configured off. -/
theorem C34_impossible [IsStrictOrderedRing K] (hR : E.R.Lawful) (h8 : E.R.rnd 8 = .fin 8) (o : SOptions K)
    (m : Member K) (cur nf : Nat) (w : MutWeights K) (t : Tree) (hn : m.expr.nodes = t.toPostfix)
    (hw : w.mutateConstant.isFinite = true) (hused : m.expr.consts = [] ↔ t.constIdxs = []) :
    (t.opNodes = [] → (conditionWeights o m cur nf w).mutateOperator = .fin 0 ∧
      (conditionWeights o m cur nf w).swapOperands = .fin 0 ∧ (conditionWeights o m cur nf w).deleteNode = .fin 0 ∧
      (conditionWeights o m cur nf w).simplify = .fin 0) ∧
    ((∀ p ∈ t.opNodes, p.2 ≠ 2) → (conditionWeights o m cur nf w).swapOperands = .fin 0) ∧
    (t.constIdxs = [] → (conditionWeights o m cur nf w).mutateConstant = .fin 0 ∧
      (conditionWeights o m cur nf w).optimize = .fin 0) ∧
    (∀ c, t = .const c → (conditionWeights o m cur nf w).mutateFeature = .fin 0) ∧
    (t.opNodes ≠ [] → nf ≤ 1 → (conditionWeights o m cur nf w).mutateFeature = .fin 0) ∧
    (t.opNodes ≠ [] → cur ≤ m.complexity → (conditionWeights o m cur nf w).addNode = .fin 0 ∧
      (conditionWeights o m cur nf w).insertNode = .fin 0) ∧
    (o.shouldSimplify = false → (conditionWeights o m cur nf w).simplify = .fin 0) ∧
    (t.opNodes ≠ [] → o.shouldOptimizeConstants = false ∨ o.optimizerProbability = .fin 0 →
      (conditionWeights o m cur nf w).optimize = .fin 0) := by
  classical
  have key := C34_exact o m cur nf w t hn
  have off : ∀ k, SwitchedOff o cur nf t m.expr.consts.length m.complexity k →
      (conditionWeights o m cur nf w).of k = .fin 0 := fun k h => by rw [key k, if_pos h]
  refine ⟨fun h => ⟨off .mutateOperator h, off .swapOperands (by simp [SwitchedOff, h]), off .deleteNode h,
    off .simplify (.inl h)⟩, fun h => off .swapOperands h, fun h => ⟨?_, off .optimize (.inl ?_)⟩, ?_,
    fun h h' => off .mutateFeature (.inr ⟨h, h'⟩), fun h h' => ⟨off .addNode ⟨h, h'⟩, off .insertNode ⟨h, h'⟩⟩,
    fun h => off .simplify (.inr h), fun h h' => off .optimize (.inr ⟨h, h'⟩)⟩
  · have hk := key .mutateConstant
    by_cases hl : t.IsLeaf
    · exact off .mutateConstant ⟨hl, by simp [hused.mpr h]⟩
    · rw [if_neg (by simp [SwitchedOff, hl]), if_pos ⟨rfl, hl⟩] at hk
      refine hk.trans ?_
      have e8 : E.R.ofNat 8 = .fin (8 : K) := by
        unfold Rounding.ofNat
        rw [show ((8 : Nat) : K) = 8 by norm_num, h8]
      have h80 : (8 : K) ≠ 0 := by norm_num
      rw [h, e8]
      simp only [Rounding.ofNat, List.length_nil, Nat.zero_min, Nat.cast_zero, hR.zero, Rounding.div, h80, if_false,
        zero_div]
      cases hwc : w.mutateConstant with
      | fin x => simp only [Rounding.mul, mul_zero, hR.zero]
      | _ => rw [hwc] at hw; cases hw
  · simp [hused.mpr h]
  · rintro c rfl
    refine off .mutateFeature (.inl ⟨rfl, ?_⟩)
    have : m.expr.consts ≠ [] := fun h => by simpa using hused.mp h
    simpa using this

/-- C34: and they really cannot apply: on such expressions those mutations leave the expression unchanged and report
failure, for every random stream. -/
theorem C34_really_impossible {o : SOptions K} {d : Dataset K} {cur : Nat} {ops : List OpId} {N : Nat}
    (S : EvolSetting o d cur ops N) (m : Member K) (t : Tree) (hn : m.expr.nodes = t.toPostfix)
    (hu : t.Uses ops d.x.rows m.expr.consts.length) (hc : m.expr.consts.length ≤ N) (temp : Fl K)
    (ev : Evaluator K) (k : Mutation)
    (hk : (k = .mutateOperator ∨ k = .deleteNode) ∧ t.opNodes = [] ∨
      k = .swapOperands ∧ (∀ p ∈ t.opNodes, p.2 ≠ 2) ∨ k = .mutateConstant ∧ t.constIdxs = [] ∨
      k = .mutateFeature ∧ ((∃ c, t = .const c) ∨ d.x.rows ≤ 1)) :
    Rand.Total (k.apply o d cur temp m ev) fun r => r.mutated = false ∧ r.expr = m.expr := by
  have he : m.expr = ⟨t.toPostfix, m.expr.consts⟩ := by rw [← hn]
  have hms := S.mutSetting hu hc
  have hplug : ∀ (c : Ctx) (o' : Nat) (ts : List Tree), (c.plug (.op o' ts)).opNodes ≠ [] := by
    intro c o' ts h
    have : ∃ n, n ∈ (c.plug (.op o' ts)).toPostfix ∧ n = .op ts.length o' :=
      ⟨_, by rw [Ctx.toPostfix_plug, Tree.toPostfix_op]; simp, rfl⟩
    obtain ⟨n, h1, rfl⟩ := this
    rw [← opNodes_toPostfix, List.filterMap_eq_nil_iff] at h
    simpa using h _ h1
  have wrap : ∀ (x : Rand (Fl K) (PostfixExpr (Fl K) × Bool)), Rand.Total x (fun r => r.2 = false ∧ r.1 = m.expr) →
      Rand.Total (do let r ← x; pure (.plain ev r) : Rand (Fl K) (MutOutcome K))
        (fun r => r.mutated = false ∧ r.expr = m.expr) := by
    intro x hx
    exact Rand.Total.bind hx fun r hr => Rand.Total.pure hr
  rcases hk with ⟨rfl | rfl, h⟩ | ⟨rfl, h⟩ | ⟨rfl, h⟩ | ⟨rfl, h⟩
  · refine wrap _ ?_
    have := C20_mutate_operator (F := Fl K) hms
    rw [← he, ← S.operators] at this
    refine this.mono ?_
    rintro r (⟨h1, h2, -⟩ | ⟨-, c, o1, o2, ts, rfl, -⟩)
    · exact ⟨h1, h2⟩
    · exact absurd h (hplug _ _ _)
  · refine wrap _ ?_
    have := C20_delete (F := Fl K) hms
    rw [← he] at this
    refine this.mono ?_
    rintro r (⟨h1, h2, -⟩ | ⟨-, c, o1, o2, ts, u, rfl, -⟩)
    · exact ⟨h1, h2⟩
    · exact absurd h (hplug _ _ _)
  · refine wrap _ ?_
    have := C21_swap (F := Fl K) t m.expr.consts
    rw [← he] at this
    refine this.mono ?_
    rintro r (⟨h1, h2, -⟩ | ⟨-, c, o1, x, y, rfl, -⟩)
    · exact ⟨h1, h2⟩
    · rw [← hasBinary_iff, hasBinaryOp, List.any_eq_false] at h
      have hm : PNode.op 2 o1 ∈ (c.plug (.op o1 [x, y])).toPostfix := by
        rw [Ctx.toPostfix_plug, Tree.toPostfix_op]; simp
      exact absurd rfl (h _ hm)
  · refine wrap _ ?_
    have := C53_one_constant E.arith toT E.RT.mul o.perturbationFactor temp o.probNegate t m.expr.consts
      (Tree.all_iff.mp hu).2.1
    rw [← he] at this
    refine this.mono ?_
    rintro r (⟨h1, h2, -⟩ | ⟨-, ci, v, x, u, b, h3, -⟩)
    · exact ⟨h1, h2⟩
    · rw [h] at h3; cases h3
  · refine wrap _ ?_
    have := C20_mutate_feature (F := Fl K) hms
    rw [← he] at this
    refine this.mono ?_
    rintro r (⟨h1, h2⟩ | ⟨-, c, f, f', rfl, h3, h4, -⟩)
    · exact ⟨h1, h2⟩
    · rcases h with ⟨i, hi⟩ | h
      · have h1 := congrArg Tree.toPostfix hi
        have hm : PNode.var f ∈ (c.plug (.var f)).toPostfix := by rw [Ctx.toPostfix_plug]; simp
        rw [h1] at hm; simp at hm
      · have hf : f < d.x.rows := (Tree.all_iff.mp ((all_plug c _).mp hu).2).1 f (by simp)
        omega

/-- C34 (exceptions): the conditioning returns early on single leaves, so there the size limit, the number of features
and the optimiser switches are ignored; and rotation is never switched off, although it cannot apply to a leaf. -/
theorem C34_exceptions (o : SOptions K) (m : Member K) (cur nf : Nat) (w : MutWeights K) :
    (∀ f, m.expr.nodes = [.var f] → m.expr.consts = [] →
      (conditionWeights o m cur nf w).addNode = w.addNode ∧ (conditionWeights o m cur nf w).insertNode = w.insertNode ∧
      (conditionWeights o m cur nf w).mutateFeature = w.mutateFeature) ∧
    (∀ c, m.expr.nodes = [.const c] → m.expr.consts ≠ [] →
      (conditionWeights o m cur nf w).addNode = w.addNode ∧
      (conditionWeights o m cur nf w).optimize = w.optimize) ∧
    (conditionWeights o m cur nf w).rotateTree = w.rotateTree ∧
    ∀ (f : Nat) (cs : List (Fl K)), Rand.Total (rotateTree ⟨[.var f], cs⟩ : Rand (Fl K) (PostfixExpr (Fl K) × Bool))
      fun r => r.2 = false := by
  refine ⟨fun f h1 h2 => ?_, fun c h1 h2 => ?_, ?_, fun f cs => ?_⟩
  · simp [conditionWeights, h1, h2, PNode.isLeafNode, MutWeights.leaf]
  · simp [conditionWeights, h1, h2, PNode.isLeafNode, MutWeights.leaf]
  · unfold conditionWeights
    split
    · unfold MutWeights.leaf; simp only; split <;> rfl
    · rfl
  · refine (C21_rotate (.var f) cs).mono ?_
    rintro r (⟨h, -⟩ | ⟨-, c, o1, o2, l, rr, l', r', g, h, -⟩)
    · exact h
    · have h1 := congrArg Tree.toPostfix h
      have hm : PNode.op (l ++ .op o2 (l' ++ g :: r') :: rr).length o1 ∈ [PNode.var f] := by
        rw [show [PNode.var f] = _ from h1, Ctx.toPostfix_plug, Tree.toPostfix_op]
        simp
      simp at hm

/-! ## C35 -/

section
variable {o : SOptions K} {d : Dataset K} {cur : Nat} {ops : List OpId} {N : Nat} [IsStrictOrderedRing K]

omit [IsStrictOrderedRing K] in
theorem GenOk.spec {c : Counters} {m : Member K} {r : GenOut K} (h : GenOk o d cur ops N c m r) :
    GenSpec o d cur ops N c m r := by
  obtain ⟨h1, h2, h3, h4, h5, h6⟩ := h
  exact ⟨h1, by rw [h2]; exact ⟨rfl, rfl⟩, h4, h3, h5, fun h => ⟨(h6 h).1, (h6 h).2.1⟩, fun h => (h6 h).2.2⟩

omit [IsStrictOrderedRing K] in
theorem CrossOk.spec {c : Counters} {m1 m2 : Member K} {r : CrossOut K} (h : CrossOk o d cur ops N c m1 m2 r) :
    CrossSpec o d cur ops N c m1 m2 r := by
  obtain ⟨h1, h2, h3⟩ := h
  exact ⟨h1, h2, fun h => by rw [(h3 h).1]; exact ⟨rfl, rfl, (h3 h).2.1⟩, fun h => (h3 h).2.2.1, fun h => (h3 h).2.2.2.1,
    fun h => (h3 h).2.2.2.2⟩

/-- C35: a generation from any well-formed member never panics as long as a mutation can be drawn from the weights
left by the conditioning, and its result is as specified, for every random stream, temperature, statistics and kind of
mutation. -/
theorem C35_generation (hF : Env.Formats K) (hls : LsOk o) (S : EvolSetting o d cur ops N) (m : Member K)
    (hm : m.Good d ops N) (temperature : Fl K) (s : Stats K) (ev : Evaluator K) (hev : ev.Ready d) (c : Counters)
    (hw : Samplable E.R ((conditionWeights o m cur d.x.rows o.weights).choices.map Prod.snd)) :
    Rand.Total (nextGeneration o d cur temperature s ev c m) (GenSpec o d cur ops N c m) := by
  unfold nextGeneration
  refine Rand.Total.bind (sampleMutation_total hw) fun k _ => ?_
  exact (generationWith_spec hF hls S m hm temperature s ev hev c k).mono fun r h => h.spec

/-- C35: whenever a generation returns, its result is as specified (whatever the weights). -/
theorem C35_generation_result (hF : Env.Formats K) (hls : LsOk o) (S : EvolSetting o d cur ops N) (m : Member K)
    (hm : m.Good d ops N) (temperature : Fl K) (s : Stats K) (ev : Evaluator K) (hev : ev.Ready d) (c : Counters) :
    Rand.Post (nextGeneration o d cur temperature s ev c m) (GenSpec o d cur ops N c m) := by
  unfold nextGeneration
  refine Rand.Post.bind Rand.Post.true fun k _ => ?_
  exact (generationWith_spec hF hls S m hm temperature s ev hev c k).post.mono fun r h => h.spec

/-- C35: feasibility is inherited: if the parent satisfied the constraints, so does the child. -/
theorem C35_feasible (hF : Env.Formats K) (hls : LsOk o) (S : EvolSetting o d cur ops N) (m : Member K)
    (hm : m.Good d ops N) (hf : FeasibleExpr o.cx cur m.expr) (temperature : Fl K) (s : Stats K) (ev : Evaluator K)
    (hev : ev.Ready d) (c : Counters) :
    Rand.Post (nextGeneration o d cur temperature s ev c m) fun r => FeasibleExpr o.cx cur r.baby.expr := by
  refine (C35_generation_result hF hls S m hm temperature s ev hev c).mono fun r h => ?_
  cases ha : r.accepted with
  | true => exact (h.feasible ha).1
  | false => rw [(h.rejected ha).1]; exact hf

/-- C35: a crossover of two well-formed members never panics and its result is as specified. -/
theorem C35_crossover (S : EvolSetting o d cur ops N) (m1 m2 : Member K) (h1 : m1.Good d ops N) (h2 : m2.Good d ops N)
    (ev : Evaluator K) (hev : ev.Ready d) (c : Counters) :
    Rand.Total (crossoverGeneration o d cur ev c m1 m2) (CrossSpec o d cur ops N c m1 m2) :=
  (crossLoop_spec S m1 m2 h1 h2 ev hev c 10).mono fun _ h => h.spec

end

/-- C35 (exception): if conditioning leaves only zero weights, every generation panics, whatever the random stream. -/
theorem C35_exhausted (o : SOptions K) (d : Dataset K) (cur : Nat) (m : Member K)
    (hz : ∀ k, (conditionWeights o m cur d.x.rows o.weights).of k = .fin 0) (hR : E.R.Lawful)
    (temperature : Fl K) (s : Stats K) (ev : Evaluator K) (c : Counters) (g : Rng (Fl K)) :
    nextGeneration o d cur temperature s ev c m g = none := by
  have hl : (conditionWeights o m cur d.x.rows o.weights).choices.map Prod.snd = List.replicate 12 (.fin 0) := by
    simp only [MutWeights.choices, List.map_cons, List.map_nil]
    have h := hz
    simp only [MutWeights.of] at h
    rw [show (conditionWeights o m cur d.x.rows o.weights).mutateConstant = .fin 0 from hz .mutateConstant,
      show (conditionWeights o m cur d.x.rows o.weights).mutateOperator = .fin 0 from hz .mutateOperator,
      show (conditionWeights o m cur d.x.rows o.weights).mutateFeature = .fin 0 from hz .mutateFeature,
      show (conditionWeights o m cur d.x.rows o.weights).swapOperands = .fin 0 from hz .swapOperands,
      show (conditionWeights o m cur d.x.rows o.weights).rotateTree = .fin 0 from hz .rotateTree,
      show (conditionWeights o m cur d.x.rows o.weights).addNode = .fin 0 from hz .addNode,
      show (conditionWeights o m cur d.x.rows o.weights).insertNode = .fin 0 from hz .insertNode,
      show (conditionWeights o m cur d.x.rows o.weights).deleteNode = .fin 0 from hz .deleteNode,
      show (conditionWeights o m cur d.x.rows o.weights).simplify = .fin 0 from hz .simplify,
      show (conditionWeights o m cur d.x.rows o.weights).randomize = .fin 0 from hz .randomize,
      show (conditionWeights o m cur d.x.rows o.weights).doNothing = .fin 0 from hz .doNothing,
      show (conditionWeights o m cur d.x.rows o.weights).optimize = .fin 0 from hz .optimize]
    rfl
  have ht : ∀ n, weightedTotal E.R (List.replicate n (.fin (0 : K))) (.fin 0) = some (.fin 0) := by
    intro n
    induction n with
    | zero => rfl
    | succ n ih =>
      rw [List.replicate_succ, weightedTotal]
      simp only [Fl.isFinite, Fl.lt, lt_irrefl, decide_false, Bool.not_true, Bool.or_self, Bool.false_eq_true, if_false,
        Rounding.add, add_zero, hR.zero, ih]
  unfold nextGeneration sampleMutation
  rw [hl]
  unfold weightedIndex
  rw [ht]
  simp [Fl.isFinite, Fl.le, Rand.run_bind, Rand.fail]

/-! ## C36 -/

section
variable {o : SOptions K} {d : Dataset K} {cur : Nat} {ops : List OpId} {N : Nat} [IsStrictOrderedRing K]

omit [IsStrictOrderedRing K] E in
theorem bestOfSample_mem (R : Rounding K) (S : SortBy) (lib : Libm K) (fuel : Nat) (tour : TourOptions K) (s : Stats K)
    (p : Population K) : Rand.Post (bestOfSample R S lib fuel tour s p) (· ∈ p) := by
  unfold bestOfSample
  refine Rand.Post.bind Rand.Post.true fun _ _ => ?_
  refine Rand.Post.bind Rand.Post.true fun _ _ => ?_
  refine Rand.Post.bind Rand.Post.true fun _ _ => ?_
  split
  · exact Rand.Post.fail
  refine Rand.Post.bind Rand.Post.true fun _ _ => ?_
  refine Rand.Post.bind Rand.Post.true fun _ _ => ?_
  exact Rand.Post.lift fun a h => List.mem_of_getElem? h

theorem mutationStep_spec (hF : Env.Formats K) (hls : LsOk o) (S : EvolSetting o d cur ops N) (temperature : Fl K)
    (s : Stats K) (st : EvolState K) (hst : st.Ok d ops N) :
    Rand.Post (mutationStep o d cur temperature s st) (EvolMove o d cur ops N st) := by
  unfold mutationStep
  refine Rand.Post.bind (bestOfSample_mem E.R E.sort E.libm E.fuel o.tour s st.pop) fun m hm => ?_
  refine Rand.Post.bind (C35_generation_result hF hls S m (hst.pop m hm) temperature s st.ev hst.ev st.counters)
    fun r hr => ?_
  simp only
  split
  · next h =>
    simp only [Bool.and_eq_true, Bool.not_eq_true'] at h
    exact Rand.Post.pure (.mutFail st m r hm hr h.1 h.2)
  · next h =>
    simp only [Bool.and_eq_true, Bool.not_eq_true'] at h
    refine Rand.Post.bind (P := fun p => replaceOldest st.pop r.baby = some p) (Rand.Post.lift fun _ h => h) fun p hp => ?_
    obtain ⟨i, old, h1, h2, -, h3, -⟩ := C29_replace_oldest st.pop
      (fun h0 => by rw [(C29_panics st.pop r.baby r.baby).1.mpr h0] at hp; cases hp) r.baby
    rw [h2] at hp; cases hp
    refine Rand.Post.pure (.mutate st m r i old hm hr ?_ h1 h3)
    cases ha : r.accepted
    · right; cases hk : o.skipMutationFailures
      · rfl
      · exact absurd ⟨ha, hk⟩ h
    · left; rfl

theorem crossoverStep_spec (S : EvolSetting o d cur ops N)
    (s : Stats K) (st : EvolState K) (hst : st.Ok d ops N) :
    Rand.Post (crossoverStep o d cur s st) (EvolMove o d cur ops N st) := by
  unfold crossoverStep
  refine Rand.Post.bind (bestOfSample_mem E.R E.sort E.libm E.fuel o.tour s st.pop) fun m1 hm1 => ?_
  refine Rand.Post.bind (bestOfSample_mem E.R E.sort E.libm E.fuel o.tour s st.pop) fun m2 hm2 => ?_
  refine Rand.Post.bind (C35_crossover S m1 m2 (hst.pop m1 hm1) (hst.pop m2 hm2) st.ev hst.ev st.counters).post
    fun r hr => ?_
  simp only
  split
  · next h =>
    simp only [Bool.and_eq_true, Bool.not_eq_true'] at h
    exact Rand.Post.pure (.crossFail st m1 m2 r hm1 hm2 hr h.1 h.2)
  · next h =>
    simp only [Bool.and_eq_true, Bool.not_eq_true'] at h
    refine Rand.Post.bind (P := fun p => replaceTwoOldest st.pop r.baby1 r.baby2 = some p)
      (Rand.Post.lift fun _ h => h) fun p hp => ?_
    obtain ⟨i1, i2, old1, old2, h1, h2, h3, h4, -, h5, h6⟩ := C29_replace_two_oldest st.pop (by
      by_contra h0
      rw [(C29_panics st.pop r.baby1 r.baby2).2.mpr (by omega)] at hp; cases hp) r.baby1 r.baby2
    rw [h4] at hp; cases hp
    refine Rand.Post.pure (.cross st m1 m2 r i1 i2 old1 old2 hm1 hm2 hr ?_ h1 h2 h3 h5 h6)
    cases ha : r.accepted
    · right; cases hk : o.skipMutationFailures
      · rfl
      · exact absurd ⟨ha, hk⟩ h
    · left; rfl

omit [IsStrictOrderedRing K] in
/-- Everything a move preserves. -/
theorem EvolMove.keeps {st st' : EvolState K} (h : EvolMove o d cur ops N st st') (hst : st.Ok d ops N) :
    st'.Ok d ops N ∧ st'.pop.length = st.pop.length ∧
    ((∀ m ∈ st.pop, FeasibleExpr o.cx cur m.expr) → ∀ m ∈ st'.pop, FeasibleExpr o.cx cur m.expr) := by
  have memset : ∀ {p : Population K} {i : Nat} {b x : Member K}, x ∈ p.set i b → x = b ∨ x ∈ p := fun h =>
    (List.mem_or_eq_of_mem_set h).symm
  cases h with
  | mutFail m r hm hr h1 h2 => exact ⟨⟨hst.pop, hr.ev⟩, rfl, id⟩
  | mutate m r i old hm hr h1 h2 h3 =>
    refine ⟨⟨fun x hx => ?_, hr.ev⟩, by simp, fun hf x hx => ?_⟩
    · rcases memset hx with rfl | hx
      · exact hr.good
      · exact hst.pop x hx
    · rcases memset hx with rfl | hx
      · cases ha : r.accepted with
        | true => exact (hr.feasible ha).1
        | false => rw [(hr.rejected ha).1]; exact hf m hm
      · exact hf x hx
  | crossFail m1 m2 r hm1 hm2 hr h1 h2 => exact ⟨⟨hst.pop, hr.ev⟩, rfl, id⟩
  | cross m1 m2 r i1 i2 old1 old2 hm1 hm2 hr h1 h2 h3 h4 h5 h6 =>
    have hmem : ∀ x ∈ (st.pop.set i1 r.baby1).set i2 r.baby2, x = r.baby1 ∨ x = r.baby2 ∨ x ∈ st.pop := by
      intro x hx
      rcases memset hx with rfl | hx
      · exact .inr (.inl rfl)
      · rcases memset hx with rfl | hx
        · exact .inl rfl
        · exact .inr (.inr hx)
    cases ha : r.accepted with
    | true =>
      refine ⟨⟨fun x hx => ?_, hr.ev⟩, by simp, fun hf x hx => ?_⟩
      · rcases hmem x hx with h | h | h
        · exact (hr.children ha x (.inl h)).1
        · exact (hr.children ha x (.inr h)).1
        · exact hst.pop x h
      · rcases hmem x hx with h | h | h
        · exact (hr.children ha x (.inl h)).2.1
        · exact (hr.children ha x (.inr h)).2.1
        · exact hf x h
    | false =>
      obtain ⟨e1, e2, -⟩ := hr.rejected ha
      have hmem' : ∀ x ∈ (st.pop.set i1 r.baby1).set i2 r.baby2, x ∈ st.pop := by
        intro x hx
        rcases hmem x hx with rfl | rfl | h
        · rw [e1]; exact hm1
        · rw [e2]; exact hm2
        · exact h
      exact ⟨⟨fun x hx => hst.pop x (hmem' x hx), hr.ev⟩, by simp, fun hf x hx => hf x (hmem' x hx)⟩

omit [IsStrictOrderedRing K] in
theorem EvolMoves.keeps {n : Nat} {st st' : EvolState K} (h : EvolMoves o d cur ops N n st st') (hst : st.Ok d ops N) :
    st'.Ok d ops N ∧ st'.pop.length = st.pop.length ∧
    ((∀ m ∈ st.pop, FeasibleExpr o.cx cur m.expr) → ∀ m ∈ st'.pop, FeasibleExpr o.cx cur m.expr) := by
  induction h with
  | refl => exact ⟨hst, rfl, id⟩
  | step h _ ih =>
    obtain ⟨h1, h2, h3⟩ := h.keeps hst
    obtain ⟨k1, k2, k3⟩ := ih h1
    exact ⟨k1, by omega, fun hf => k3 (h3 hf)⟩

omit [IsStrictOrderedRing K] in
theorem EvolMoves.trans {n k : Nat} {a b c : EvolState K} (h : EvolMoves o d cur ops N n a b)
    (h' : EvolMoves o d cur ops N k b c) : EvolMoves o d cur ops N (n + k) a c := by
  induction h with
  | refl => simpa using h'
  | step m _ ih => rw [Nat.add_right_comm]; exact .step m (ih h')

/-- C36: every pass of evolution is one of the specified moves. -/
theorem C36_step (hF : Env.Formats K) (hls : LsOk o) (S : EvolSetting o d cur ops N) (temperature : Fl K)
    (s : Stats K) (st : EvolState K) (hst : st.Ok d ops N) :
    Rand.Post (evolStep o d cur temperature s st) (EvolMove o d cur ops N st) := by
  unfold evolStep
  refine Rand.Post.bind Rand.Post.true fun u _ => ?_
  split
  · exact mutationStep_spec hF hls S temperature s st hst
  · exact crossoverStep_spec S s st hst

theorem evolLoop_spec (hF : Env.Formats K) (hls : LsOk o) (S : EvolSetting o d cur ops N) (temperature : Fl K)
    (s : Stats K) : ∀ (k : Nat) (st : EvolState K), st.Ok d ops N →
    Rand.Post (evolLoop o d cur temperature s k st) (EvolMoves o d cur ops N k st)
  | 0, st, _ => Rand.Post.pure (.refl st)
  | k + 1, st, hst => by
    unfold evolLoop
    refine Rand.Post.bind (C36_step hF hls S temperature s st hst) fun st1 h1 => ?_
    exact (evolLoop_spec hF hls S temperature s k st1 (h1.keeps hst).1).mono fun st2 h2 => .step h1 h2

/-- C36: a cycle of regularised evolution is a sequence of `ceil(population size / tournament size)` moves, so it keeps
the number of members, and if all members satisfied the constraints before, all do after.  (With a tournament size of
zero the number of moves is the largest machine integer: the cycle would run practically for ever.) -/
theorem C36_cycle (hF : Env.Formats K) (hls : LsOk o) (S : EvolSetting o d cur ops N) (temperature : Fl K)
    (s : Stats K) (st : EvolState K) (hst : st.Ok d ops N) :
    Rand.Post (regEvolCycle o d cur temperature s st) fun st' =>
      (∃ k, EvolMoves o d cur ops N k st st' ∧
        (0 < o.tour.n → st.pop.length ≤ k * o.tour.n ∧ ∀ j, st.pop.length ≤ j * o.tour.n → k ≤ j) ∧
        (o.tour.n = 0 → st.pop ≠ [] → k = usizeMax)) ∧
      st'.Ok d ops N ∧ st'.pop.length = st.pop.length ∧
      ((∀ m ∈ st.pop, FeasibleExpr o.cx cur m.expr) → ∀ m ∈ st'.pop, FeasibleExpr o.cx cur m.expr) := by
  refine (evolLoop_spec hF hls S temperature s _ st hst).mono fun st' h => ?_
  refine ⟨⟨_, h, ?_, ?_⟩, h.keeps hst⟩
  · intro hn
    unfold nEvolCycles
    rw [if_neg (by omega)]
    constructor
    · have h1 := Nat.div_add_mod (st.pop.length + o.tour.n - 1) o.tour.n
      have h2 := Nat.mod_lt (st.pop.length + o.tour.n - 1) hn
      rw [Nat.mul_comm] at h1
      omega
    · intro j hj
      rw [Nat.div_le_iff_le_mul_add_pred hn, Nat.mul_comm]
      omega
  · intro hn hne
    unfold nEvolCycles
    rw [if_pos hn, if_neg (by simpa using hne)]

omit [IsStrictOrderedRing K] [Field K] E in
theorem offerAll_append (cx : CxOptions) (h : Hall K) (a b : List (Offer K)) :
    offerAll cx h (a ++ b) = (offerAll cx h a).bind fun h' => offerAll cx h' b := by
  unfold offerAll
  rw [List.foldlM_append]; rfl

theorem srLoop_spec (hF : Env.Formats K) (hls : LsOk o) (S : EvolSetting o d cur ops N) (s : Stats K) (n : Nat) :
    ∀ (k : Nat) (st : EvolState K) (best : Hall K), st.Ok d ops N →
    Rand.Post (srLoop o d cur s n k st best) fun r =>
      ∃ (j : Nat) (pops : List (Population K)), EvolMoves o d cur ops N j st r.1 ∧ pops.length = k ∧
        (pops = [] → r.1 = st) ∧ (∀ p, pops.getLast? = some p → p = r.1.pop) ∧
        (∀ p ∈ pops, ∃ i st1, i ≤ j ∧ EvolMoves o d cur ops N i st st1 ∧ st1.pop = p) ∧
        offerAll o.cx best (pops.flatten.map fun m => (cur, m)) = some r.2
  | 0, st, best, _ => Rand.Post.pure ⟨0, [], .refl st, rfl, fun _ => rfl, by simp, by simp, rfl⟩
  | k + 1, st, best, hst => by
    unfold srLoop
    refine Rand.Post.bind (C36_cycle hF hls S _ s st hst) fun st1 h1 => ?_
    obtain ⟨⟨j1, m1, -⟩, hok, -⟩ := h1
    refine Rand.Post.bind (P := fun b => best.update o.cx cur st1.pop = some b) (Rand.Post.lift fun _ h => h)
      fun b hb => ?_
    refine (srLoop_spec hF hls S s n k st1 b hok).mono ?_
    rintro r ⟨j, pops, g1, g2, g3, g4, g5, g6⟩
    refine ⟨j1 + j, st1.pop :: pops, m1.trans g1, by simp [g2], by simp, ?_, ?_, ?_⟩
    · intro p hp
      cases hpops : pops with
      | nil => rw [hpops] at hp; simp at hp; rw [g3 hpops, hp]
      | cons q qs => rw [hpops, List.getLast?_cons_cons, ← hpops] at hp; exact g4 p hp
    · intro p hp
      rcases List.mem_cons.mp hp with rfl | hp
      · exact ⟨j1, st1, by omega, m1, rfl⟩
      · obtain ⟨i, st2, hi, hm, he⟩ := g5 p hp
        exact ⟨j1 + i, st2, by omega, m1.trans hm, he⟩
    · rw [List.flatten_cons, List.map_append, offerAll_append, ← C25_update, hb]
      exact g6

/-- C36: a whole iteration's evolution (any number of cycles at falling temperature) is a sequence of moves; the
hall of fame it returns is what results from offering, to an empty hall, all members of the population before the
first cycle and after each cycle. -/
theorem C36_iteration (hF : Env.Formats K) (hls : LsOk o) (S : EvolSetting o d cur ops N)
    (s : Stats K) (st : EvolState K) (hst : st.Ok d ops N) :
    Rand.Post (srCycle o d cur s st) fun r =>
      (∃ (j : Nat) (pops : List (Population K)), EvolMoves o d cur ops N j st r.1 ∧
        pops.length = max o.ncyclesPerIteration 1 ∧ pops.getLast? = some r.1.pop ∧
        (∀ p ∈ pops, ∃ i st1, i ≤ j ∧ EvolMoves o d cur ops N i st st1 ∧ st1.pop = p) ∧
        offerAll o.cx (Hall.new o.maxsize) ((st.pop :: pops).flatten.map fun m => (cur, m)) = some r.2) ∧
      r.1.Ok d ops N ∧ r.1.pop.length = st.pop.length ∧
      ((∀ m ∈ st.pop, FeasibleExpr o.cx cur m.expr) → ∀ m ∈ r.1.pop, FeasibleExpr o.cx cur m.expr) := by
  unfold srCycle
  refine Rand.Post.bind (P := fun b => (Hall.new o.maxsize).update o.cx cur st.pop = some b)
    (Rand.Post.lift fun _ h => h) fun b hb => ?_
  refine (srLoop_spec hF hls S s _ _ st b hst).mono ?_
  rintro r ⟨j, pops, g1, g2, -, g4, g5, g6⟩
  refine ⟨⟨j, pops, g1, g2, ?_, g5, ?_⟩, g1.keeps hst⟩
  · cases h : pops.getLast? with
    | none => rw [List.getLast?_eq_none_iff] at h; rw [h] at g2; simp at g2; omega
    | some p => rw [g4 p h]
  · rw [List.flatten_cons, List.map_append, offerAll_append, ← C25_update, hb]
    exact g6

end
end SR

namespace SR.Demo
local instance : Env ℚ := env

/-- The operators of the demonstration. -/
def opIds : List OpId := [⟨1, 0⟩, ⟨2, 0⟩, ⟨2, 1⟩, ⟨2, 2⟩]

/-- The hypotheses of the evolution theorems hold for the demonstration options and data. -/
theorem evolSetting : EvolSetting opts data 7 opIds 7 where
  operators := by decide
  ops_ok := by decide
  cxD := rfl
  cx := cx_wf
  data := data_wf
  rows := by decide
  nf_pos := by decide
  nf_le := by decide
  cur_lt := by decide
  maxsize_le := by decide
  size t _ h := by
    have h1 := h.size
    have h2 := weights_default (o := opts.cx) (by decide) t
    exact h2 ▸ h1
  room := by decide
  two := by decide

/-- A member of it, and a usable state. -/
example : ∃ m : Member ℚ, Member.fromExpr 5 none 7 expr 1 = some m ∧ m.Good data opIds 7 ∧
    FeasibleExpr opts.cx 7 m.expr ∧
    Samplable (Rounding.exact ℚ) ((conditionWeights opts m 7 1 opts.weights).choices.map Prod.snd) ∧
    EvolState.Ok data opIds 7 ⟨[m, m], Evaluator.new 2, ⟨10, 10⟩, 0⟩ := by
  obtain ⟨m, h1, h2, h3, -⟩ := C55_from_expr data expr tree setting 5 7 none
  have hg : m.Good data opIds 7 := by
    refine ⟨⟨tree, by rw [h3]; rfl, ?_, by decide, by rw [h3]; decide⟩, h2⟩
    rw [h3]
    simp only [tree, Tree.Uses, expr, data, Tree.all_op, List.length_cons, List.length_nil]
    exact ⟨by decide, by simp⟩
  refine ⟨m, h1, hg, ⟨tree, by rw [h3]; rfl, ?_⟩, ?_, ⟨by simpa using hg, ?_⟩⟩
  · obtain ⟨b, hb, hiff⟩ := C23_accepts_iff opts.cx cx_wf 7 (by decide) tree (by simp [tree, Tree.Proper])
      (by simp [tree, Tree.ArityLe, opts, cx])
    apply hiff.mp
    have h : checkConstraints opts.cx 7 tree.toPostfix = some true := by decide
    rw [h] at hb
    simpa using hb.symm
  · have : Member.fromExpr 5 none 7 expr 1 = some m → Samplable (Rounding.exact ℚ)
        ((conditionWeights opts m 7 1 opts.weights).choices.map Prod.snd) := by
      have hd : ∀ m : Member ℚ, m.expr = expr → m.complexity = 0 →
          (conditionWeights opts m 7 1 opts.weights).choices.map Prod.snd =
          [.fin (1 / 8), .fin 1, .fin 0, .fin 1, .fin 1, .fin 1, .fin 1, .fin 1, .fin 1, .fin 1, .fin 1, .fin 1] := by
        intro m he hc
        unfold conditionWeights
        rw [he, hc]
        decide +kernel
      intro hm
      have hc : m.complexity = 0 := by
        unfold Member.fromExpr at hm
        rw [Option.map_eq_some_iff] at hm
        obtain ⟨_, _, rfl⟩ := hm; rfl
      rw [hd m h3 hc]
      exact ⟨.fin (81 / 8), by decide +kernel, by decide, by decide +kernel⟩
    exact this h1
  · simp [Evaluator.Ready, Evaluator.new, data, Buf.WF, Buf.zeros]

end SR.Demo
