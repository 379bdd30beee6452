import Verif.Proofs.Constraints
import Verif.Props.Postfix
/-
C23 (constraint check), C24 (complexity).
-/
namespace SR

/-- All operator arities are at most `D` (a type-level fact of the code: `D` bounds the operator set). -/
def Tree.ArityLe (D : Nat) (t : Tree) : Prop := t.All (fun _ => True) (fun _ => True) (fun _ a => a ≤ D)

/-- The constraints described by the options with the current size limit. -/
def CxOptions.limits (o : CxOptions) (cur : Nat) : Limits where
  weights := o.weights
  size := cur
  depth := o.maxdepth
  arg := tableArg o.opLimits
  nest p q m := ∃ rules, o.nested.lookup p = some rules ∧ (q, m) ∈ rules

theorem weights_default {o : CxOptions} (h : o.usesDefault = true) (t : Tree) :
    o.weights.total t = t.size := by
  simp only [CxOptions.usesDefault, Bool.and_eq_true, beq_iff_eq, Option.isNone_iff_eq_none,
    List.isEmpty_iff] at h
  obtain ⟨⟨⟨h1, h2⟩, h3⟩, h4⟩ := h
  apply total_one
  · intro f; simp [CxOptions.weights, CxOptions.varCx, h3, h2]
  · simp [CxOptions.weights, h1]
  · intro id; simp [CxOptions.weights, h4]

/-- C24: the complexity of every well-formed expression is the sum over its nodes of the configured weights;
it saturates at the largest `usize` (only reachable with custom weights). -/
theorem C24_complexity (o : CxOptions) (hw : o.WF) (t : Tree) (hD : t.ArityLe o.D) :
    computeComplexity o t.toPostfix =
      some (if o.usesDefault then (t.toPostfix.map o.weights.node).sum
        else min ((t.toPostfix.map o.weights.node).sum) usizeMax) := by
  rw [computeComplexity]
  by_cases h : o.usesDefault = true
  · rw [if_pos h, if_pos h]
    have := weights_default h t
    rw [Weights.total] at this
    rw [this, length_toPostfix]
  · rw [if_neg h, if_neg h, customCx_tree hw none (by intro id j lim h; simp [optArg] at h) t hD, if_pos]
    · rfl
    · intro o' ts _ j lim u _ h
      simp [optArg] at h

/-- C24 (no expression): without nodes the complexity is zero. -/
theorem C24_empty (o : CxOptions) : computeComplexity o [] = some 0 := by
  unfold computeComplexity
  split <;> rfl

/-- C24 (defaults): with the default settings the complexity is the number of nodes. -/
theorem C24_default (o : CxOptions) (h1 : o.complexityOfConstants = 1) (h2 : o.complexityOfVariables = 1)
    (h3 : o.variableComplexities = none) (h4 : o.operatorComplexityOverrides = []) (nodes : List PNode) :
    computeComplexity o nodes = some nodes.length := by
  rw [computeComplexity, if_pos]
  simp [CxOptions.usesDefault, h1, h2, h3, h4]

/-- C24 (weights): what the configured weight of each node is. -/
theorem C24_weights (o : CxOptions) :
    (∀ f l x, o.variableComplexities = some l → l[f]? = some x → o.weights.node (.var f) = x) ∧
    (∀ f, (∀ l, o.variableComplexities = some l → l.length ≤ f) →
      o.weights.node (.var f) = o.complexityOfVariables) ∧
    (∀ c, o.weights.node (.const c) = o.complexityOfConstants) ∧
    (∀ a op w, o.operatorComplexityOverrides.lookup ⟨a, op⟩ = some w → o.weights.node (.op a op) = w) ∧
    (∀ a op, o.operatorComplexityOverrides.lookup ⟨a, op⟩ = none → o.weights.node (.op a op) = 1) := by
  refine ⟨?_, ?_, ?_, ?_, ?_⟩
  · intro f l x h1 h2; simp [Weights.node, CxOptions.weights, CxOptions.varCx, h1, h2]
  · intro f h
    simp only [Weights.node, CxOptions.weights, CxOptions.varCx]
    cases hv : o.variableComplexities with
    | none => simp
    | some l => simp [List.getElem?_eq_none (h l hv)]
  · intro c; rfl
  · intro a op w h; simp [Weights.node, CxOptions.weights, h]
  · intro a op h; simp [Weights.node, CxOptions.weights, h]

theorem le_sum_of_mem' {l : List Nat} {x : Nat} (h : x ∈ l) : x ≤ l.sum := by
  induction l with
  | nil => cases h
  | cons a l ih =>
    rw [List.sum_cons]
    rcases List.mem_cons.mp h with rfl | h
    · omega
    · have := ih h; omega

theorem depth_le_size (t : Tree) : t.depth ≤ t.size := by
  induction t using Tree.ind with
  | hv f => simp
  | hc f => simp
  | ho o ts ih =>
    rw [Tree.depth_op, Tree.size_op]
    have : Tree.maxList (ts.map Tree.depth) ≤ (ts.map Tree.size).sum := by
      rw [maxList_le_iff]
      intro x hx
      obtain ⟨u, hu, rfl⟩ := List.mem_map.mp hx
      exact Nat.le_trans (ih u hu) (le_sum_of_mem' (List.mem_map_of_mem hu))
    omega

theorem allows_iff (o : CxOptions) (cur : Nat) (t : Tree) (hp : t.Proper) :
    (o.limits cur).Allows t ↔ o.weights.total t ≤ cur ∧ t.depth ≤ o.maxdepth ∧
      ArgOk o.weights (tableArg o.opLimits) t ∧ NestOk o.nested t := by
  have hn : (∀ (p : Nat) (ts : List Tree), Tree.Sub (.op p ts) t → ∀ (q : OpId) (m : Nat),
      (o.limits cur).nest ⟨ts.length, p⟩ q m → ∀ u ∈ ts, ∀ p ∈ u.paths, p.count (.op q.arity q.id) ≤ m) ↔
      NestOk o.nested t := by
    have hsub : ∀ {p : Nat} {ts : List Tree}, Tree.Sub (.op p ts) t → ∀ u ∈ ts, u.Proper := by
      intro p ts hs u hu
      obtain ⟨c, hc⟩ := sub_iff_ctx.mp hs
      rw [hc] at hp
      exact (Tree.all_op.mp (Ctx_all_plug_right c _ hp)).2 u hu
    constructor
    · intro h p ts hs rules hl r hr
      rw [maxList_le_iff]
      intro x hx
      obtain ⟨u, hu, rfl⟩ := List.mem_map.mp hx
      exact (paths_le_iff r.1 u (hsub hs u hu) r.2).mp (h p ts hs r.1 r.2 ⟨rules, hl, hr⟩ u hu)
    · rintro h p ts hs q m ⟨rules, hl, hr⟩ u hu
      apply (paths_le_iff q u (hsub hs u hu) m).mpr
      exact maxList_le_iff.mp (h p ts hs rules hl (q, m) hr) _ (List.mem_map_of_mem hu)
  constructor
  · rintro ⟨h1, h2, h3, h4⟩
    exact ⟨h1, h2, h3, hn.mp h4⟩
  · rintro ⟨h1, h2, h3, h4⟩
    exact ⟨h1, h2, h3, hn.mpr h4⟩

/-- C23: for every well-formed expression, options and size limit below the largest `usize`, the constraint
check does not panic and accepts exactly the expressions allowed by the specification `Limits.Allows`. -/
theorem C23_accepts_iff (o : CxOptions) (hw : o.WF) (cur : Nat) (hcur : cur < usizeMax) (t : Tree)
    (hp : t.Proper) (hD : t.ArityLe o.D) :
    ∃ b, checkConstraints o cur t.toPostfix = some b ∧ (b = true ↔ (o.limits cur).Allows t) := by
  classical
  refine ⟨_, (?_ : _ = some (decide ((o.limits cur).Allows t))), by simp⟩
  have hdepth : countDepth t.toPostfix = some t.depth := (C02_count_depth _ _).mpr ⟨t, rfl, rfl⟩
  rw [checkConstraints]
  have hnest := checkNested_tree t o.nested hw.nest_le
  have hlims : ∀ id j lim, optArg (some o.opLimits) id j = some lim → lim ≤ 65535 := by
    intro id j lim h
    simp only [optArg, Option.bind_some] at h
    cases hl : o.opLimits.lookup id with
    | none => rw [hl] at h; simp at h
    | some l => rw [hl] at h; exact hw.lims_le _ (lookup_mem hl) j lim h
  have hdec : decide ((o.limits cur).Allows t) = decide (o.weights.total t ≤ cur ∧ t.depth ≤ o.maxdepth ∧
      ArgOk o.weights (tableArg o.opLimits) t ∧ NestOk o.nested t) :=
    decide_eq_decide.mpr (allows_iff o cur t hp)
  rw [hdec]
  by_cases hdef : o.usesDefault = true
  · have hW := weights_default hdef
    rw [checkDefaultArgs_tree o o.weights hW t hD]
    simp only [hdef, Bool.not_true, Bool.or_false, length_toPostfix, hW, if_true]
    by_cases hdc : o.maxdepth < cur
    · simp only [hdc, decide_true, if_true, hdepth]
      by_cases hd : o.maxdepth < t.depth
      · have : ¬ t.depth ≤ o.maxdepth := by omega
        simp [hd, this]
      · have hd' : t.depth ≤ o.maxdepth := by omega
        by_cases hs : cur < t.size
        · have : ¬ t.size ≤ cur := by omega
          simp [hd, hs, this]
        · have hs' : t.size ≤ cur := by omega
          by_cases ha : ArgOk o.weights (tableArg o.opLimits) t
          · simp [hd, hs, hd', hs', ha, ← hnest]
          · simp [hd, hs, hd', hs', ha]
    · have hd' : t.size ≤ cur → t.depth ≤ o.maxdepth := by
        have := depth_le_size t; omega
      simp only [hdc, decide_false, Bool.false_eq_true, if_false]
      by_cases hs : cur < t.size
      · have : ¬ t.size ≤ cur := by omega
        simp [hs, this]
      · have hs' : t.size ≤ cur := by omega
        by_cases ha : ArgOk o.weights (tableArg o.opLimits) t
        · simp [hs, hd' hs', hs', ha, ← hnest]
        · simp [hs, hd' hs', hs', ha]
  · have hdef' : o.usesDefault = false := by simpa using hdef
    rw [customCx_tree hw (some o.opLimits) hlims t hD]
    have harg : ArgOk o.weights (optArg (some o.opLimits)) t ↔
        ArgOk o.weights (tableArg o.opLimits) t := Iff.rfl
    simp only [hdef', Bool.not_false, Bool.or_true, if_true, hdepth, Bool.false_eq_true, if_false]
    by_cases hd : o.maxdepth < t.depth
    · have : ¬ t.depth ≤ o.maxdepth := by omega
      simp [hd, this]
    · have hd' : t.depth ≤ o.maxdepth := by omega
      by_cases ha : ArgOk o.weights (tableArg o.opLimits) t
      · have ha' := harg.mpr ha
        by_cases hs : cur < o.weights.total t
        · have h1 : ¬ o.weights.total t ≤ cur := by omega
          have h2 : cur < min (o.weights.total t) usizeMax := by omega
          simp [hd, ha', h1, h2]
        · have h1 : o.weights.total t ≤ cur := by omega
          have h2 : ¬ cur < min (o.weights.total t) usizeMax := by omega
          simp only [hd, decide_false, Option.map_some, Option.bind_eq_bind, Option.bind_some,
            Bool.false_eq_true, if_false, ha', if_true, h2, h1, hd', ha, true_and, ← hnest,
            Bool.decide_eq_true]
      · have ha' : ¬ ArgOk o.weights (optArg (some o.opLimits)) t := ha
        simp [hd, ha', ha]

/-- One constraint configuration is at least as permissive as another (same weights). -/
structure Limits.Looser (L L' : Limits) : Prop where
  weights : L'.weights = L.weights
  size : L.size ≤ L'.size
  depth : L.depth ≤ L'.depth
  arg : ∀ id j lim', L'.arg id j = some lim' → ∃ lim, L.arg id j = some lim ∧ lim ≤ lim'
  nest : ∀ p q m', L'.nest p q m' → ∃ m, L.nest p q m ∧ m ≤ m'

/-- C23 (monotone): raising or removing limits never rejects an accepted expression. -/
theorem C23_monotone (o o' : CxOptions) (hw : o.WF) (hw' : o'.WF) (cur cur' : Nat) (hc : cur < usizeMax)
    (hc' : cur' < usizeMax) (t : Tree) (hp : t.Proper) (hD : t.ArityLe o.D) (hD' : t.ArityLe o'.D)
    (hl : (o.limits cur).Looser (o'.limits cur'))
    (h : checkConstraints o cur t.toPostfix = some true) :
    checkConstraints o' cur' t.toPostfix = some true := by
  obtain ⟨b, hb, hiff⟩ := C23_accepts_iff o hw cur hc t hp hD
  obtain ⟨b', hb', hiff'⟩ := C23_accepts_iff o' hw' cur' hc' t hp hD'
  rw [h] at hb
  simp only [Option.some.injEq] at hb
  have ha := hiff.mp hb.symm
  rw [hb']
  congr 1
  apply hiff'.mpr
  refine ⟨?_, Nat.le_trans ha.depth hl.depth, ?_, ?_⟩
  · rw [hl.weights]; exact Nat.le_trans ha.size hl.size
  · intro p ts hs j lim' u hu hlim
    obtain ⟨lim, h1, h2⟩ := hl.arg _ _ _ hlim
    rw [hl.weights]
    exact Nat.le_trans (ha.arg p ts hs j lim u hu h1) h2
  · intro p ts hs q m' hm u hu pth hpth
    obtain ⟨m, h1, h2⟩ := hl.nest _ _ _ hm
    exact Nat.le_trans (ha.nest p ts hs q m h1 u hu pth hpth) h2

theorem lookup_filter_ne {β : Type} (l : List (OpId × β)) (k k' : OpId) (h : k' ≠ k) :
    (l.filter fun e => decide (e.1 ≠ k)).lookup k' = l.lookup k' := by
  induction l with
  | nil => rfl
  | cons e l ih =>
    obtain ⟨a, b⟩ := e
    by_cases ha : a = k
    · subst ha
      rw [List.filter_cons_of_neg (by simp), ih, List.lookup_cons]
      have : (k' == a) = false := by simpa using h
      simp [this]
    · rw [List.filter_cons_of_pos (by simpa using ha), List.lookup_cons, List.lookup_cons, ih]

/-- C23 (configuration): setting the limit of one argument of one operator changes exactly that limit. -/
theorem C23_set_op_arg (D : Nat) (limits : List (OpId × (Nat → Option Nat))) (op : OpId) (j max : Nat)
    (hj : j < D) :
    ∃ limits', setOpArg D limits op j max = some limits' ∧
      ∀ id i, tableArg limits' id i = if id = op ∧ i = j then some max else tableArg limits id i := by
  refine ⟨_, by rw [setOpArg, if_pos hj], ?_⟩
  intro id i
  simp only [tableArg]
  by_cases h : id = op
  · subst h
    simp only [List.lookup_cons_self, Option.bind_some, true_and]
    by_cases hi : i = j
    · simp [hi]
    · simp only [hi, if_false]
      cases limits.lookup id <;> simp
  · rw [if_neg (fun hh => h hh.1), List.lookup_cons]
    have : (id == op) = false := by simpa using h
    simp only [this]
    rw [lookup_filter_ne _ _ _ h]

/-- C23 (configuration): adding a nesting rule adds exactly that rule. -/
theorem C23_add_nested (o : CxOptions) (root nested : OpId) (max cur : Nat) :
    ∀ p q m, ({ o with nested := addNested o.nested root nested max }.limits cur).nest p q m ↔
      (o.limits cur).nest p q m ∨ (p = root ∧ q = nested ∧ m = max) := by
  intro p q m
  simp only [CxOptions.limits, addNested]
  by_cases h : p = root
  · subst h
    simp only [List.lookup_cons_self, Option.some.injEq, true_and]
    constructor
    · rintro ⟨rules, rfl, hm⟩
      rcases List.mem_append.mp hm with hm | hm
      · cases hl : o.nested.lookup p with
        | none => rw [hl] at hm; simp at hm
        | some r => rw [hl] at hm; exact Or.inl ⟨r, rfl, by simpa using hm⟩
      · simp at hm; exact Or.inr hm
    · rintro (⟨rules, hl, hm⟩ | ⟨rfl, rfl⟩)
      · exact ⟨_, rfl, by rw [hl]; simp [hm]⟩
      · exact ⟨_, rfl, by simp⟩
  · rw [List.lookup_cons]
    have : (p == root) = false := by simpa using h
    simp only [this, h, false_and, or_false]
    rw [lookup_filter_ne _ _ _ h]

/-! ### Non-vacuity -/

/-- `sin` (unary 0) may not contain `sin`; the second argument of `pow` (binary 1) has complexity at most 2;
variables cost 2, `pow` costs 3. -/
private def exOpts : CxOptions where
  D := 2
  complexityOfConstants := 1
  complexityOfVariables := 2
  variableComplexities := none
  operatorComplexityOverrides := [(⟨2, 1⟩, 3)]
  maxdepth := 4
  opLimits := [(⟨2, 1⟩, fun j => if j = 1 then some 2 else none)]
  nested := [(⟨1, 0⟩, [(⟨1, 0⟩, 0)])]

private theorem exOpts_wf : exOpts.WF where
  const_le := by decide
  var_le := by decide
  vars_le := by intro l h; simp [exOpts] at h
  ops_le := by simp [exOpts]
  lims_le := by
    intro e he j lim h
    simp only [exOpts, List.mem_singleton] at he
    subst he
    simp only at h
    split at h <;> simp at h
    omega
  nest_le := by simp [exOpts]

/-- `pow(sin(x0), x1)` is accepted at size 8 and rejected at size 7; `pow(x0, sin(x1))` and `sin(sin(x0))`
are rejected at any size. -/
example : checkConstraints exOpts 8 [.var 0, .op 1 0, .var 1, .op 2 1] = some true ∧
    checkConstraints exOpts 7 [.var 0, .op 1 0, .var 1, .op 2 1] = some false ∧
    checkConstraints exOpts 100 [.var 0, .var 1, .op 1 0, .op 2 1] = some false ∧
    checkConstraints exOpts 100 [.var 0, .op 1 0, .op 1 0] = some false := by decide

/-- So the specification holds of a non-trivial expression. -/
example : (exOpts.limits 8).Allows (.op 1 [.op 0 [.var 0], .var 1]) := by
  obtain ⟨b, hb, hiff⟩ := C23_accepts_iff exOpts exOpts_wf 8 (by decide) (.op 1 [.op 0 [.var 0], .var 1])
    (by simp [Tree.Proper]) (by simp [Tree.ArityLe, exOpts])
  apply hiff.mp
  have h : checkConstraints exOpts 8 [.var 0, .op 1 0, .var 1, .op 2 1] = some true := by decide
  simp at hb
  rw [h] at hb
  simpa using hb.symm

example : computeComplexity exOpts [.var 0, .op 1 0, .var 1, .op 2 1] = some 8 := by decide

end SR
