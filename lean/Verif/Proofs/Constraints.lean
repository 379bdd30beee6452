import Verif.Model.Constraints
import Verif.Spec.Constraints
import Verif.Proofs.Mutation
/-
Proofs about complexity and constraints.
-/
namespace SR

theorem sub_iff_ctx {s t : Tree} : Tree.Sub s t ↔ ∃ c : Ctx, t = c.plug s := by
  constructor
  · intro h
    induction h with
    | refl => exact ⟨.hole, rfl⟩
    | @child o ts u hu _ ih =>
      obtain ⟨c, rfl⟩ := ih
      obtain ⟨l, r, rfl⟩ := List.append_of_mem hu
      exact ⟨.node o l c r, rfl⟩
  · rintro ⟨c, rfl⟩
    induction c with
    | hole => exact .refl
    | node o l c r ih => exact .child (by simp) ih

theorem sub_op {s : Tree} {o : Nat} {ts : List Tree} :
    Tree.Sub s (.op o ts) ↔ s = .op o ts ∨ ∃ u ∈ ts, Tree.Sub s u := by
  constructor
  · intro h
    cases h with
    | refl => exact Or.inl rfl
    | child h1 h2 => exact Or.inr ⟨_, h1, h2⟩
  · rintro (rfl | ⟨u, h1, h2⟩)
    · exact .refl
    · exact .child h1 h2

theorem not_sub_var {o : Nat} {ts : List Tree} {f : Nat} : ¬ Tree.Sub (.op o ts) (.var f) := by
  intro h; cases h
theorem not_sub_const {o : Nat} {ts : List Tree} {f : Nat} : ¬ Tree.Sub (.op o ts) (.const f) := by
  intro h; cases h

/-! ### Weights -/

@[simp] theorem total_var (W : Weights) (f) : W.total (.var f) = W.var f := by simp [Weights.total, Weights.node]
@[simp] theorem total_const (W : Weights) (f) : W.total (.const f) = W.const := by
  simp [Weights.total, Weights.node]
@[simp] theorem total_op (W : Weights) (o ts) :
    W.total (.op o ts) = (ts.map W.total).sum + W.op ⟨ts.length, o⟩ := by
  simp only [Weights.total, Tree.toPostfix_op, List.map_append, List.map_flatten, List.map_map,
    List.sum_append, List.map_cons, List.map_nil, List.sum_cons, List.sum_nil, Weights.node]
  congr 1
  induction ts with
  | nil => rfl
  | cons t ts ih =>
    simp only [List.map_cons, List.flatten_cons, List.sum_append, List.sum_cons, ih, Function.comp,
      Weights.total]

theorem total_one (W : Weights) (hv : ∀ f, W.var f = 1) (hc : W.const = 1) (ho : ∀ o, W.op o = 1)
    (t : Tree) : W.total t = t.size := by
  induction t using Tree.ind with
  | hv f => simp [hv]
  | hc f => simp [hc]
  | ho o ts ih =>
    rw [total_op, Tree.size_op, List.map_congr_left ih, ho, Nat.add_comm]

theorem foldl_satAdd (l : List Nat) (a : Nat) :
    (l.map (min · usizeMax)).foldl satAdd (min a usizeMax) = min (a + l.sum) usizeMax := by
  induction l generalizing a with
  | nil => simp
  | cons x l ih =>
    simp only [List.map_cons, List.foldl_cons, List.sum_cons]
    have : satAdd (min a usizeMax) (min x usizeMax) = min (a + x) usizeMax := by
      unfold satAdd; omega
    rw [this, ih, Nat.add_assoc]

theorem range_getD (l st : List Nat) :
    (List.range l.length).map (fun j => (l ++ st).getD j 0) = l := by
  apply List.ext_getElem
  · simp
  · intro i h1 h2
    simp [List.getD, List.getElem?_append_left h2, List.getElem?_eq_getElem h2]

/-- Configured weights of the options. -/
def CxOptions.weights (o : CxOptions) : Weights where
  var := o.varCx
  const := o.complexityOfConstants
  op id := (o.operatorComplexityOverrides.lookup id).getD 1

/-- Field widths of the options: `u16` complexities and limits, `u8` nesting bounds. -/
structure CxOptions.WF (o : CxOptions) : Prop where
  const_le : o.complexityOfConstants ≤ 65535
  var_le : o.complexityOfVariables ≤ 65535
  vars_le : ∀ l, o.variableComplexities = some l → ∀ x ∈ l, x ≤ 65535
  ops_le : ∀ e ∈ o.operatorComplexityOverrides, e.2 ≤ 65535
  lims_le : ∀ e ∈ o.opLimits, ∀ j lim, e.2 j = some lim → lim ≤ 65535
  nest_le : ∀ e ∈ o.nested, ∀ r ∈ e.2, r.2 ≤ 255

theorem lookup_mem {α β : Type} [BEq α] [LawfulBEq α] {k : α} {v : β} {l : List (α × β)}
    (h : l.lookup k = some v) : (k, v) ∈ l := by
  induction l with
  | nil => simp at h
  | cons e l ih =>
    obtain ⟨k', v'⟩ := e
    rw [List.lookup_cons] at h
    by_cases hk : k == k'
    · simp only [hk] at h
      have := eq_of_beq hk
      simp at h; simp [this, h]
    · simp only [hk] at h
      exact List.mem_cons_of_mem _ (ih h)

theorem varCx_le {o : CxOptions} (h : o.WF) (f : Nat) : o.varCx f ≤ 65535 := by
  unfold CxOptions.varCx
  cases hv : o.variableComplexities with
  | none => simpa using h.var_le
  | some l =>
    simp only [Option.bind_some]
    cases hf : l[f]? with
    | none => simpa using h.var_le
    | some x => exact h.vars_le l hv x (List.mem_of_getElem? hf)

theorem opCx_le {o : CxOptions} (h : o.WF) (id : OpId) : o.weights.op id ≤ 65535 := by
  show ((o.operatorComplexityOverrides.lookup id).getD 1) ≤ 65535
  cases hv : o.operatorComplexityOverrides.lookup id with
  | none => simp
  | some x => exact h.ops_le _ (lookup_mem hv)

/-- The argument-limit part of the specification. -/
def ArgOk (W : Weights) (arg : OpId → Nat → Option Nat) (t : Tree) : Prop :=
  ∀ (o : Nat) (ts : List Tree), Tree.Sub (.op o ts) t → ∀ (j lim : Nat) (u : Tree),
    ts[j]? = some u → arg ⟨ts.length, o⟩ j = some lim → W.total u ≤ lim

theorem argOk_leaf_var (W : Weights) (arg) (f : Nat) : ArgOk W arg (.var f) :=
  fun _ _ h => absurd h not_sub_var
theorem argOk_leaf_const (W : Weights) (arg) (f : Nat) : ArgOk W arg (.const f) :=
  fun _ _ h => absurd h not_sub_const

theorem argOk_op (W : Weights) (arg) (o : Nat) (ts : List Tree) :
    ArgOk W arg (.op o ts) ↔ (∀ u ∈ ts, ArgOk W arg u) ∧
      ∀ (j lim : Nat) (u : Tree), ts[j]? = some u → arg ⟨ts.length, o⟩ j = some lim → W.total u ≤ lim := by
  constructor
  · intro h
    exact ⟨fun u hu o' ts' hs => h o' ts' (.child hu hs), h o ts .refl⟩
  · rintro ⟨h1, h2⟩ o' ts' hs
    rcases sub_op.mp hs with h | ⟨u, hu, hs⟩
    · cases h; exact h2
    · exact h1 u hu o' ts' hs

/-- Argument limits of a table. -/
def tableArg (limits : List (OpId × (Nat → Option Nat))) (id : OpId) (j : Nat) : Option Nat :=
  (limits.lookup id).bind fun l => l j

/-- Argument limits of an optional table (`None`: no check). -/
def optArg (limits : Option (List (OpId × (Nat → Option Nat)))) (id : OpId) (j : Nat) : Option Nat :=
  (limits.bind (List.lookup id)).bind fun l => l j

theorem exceeded_iff (lims : Nat → Option Nat) (child : List Nat) :
    argLimitExceeded lims child = true ↔
      ∃ (j lim c : Nat), child[j]? = some c ∧ lims j = some lim ∧ lim < c := by
  simp only [argLimitExceeded, List.any_eq_true, Prod.exists]
  constructor
  · rintro ⟨c, j, hm, h⟩
    have hm := List.mem_zipIdx_iff_getElem?.mp hm
    cases hl : lims j with
    | none => rw [hl] at h; simp at h
    | some lim => rw [hl] at h; exact ⟨j, lim, c, hm, hl, by simpa using h⟩
  · rintro ⟨j, lim, c, h1, h2, h3⟩
    exact ⟨c, j, List.mem_zipIdx_iff_getElem?.mpr h1, by simp [h2, h3]⟩

open Classical in
theorem customCxGo_list (o : CxOptions) (limits : Option (List (OpId × (Nat → Option Nat))))
    (ts : List Tree)
    (h : ∀ t ∈ ts, ∀ (rest : List PNode) (st : List Nat),
      customCxGo o limits (t.toPostfix ++ rest) st =
        if ArgOk o.weights (optArg limits) t
        then customCxGo o limits rest (min (o.weights.total t) usizeMax :: st) else some none)
    (rest : List PNode) (st : List Nat) :
    customCxGo o limits ((ts.map Tree.toPostfix).flatten ++ rest) st =
      if ∀ t ∈ ts, ArgOk o.weights (optArg limits) t
      then customCxGo o limits rest ((ts.map fun t => min (o.weights.total t) usizeMax).reverse ++ st)
      else some none := by
  induction ts generalizing st with
  | nil => simp
  | cons t ts ih =>
    rw [List.map_cons, List.flatten_cons, List.append_assoc, h t (by simp)]
    by_cases ht : ArgOk o.weights (optArg limits) t
    · rw [if_pos ht, ih fun u hu => h u (by simp [hu])]
      simp [ht]
    · rw [if_neg ht, if_neg]
      intro h'; exact ht (h' t (by simp))

open Classical in
theorem customCxGo_tree {o : CxOptions} (hw : o.WF)
    (limits : Option (List (OpId × (Nat → Option Nat))))
    (hl : ∀ id j lim, optArg limits id j = some lim → lim ≤ 65535)
    (t : Tree) (hD : t.All (fun _ => True) (fun _ => True) (fun _ a => a ≤ o.D)) :
    ∀ (rest : List PNode) (st : List Nat),
      customCxGo o limits (t.toPostfix ++ rest) st =
        if ArgOk o.weights (optArg limits) t
        then customCxGo o limits rest (min (o.weights.total t) usizeMax :: st) else some none := by
  have hU : 65535 < usizeMax := by decide
  induction t using Tree.ind with
  | hv f =>
    intro rest st
    rw [if_pos (argOk_leaf_var _ _ f)]
    have h1 : min (o.weights.total (.var f)) usizeMax = o.varCx f := by
      have : o.weights.var f = o.varCx f := rfl
      have := varCx_le hw f
      rw [total_var]; omega
    rw [h1]; rfl
  | hc f =>
    intro rest st
    rw [if_pos (argOk_leaf_const _ _ f)]
    have h1 : min (o.weights.total (.const f)) usizeMax = o.complexityOfConstants := by
      have : o.weights.const = o.complexityOfConstants := rfl
      have := hw.const_le
      rw [total_const]; omega
    rw [h1]; rfl
  | ho op ts ih =>
    intro rest st
    have hD' := Tree.all_op.mp hD
    rw [Tree.toPostfix_op, List.append_assoc,
      customCxGo_list o limits ts (fun t ht => ih t ht (hD'.2 t ht))]
    by_cases hall : ∀ t ∈ ts, ArgOk o.weights (optArg limits) t
    · rw [if_pos hall]
      simp only [List.cons_append, List.nil_append]
      rw [customCxGo, if_neg (by have := hD'.1; omega)]
      set sw := ts.map fun t => min (o.weights.total t) usizeMax with hsw
      have hlen : sw.reverse.length = ts.length := by simp [hsw]
      have hchild : ((List.range ts.length).map fun j => (sw.reverse ++ st).getD j 0).reverse = sw := by
        rw [← hlen, range_getD, List.reverse_reverse]
      have hdrop : (sw.reverse ++ st).drop ts.length = st := by rw [← hlen, List.drop_left]
      simp only [hchild, hdrop]
      have hloc : argCheckFails limits ⟨ts.length, op⟩ sw = true ↔ ¬ (∀ (j lim : Nat) (u : Tree), ts[j]? = some u →
            optArg limits ⟨ts.length, op⟩ j = some lim → o.weights.total u ≤ lim) := by
        rw [argCheckFails]
        cases hb : limits.bind (List.lookup ⟨ts.length, op⟩) with
        | none => simp [optArg, hb]
        | some lims =>
          simp only []
          rw [exceeded_iff]
          constructor
          · rintro ⟨j, lim, c, h1, h2, h3⟩ hc
            rw [hsw, List.getElem?_map] at h1
            cases hu : ts[j]? with
            | none => rw [hu] at h1; simp at h1
            | some u =>
              rw [hu] at h1; simp at h1
              have := hc j lim u hu (by simp [optArg, hb, h2])
              omega
          · intro hc
            simp only [Classical.not_forall] at hc
            obtain ⟨j, lim, u, h1, h2, h3⟩ := hc
            have hle := hl _ _ _ h2
            refine ⟨j, lim, min (o.weights.total u) usizeMax, ?_, ?_, by omega⟩
            · rw [hsw, List.getElem?_map, h1]; rfl
            · simpa [optArg, hb] using h2
      by_cases hex : argCheckFails limits ⟨ts.length, op⟩ sw = true
      · rw [if_pos hex, if_neg]
        rw [argOk_op]
        rintro ⟨_, h2⟩
        exact hloc.mp hex h2
      · rw [if_neg hex, if_pos]
        · congr 2
          have hsum : (sw ++ List.replicate (o.D - ts.length) 0).foldl satAdd 0 =
              min (ts.map o.weights.total).sum usizeMax := by
            have e : sw ++ List.replicate (o.D - ts.length) 0 =
                (ts.map o.weights.total ++ List.replicate (o.D - ts.length) 0).map (min · usizeMax) := by
              simp [hsw, Function.comp_def]
            have := foldl_satAdd (ts.map o.weights.total ++ List.replicate (o.D - ts.length) 0) 0
            rw [e]
            simpa using this
          rw [hsum, total_op]
          have hb := opCx_le hw ⟨ts.length, op⟩
          have : o.weights.op ⟨ts.length, op⟩ = (o.operatorComplexityOverrides.lookup ⟨ts.length, op⟩).getD 1 :=
            rfl
          rw [← this]
          unfold satAdd; omega
        · rw [argOk_op]
          exact ⟨hall, Classical.not_not.mp fun h => hex (hloc.mpr h)⟩
    · rw [if_neg hall, if_neg]
      rw [argOk_op]
      exact fun h => hall h.1

open Classical in
theorem customCx_tree {o : CxOptions} (hw : o.WF)
    (limits : Option (List (OpId × (Nat → Option Nat))))
    (hl : ∀ id j lim, optArg limits id j = some lim → lim ≤ 65535)
    (t : Tree) (hD : t.All (fun _ => True) (fun _ => True) (fun _ a => a ≤ o.D)) :
    customCx o limits t.toPostfix =
      some (if ArgOk o.weights (optArg limits) t then some (min (o.weights.total t) usizeMax) else none) := by
  have := customCxGo_tree hw limits hl t hD [] []
  rw [List.append_nil] at this
  rw [customCx, this]
  split <;> rfl

/-! ### Default argument constraints -/

theorem Ctx_all_plug_right {pv pc : Nat → Prop} {po : Nat → Nat → Prop} (c : Ctx) (s : Tree)
    (h : (c.plug s).All pv pc po) : s.All pv pc po := by
  induction c with
  | hole => exact h
  | node o l c r ih => exact ih ((Tree.all_op.mp h).2 _ (by simp))


open Classical in
theorem defaultArgLoop_eq (D : Nat) (lims : Nat → Option Nat) (sizes : List Nat) (rs : List (Nat × Nat))
    (szs : List Nat) (h : rs.map (fun r => sizes[r.2]?) = szs.map some) (j : Nat)
    (hD : j + rs.length ≤ D) :
    defaultArgLoop D lims sizes rs j =
      some (decide (∀ (k lim c : Nat), szs[k]? = some c → lims (j + k) = some lim → c ≤ lim)) := by
  induction rs generalizing szs j with
  | nil =>
    cases szs with
    | nil => simp [defaultArgLoop]
    | cons => simp at h
  | cons r rs ih =>
    cases szs with
    | nil => simp at h
    | cons s szs =>
      simp only [List.map_cons, List.cons.injEq] at h
      simp only [List.length_cons] at hD
      rw [defaultArgLoop, if_neg (by omega)]
      have key : (∀ (k lim c : Nat), (s :: szs)[k]? = some c → lims (j + k) = some lim → c ≤ lim) ↔
          (∀ lim, lims j = some lim → s ≤ lim) ∧
          (∀ (k lim c : Nat), szs[k]? = some c → lims (j + 1 + k) = some lim → c ≤ lim) := by
        constructor
        · intro hh
          refine ⟨fun lim hl => hh 0 lim s (by simp) (by simpa using hl), fun k lim c h1 h2 => ?_⟩
          exact hh (k + 1) lim c (by simpa using h1) (by rw [← h2]; congr 1; omega)
        · rintro ⟨h1, h2⟩ k lim c hk hl
          cases k with
          | zero => simp at hk; subst hk; exact h1 lim (by simpa using hl)
          | succ k => exact h2 k lim c (by simpa using hk) (by rw [← hl]; congr 1; omega)
      have ih' := ih szs h.2 (j + 1) (by omega)
      cases hl : lims j with
      | none =>
        simp only [ih']
        congr 1
        simp only [decide_eq_decide]
        rw [key]; simp [hl]
      | some lim =>
        simp only [h.1]
        by_cases hlt : lim < s
        · rw [if_pos hlt]
          congr 1
          symm
          simp only [decide_eq_false_iff_not]
          rw [key]
          rintro ⟨h1, _⟩
          have := h1 lim hl
          omega
        · rw [if_neg hlt, ih']
          congr 1
          simp only [decide_eq_decide]
          rw [key]
          constructor
          · intro h2; refine ⟨?_, h2⟩
            intro l hl'
            rw [hl] at hl'; simp at hl'; omega
          · exact fun h2 => h2.2


open Classical in
theorem defaultArgGo_eq (o : CxOptions) (sizes : List Nat) (nodes : List PNode) (start : Nat)
    (Q : Nat → PNode → Prop)
    (hQ : ∀ (k a op : Nat) lims, nodes[k]? = some (.op a op) → o.opLimits.lookup ⟨a, op⟩ = some lims →
      ∃ ranges, childRanges sizes (start + k) a = some ranges ∧
        defaultArgLoop o.D lims sizes ranges 0 = some (decide (Q k (.op a op))))
    (hno : ∀ (k a op : Nat), nodes[k]? = some (.op a op) → o.opLimits.lookup ⟨a, op⟩ = none →
      Q k (.op a op))
    (hleaf : ∀ (k : Nat) (n : PNode), nodes[k]? = some n → n.isOp = false → Q k n) :
    defaultArgGo o sizes nodes start = some (decide (∀ (k : Nat) (n : PNode), nodes[k]? = some n → Q k n)) := by
  induction nodes generalizing start Q with
  | nil => simp [defaultArgGo]
  | cons n ns ih =>
    have key : (∀ (k : Nat) (m : PNode), (n :: ns)[k]? = some m → Q k m) ↔
        Q 0 n ∧ ∀ (k : Nat) (m : PNode), ns[k]? = some m → Q (k + 1) m := by
      constructor
      · intro h; exact ⟨h 0 n (by simp), fun k m hk => h (k + 1) m (by simpa using hk)⟩
      · rintro ⟨h1, h2⟩ k m hk
        cases k with
        | zero => simp at hk; exact hk ▸ h1
        | succ k => exact h2 k m (by simpa using hk)
    have ih' := ih (start + 1) (fun k m => Q (k + 1) m)
      (fun k a op lims h1 h2 => by
        have := hQ (k + 1) a op lims (by simpa using h1) h2
        rwa [show start + (k + 1) = start + 1 + k by omega] at this)
      (fun k a op h1 h2 => hno (k + 1) a op (by simpa using h1) h2)
      (fun k m h1 h2 => hleaf (k + 1) m (by simpa using h1) h2)
    have fin : Q 0 n → some (decide (∀ (k : Nat) (m : PNode), ns[k]? = some m → Q (k + 1) m)) =
        some (decide (∀ (k : Nat) (m : PNode), (n :: ns)[k]? = some m → Q k m)) := by
      intro h0
      congr 1
      rw [decide_eq_decide, key]
      exact ⟨fun h => ⟨h0, h⟩, fun h => h.2⟩
    cases n with
    | var f => rw [defaultArgGo, ih'] <;> first | exact fin (hleaf 0 _ (by simp) rfl) | simp
    | const f => rw [defaultArgGo, ih'] <;> first | exact fin (hleaf 0 _ (by simp) rfl) | simp
    | op a op =>
      rw [defaultArgGo]
      cases hl : o.opLimits.lookup ⟨a, op⟩ with
      | none =>
        simp only [ih']
        exact fin (hno 0 a op (by simp) hl)
      | some lims =>
        obtain ⟨ranges, h1, h2⟩ := hQ 0 a op lims (by simp) hl
        rw [Nat.add_zero] at h1
        simp only [h1, h2]
        by_cases h0 : Q 0 (.op a op)
        · simp only [h0, decide_true]
          rw [ih']; exact fin h0
        · simp only [h0, decide_false]
          symm
          congr 1
          rw [decide_eq_false_iff_not, key]
          exact fun h => h0 h.1

open Classical in
theorem checkDefaultArgs_tree (o : CxOptions) (W : Weights) (hW : ∀ u, W.total u = u.size) (t : Tree)
    (hD : t.All (fun _ => True) (fun _ => True) (fun _ a => a ≤ o.D)) :
    checkDefaultArgs o t.toPostfix = some (decide (ArgOk W (tableArg o.opLimits) t)) := by
  rw [checkDefaultArgs]
  split
  · rename_i he
    have : o.opLimits = [] := by simpa using he
    congr 1
    symm
    rw [decide_eq_true_eq]
    intro p ts _ j lim u _ h
    simp [tableArg, this] at h
  · rw [subtreeSizes_toPostfix]
    simp only []
    rw [defaultArgGo_eq o _ _ 0 (fun k _ => ∀ (op : Nat) (ts : List Tree),
      t.subtrees[k]? = some (.op op ts) → ∀ (j lim : Nat) (u : Tree), ts[j]? = some u →
        tableArg o.opLimits ⟨ts.length, op⟩ j = some lim → W.total u ≤ lim)]
    · congr 1
      rw [decide_eq_decide]
      constructor
      · intro h p ts hs
        obtain ⟨c, rfl⟩ := sub_iff_ctx.mp hs
        have hat := at_plug c (.op p ts)
        obtain ⟨P, Q, hsub, hPl⟩ := subtrees_plug c (.op p ts)
        refine h (c.pre.length + (Tree.op p ts).size - 1) _ hat.getElem?_eq p ts ?_
        have hpos := Tree.size_pos (.op p ts)
        rw [hsub, List.append_assoc, List.getElem?_append_right (by omega),
          List.getElem?_append_left (by rw [length_subtrees]; omega)]
        have hlast : (Tree.op p ts).subtrees.getLast? = some (.op p ts) := by simp
        rw [← hlast, List.getLast?_eq_getElem?, length_subtrees]; congr 1; omega
      · intro h k n _ op ts hk
        obtain ⟨c, hc, _⟩ := subtrees_ctx t k _ hk
        exact h op ts (sub_iff_ctx.mpr ⟨c, hc⟩)
    · intro k a op lims hk hl
      obtain ⟨c, s, hc, hi, hr⟩ := position_ctx hk
      cases s with
      | var f => simp [Tree.rootNode] at hr
      | const f => simp [Tree.rootNode] at hr
      | op p ts =>
        simp only [Tree.rootNode, PNode.op.injEq] at hr
        obtain ⟨rfl, rfl⟩ := hr
        have hat := at_plug c (.op p ts)
        rw [← hc] at hat
        refine ⟨_, by rw [Nat.zero_add, hi]; exact childRanges_eq hat, ?_⟩
        have hsz : (rangesFrom c.pre.length ts).map
            (fun r => (t.subtrees.map Tree.size)[r.2]?) = (ts.map Tree.size).map some := by
          apply List.ext_getElem?
          intro j
          simp only [List.getElem?_map]
          cases hu : ts[j]? with
          | none =>
            have : ts.length ≤ j := by simpa using hu
            rw [List.getElem?_eq_none (by simpa using this)]; simp
          | some u =>
            obtain ⟨l, r, hlr, hll⟩ : ∃ l r, ts = l ++ u :: r ∧ l.length = j := by
              have hj := (List.getElem?_eq_some_iff.mp hu).1
              refine ⟨ts.take j, ts.drop (j + 1), ?_, by simp; omega⟩
              have : ts[j] = u := (List.getElem?_eq_some_iff.mp hu).2
              rw [← this, ← List.drop_eq_getElem_cons hj, List.take_append_drop]
            subst hlr hll
            rw [rangesFrom_get]
            have := hat.child.size_at
            simp only [List.length_append, flat_length] at this
            simpa using this
        rw [defaultArgLoop_eq o.D lims _ _ (ts.map Tree.size) hsz 0]
        · congr 1
          rw [decide_eq_decide]
          have hsubk : t.subtrees[k]? = some (.op p ts) := by
            obtain ⟨P, Q, hsub, hPl⟩ := subtrees_plug c (.op p ts)
            have hpos := Tree.size_pos (.op p ts)
            rw [hi, hc, hsub, List.append_assoc, List.getElem?_append_right (by omega),
              List.getElem?_append_left (by rw [length_subtrees]; omega)]
            have hlast : (Tree.op p ts).subtrees.getLast? = some (.op p ts) := by simp
            rw [← hlast, List.getLast?_eq_getElem?, length_subtrees]; congr 1; omega
          constructor
          · intro h op' ts' hk' j lim u hu hlim
            rw [hsubk] at hk'
            simp at hk'
            obtain ⟨rfl, rfl⟩ := hk'
            rw [hW]
            refine h j lim u.size (by simp [hu]) ?_
            simpa [tableArg, hl] using hlim
          · intro h j lim c' hc' hlim
            rw [List.getElem?_map] at hc'
            cases hu : ts[j]? with
            | none => rw [hu] at hc'; simp at hc'
            | some u =>
              rw [hu] at hc'; simp at hc'
              have := h p ts hsubk j lim u hu (by simpa [tableArg, hl] using hlim)
              rw [hW] at this; omega
        · simp only [length_rangesFrom, Nat.zero_add]
          rw [hc] at hD
          exact (Tree.all_op.mp ((Ctx_all_plug_right c _ hD))).1
    · intro k a op hk hl op' ts hk' j lim u hu hlim
      have : t.toPostfix[k]? = some (Tree.op op' ts).rootNode := by
        obtain ⟨c, hc, hi⟩ := subtrees_ctx t k _ hk'
        have := (at_plug c (.op op' ts)).getElem?_eq
        rw [hc, ← this]; congr 1; omega
      rw [hk] at this
      simp only [Tree.rootNode, Option.some.injEq, PNode.op.injEq] at this
      obtain ⟨rfl, rfl⟩ := this
      simp [tableArg, hl] at hlim
    · intro k n hk hn op' ts hk'
      have : t.toPostfix[k]? = some (Tree.op op' ts).rootNode := by
        obtain ⟨c, hc, hi⟩ := subtrees_ctx t k _ hk'
        have := (at_plug c (.op op' ts)).getElem?_eq
        rw [hc, ← this]; congr 1; omega
      rw [hk] at this
      simp only [Tree.rootNode, Option.some.injEq] at this
      rw [this] at hn; simp [PNode.isOp] at hn

/-! ### Nesting -/

/-- Largest number of `q` on a root-to-leaf path. -/
def Tree.nest (q : OpId) : Tree → Nat :=
  Tree.fold (fun _ => 0) (fun _ => 0)
    (fun o ns => Tree.maxList ns + if ns.length = q.arity ∧ o = q.id then 1 else 0)

theorem Tree.nest_op (q : OpId) (o : Nat) (ts : List Tree) :
    (Tree.op o ts).nest q =
      Tree.maxList (ts.map (Tree.nest q)) + if ts.length = q.arity ∧ o = q.id then 1 else 0 := by
  simp [Tree.nest]

theorem Tree.paths_op (o : Nat) (ts : List Tree) :
    (Tree.op o ts).paths = (ts.map Tree.paths).flatten.map (PNode.op ts.length o :: ·) := by
  simp [Tree.paths]

theorem maxList_le_iff {l : List Nat} {m : Nat} : Tree.maxList l ≤ m ↔ ∀ x ∈ l, x ≤ m := by
  induction l with
  | nil => simp [Tree.maxList]
  | cons a l ih =>
    simp only [Tree.maxList, List.foldr_cons, List.mem_cons] at ih ⊢
    constructor
    · intro h x hx
      rcases hx with rfl | hx
      · omega
      · exact ih.mp (by omega) x hx
    · intro h
      have h1 := h a (Or.inl rfl)
      have h2 := ih.mpr fun x hx => h x (Or.inr hx)
      omega

theorem exists_eq_maxList {l : List Nat} (h : l ≠ []) : ∃ x ∈ l, x = Tree.maxList l := by
  induction l with
  | nil => exact absurd rfl h
  | cons a l ih =>
    by_cases hl : l = []
    · subst hl; exact ⟨a, by simp, by simp [Tree.maxList]⟩
    · obtain ⟨x, hx, he⟩ := ih hl
      simp only [Tree.maxList, List.foldr_cons] at he ⊢
      rcases Nat.le_total a (l.foldr max 0) with h1 | h1
      · exact ⟨x, by simp [hx], by omega⟩
      · exact ⟨a, by simp, by omega⟩

/-- `nest` is the maximum over paths. -/
theorem nest_paths (q : OpId) (t : Tree) (ht : t.Proper) :
    (∀ p ∈ t.paths, p.count (.op q.arity q.id) ≤ t.nest q) ∧
    ∃ p ∈ t.paths, p.count (.op q.arity q.id) = t.nest q := by
  induction t using Tree.ind with
  | hv f => simp [Tree.paths, Tree.nest]
  | hc f => simp [Tree.paths, Tree.nest]
  | ho o ts ih =>
    have hp := Tree.all_op.mp ht
    rw [Tree.paths_op, Tree.nest_op]
    have hself : ∀ p : List PNode, (PNode.op ts.length o :: p).count (.op q.arity q.id) =
        p.count (.op q.arity q.id) + if ts.length = q.arity ∧ o = q.id then 1 else 0 := by
      intro p
      rw [List.count_cons]
      congr 1
      by_cases h : ts.length = q.arity ∧ o = q.id
      · simp [h]
      · rw [if_neg h, if_neg]; simpa using h
    constructor
    · intro p hpm
      simp only [List.mem_map, List.mem_flatten] at hpm
      obtain ⟨p', ⟨ps, ⟨u, hu, rfl⟩, hp'⟩, rfl⟩ := hpm
      rw [hself]
      have h1 := (ih u hu (hp.2 u hu)).1 p' hp'
      have h2 := maxList_le_iff.mp (Nat.le_refl (Tree.maxList (ts.map (Tree.nest q)))) (u.nest q)
        (List.mem_map_of_mem hu)
      omega
    · have hne : ts.map (Tree.nest q) ≠ [] := by
        intro h
        have := congrArg List.length h
        simp only [List.length_map, List.length_nil] at this
        have := hp.1
        omega
      obtain ⟨x, hx, he⟩ := exists_eq_maxList hne
      obtain ⟨u, hu, rfl⟩ := List.mem_map.mp hx
      obtain ⟨p, hpm, hc⟩ := (ih u hu (hp.2 u hu)).2
      refine ⟨_, List.mem_map_of_mem (List.mem_flatten.mpr ⟨_, List.mem_map_of_mem hu, hpm⟩), ?_⟩
      rw [hself, hc, he]

theorem paths_le_iff (q : OpId) (t : Tree) (ht : t.Proper) (m : Nat) :
    (∀ p ∈ t.paths, p.count (.op q.arity q.id) ≤ m) ↔ t.nest q ≤ m := by
  obtain ⟨h1, p, hp, h2⟩ := nest_paths q t ht
  exact ⟨fun h => h2 ▸ h p hp, fun h p hp => Nat.le_trans (h1 p hp) h⟩

theorem foldl_max_min (l : List Nat) (a U : Nat) :
    (l.map (min · U)).foldl max (min a U) = min (max a (Tree.maxList l)) U := by
  induction l generalizing a with
  | nil => simp [Tree.maxList]
  | cons x l ih =>
    simp only [List.map_cons, List.foldl_cons, Tree.maxList, List.foldr_cons] at ih ⊢
    rw [show max (min a U) (min x U) = min (max a x) U by omega, ih]
    omega

theorem maxList_reverse (l : List Nat) : Tree.maxList l.reverse = Tree.maxList l := by
  apply Nat.le_antisymm <;> rw [maxList_le_iff] <;> intro x hx
  · exact maxList_le_iff.mp (Nat.le_refl _) x (by simpa using hx)
  · exact maxList_le_iff.mp (Nat.le_refl _) x (by simpa using hx)

/-- The saturated value computed for a subtree. -/
def nestSat (q : OpId) (t : Tree) : Nat := min (t.nest q) 65535

theorem nestednessGo_list (q : OpId) (ts : List Tree)
    (h : ∀ t ∈ ts, ∀ (rest : List PNode) (st : List Nat),
      nestednessGo q (t.toPostfix ++ rest) st =
        (nestednessGo q rest (nestSat q t :: st)).map (t.subtrees.map (nestSat q) ++ ·))
    (rest : List PNode) (st : List Nat) :
    nestednessGo q ((ts.map Tree.toPostfix).flatten ++ rest) st =
      (nestednessGo q rest ((ts.map (nestSat q)).reverse ++ st)).map
        ((ts.map fun t => t.subtrees.map (nestSat q)).flatten ++ ·) := by
  induction ts generalizing st with
  | nil => simp
  | cons t ts ih =>
    rw [List.map_cons, List.flatten_cons, List.append_assoc, h t (by simp),
      ih fun u hu => h u (by simp [hu])]
    simp [Option.map_map, Function.comp_def, List.append_assoc]

theorem nestednessGo_tree (q : OpId) (t : Tree) : ∀ (rest : List PNode) (st : List Nat),
    nestednessGo q (t.toPostfix ++ rest) st =
      (nestednessGo q rest (nestSat q t :: st)).map (t.subtrees.map (nestSat q) ++ ·) := by
  induction t using Tree.ind with
  | hv f =>
    intro rest st
    have : nestSat q (.var f) = 0 := by simp [nestSat, Tree.nest]
    simp only [Tree.toPostfix_var, List.cons_append, List.nil_append, Tree.subtrees_var, List.map_cons,
      List.map_nil, this]
    rw [nestednessGo]; simp
  | hc f =>
    intro rest st
    have : nestSat q (.const f) = 0 := by simp [nestSat, Tree.nest]
    simp only [Tree.toPostfix_const, List.cons_append, List.nil_append, Tree.subtrees_const, List.map_cons,
      List.map_nil, this]
    rw [nestednessGo]; simp
  | ho o ts ih =>
    intro rest st
    rw [Tree.toPostfix_op, List.append_assoc, nestednessGo_list q ts ih]
    simp only [List.cons_append, List.nil_append]
    have hlen : (ts.map (nestSat q)).reverse.length = ts.length := by simp
    rw [nestednessGo, if_neg (by simp)]
    have ht : (((ts.map (nestSat q)).reverse ++ st).take ts.length) = (ts.map (nestSat q)).reverse := by
      rw [← hlen, List.take_left]
    have hd : (((ts.map (nestSat q)).reverse ++ st).drop ts.length) = st := by
      rw [← hlen, List.drop_left]
    have hm : ((ts.map (nestSat q)).reverse).foldl max 0 =
        min (Tree.maxList (ts.map (Tree.nest q))) 65535 := by
      have := foldl_max_min ((ts.map (Tree.nest q)).reverse) 0 65535
      rw [maxList_reverse] at this
      have e : ((ts.map (Tree.nest q)).reverse).map (min · 65535) = (ts.map (nestSat q)).reverse := by
        simp [nestSat, Function.comp_def]
      rw [e] at this
      simpa using this
    have hv : min (((ts.map (nestSat q)).reverse).foldl max 0 +
        if ts.length = q.arity ∧ o = q.id then 1 else 0) 65535 = nestSat q (.op o ts) := by
      rw [hm, nestSat, Tree.nest_op]
      split <;> omega
    simp only [ht, hd, hv]
    simp only [Option.map_map, Function.comp_def, Tree.subtrees_op, List.map_append, List.map_flatten,
      List.map_map, List.map_cons, List.map_nil, List.append_assoc, List.cons_append, List.nil_append]

theorem nestedness_tree (q : OpId) (t : Tree) :
    nestednessGo q t.toPostfix [] = some (t.subtrees.map (nestSat q)) := by
  have := nestednessGo_tree q t [] []
  rw [List.append_nil] at this
  rw [this]; simp [nestednessGo]

theorem nestedCache_tree (t : Tree) (qs : List OpId) (cache : List (OpId × List Nat))
    (hc : ∀ q v, cache.lookup q = some v → v = t.subtrees.map (nestSat q)) :
    ∃ cache', nestedCache t.toPostfix qs cache = some cache' ∧
      (∀ q v, cache.lookup q = some v → cache'.lookup q = some v) ∧
      ∀ q ∈ qs, cache'.lookup q = some (t.subtrees.map (nestSat q)) := by
  induction qs generalizing cache with
  | nil => exact ⟨cache, rfl, fun _ _ h => h, by simp⟩
  | cons q qs ih =>
    rw [nestedCache]
    by_cases h : (cache.lookup q).isSome
    · rw [if_pos h]
      obtain ⟨cache', h1, h2, h3⟩ := ih cache hc
      refine ⟨cache', h1, h2, ?_⟩
      intro q' hq'
      rcases List.mem_cons.mp hq' with rfl | hq'
      · obtain ⟨v, hv⟩ := Option.isSome_iff_exists.mp h
        rw [h2 _ v hv, hc _ v hv]
      · exact h3 q' hq'
    · rw [if_neg h, nestedness_tree]
      simp only []
      have hlook : ∀ q' v, List.lookup q' ((q, t.subtrees.map (nestSat q)) :: cache) = some v →
          v = t.subtrees.map (nestSat q') := by
        intro q' v hv
        rw [List.lookup_cons] at hv
        by_cases he : q' == q
        · simp only [he] at hv
          have := eq_of_beq he
          subst this; simp at hv; exact hv.symm
        · simp only [he] at hv; exact hc q' v hv
      obtain ⟨cache', h1, h2, h3⟩ := ih _ hlook
      refine ⟨cache', h1, ?_, ?_⟩
      · intro q' v hv
        apply h2
        rw [List.lookup_cons]
        by_cases he : q' == q
        · have := eq_of_beq he
          subst this
          rw [hv] at h; simp at h
        · simp only [he]; exact hv
      · intro q' hq'
        rcases List.mem_cons.mp hq' with rfl | hq'
        · exact h2 _ _ (by simp)
        · exact h3 q' hq'

theorem nestedLoop_iff (nested : List (OpId × List (OpId × Nat))) (cache : List (OpId × List Nat))
    (nodes : List PNode) (i : Nat) :
    nestedLoop nested cache nodes i = true ↔
      ∀ (k a op : Nat), nodes[k]? = some (.op a op) → ∀ rules, nested.lookup ⟨a, op⟩ = some rules →
        ∀ r ∈ rules, nestedRuleOk cache (i + k) ⟨a, op⟩ r = true := by
  induction nodes generalizing i with
  | nil => simp [nestedLoop]
  | cons n ns ih =>
    have key : (∀ (k a op : Nat), (n :: ns)[k]? = some (.op a op) → ∀ rules,
          nested.lookup ⟨a, op⟩ = some rules → ∀ r ∈ rules, nestedRuleOk cache (i + k) ⟨a, op⟩ r = true) ↔
        (∀ (a op : Nat), n = .op a op → ∀ rules, nested.lookup ⟨a, op⟩ = some rules →
          ∀ r ∈ rules, nestedRuleOk cache i ⟨a, op⟩ r = true) ∧
        nestedLoop nested cache ns (i + 1) = true := by
      rw [ih]
      constructor
      · intro h
        refine ⟨fun a op e => h 0 a op (by simp [e]), fun k a op hk rules hr r hm => ?_⟩
        have := h (k + 1) a op (by simpa using hk) rules hr r hm
        rwa [show i + (k + 1) = i + 1 + k by omega] at this
      · rintro ⟨h1, h2⟩ k a op hk rules hr r hm
        cases k with
        | zero => simp at hk; exact h1 a op hk rules hr r hm
        | succ k =>
          have := h2 k a op (by simpa using hk) rules hr r hm
          rwa [show i + 1 + k = i + (k + 1) by omega] at this
    rw [key]
    cases n with
    | var f => rw [nestedLoop] <;> simp
    | const f => rw [nestedLoop] <;> simp
    | op a op =>
      rw [nestedLoop]
      cases hl : nested.lookup ⟨a, op⟩ with
      | none =>
        simp only []
        constructor
        · intro h
          refine ⟨?_, h⟩
          intro a' op' e rules hr
          cases e; rw [hl] at hr; simp at hr
        · exact fun h => h.2
      | some rules =>
        simp only [Bool.and_eq_true, List.all_eq_true]
        constructor
        · rintro ⟨h1, h2⟩
          refine ⟨?_, h2⟩
          intro a' op' e rules' hr
          cases e; rw [hl] at hr; simp at hr; subst hr; exact h1
        · rintro ⟨h1, h2⟩
          exact ⟨h1 a op rfl rules hl, h2⟩

/-- Nesting part of the specification. -/
def NestOk (nested : List (OpId × List (OpId × Nat))) (t : Tree) : Prop :=
  ∀ (o : Nat) (ts : List Tree), Tree.Sub (.op o ts) t → ∀ (rules : List (OpId × Nat)),
    nested.lookup ⟨ts.length, o⟩ = some rules → ∀ r ∈ rules,
      Tree.maxList (ts.map (Tree.nest r.1)) ≤ r.2

theorem sub_index {o : Nat} {ts : List Tree} {t : Tree} (h : Tree.Sub (.op o ts) t) :
    ∃ k : Nat, t.toPostfix[k]? = some (.op ts.length o) ∧ t.subtrees[k]? = some (.op o ts) := by
  obtain ⟨c, rfl⟩ := sub_iff_ctx.mp h
  have hat := at_plug c (.op o ts)
  obtain ⟨P, Q, hsub, hPl⟩ := subtrees_plug c (.op o ts)
  refine ⟨c.pre.length + (Tree.op o ts).size - 1, hat.getElem?_eq, ?_⟩
  have hpos := Tree.size_pos (.op o ts)
  rw [hsub, List.append_assoc, List.getElem?_append_right (by omega),
    List.getElem?_append_left (by rw [length_subtrees]; omega)]
  have hlast : (Tree.op o ts).subtrees.getLast? = some (.op o ts) := by simp
  rw [← hlast, List.getLast?_eq_getElem?, length_subtrees]; congr 1; omega

theorem index_sub {a o : Nat} {t : Tree} {k : Nat} (h : t.toPostfix[k]? = some (.op a o)) :
    ∃ ts, ts.length = a ∧ Tree.Sub (.op o ts) t ∧ t.subtrees[k]? = some (.op o ts) := by
  obtain ⟨c, s, hc, hi, hr⟩ := position_ctx h
  cases s with
  | var f => simp [Tree.rootNode] at hr
  | const f => simp [Tree.rootNode] at hr
  | op p ts =>
    simp only [Tree.rootNode, PNode.op.injEq] at hr
    obtain ⟨rfl, rfl⟩ := hr
    refine ⟨ts, rfl, sub_iff_ctx.mpr ⟨c, hc⟩, ?_⟩
    obtain ⟨P, Q, hsub, hPl⟩ := subtrees_plug c (.op p ts)
    have hpos := Tree.size_pos (.op p ts)
    rw [hi, hc, hsub, List.append_assoc, List.getElem?_append_right (by omega),
      List.getElem?_append_left (by rw [length_subtrees]; omega)]
    have hlast : (Tree.op p ts).subtrees.getLast? = some (.op p ts) := by simp
    rw [← hlast, List.getLast?_eq_getElem?, length_subtrees]; congr 1; omega

theorem checkNested_tree (t : Tree) (nested : List (OpId × List (OpId × Nat)))
    (hn : ∀ e ∈ nested, ∀ r ∈ e.2, r.2 ≤ 255) :
    checkNested t.toPostfix nested = true ↔ NestOk nested t := by
  rw [checkNested]
  by_cases he : nested.isEmpty
  · rw [if_pos he]
    have : nested = [] := by simpa using he
    subst this
    simp [NestOk]
  · rw [if_neg he]
    obtain ⟨cache, h1, _, h3⟩ := nestedCache_tree t (nested.flatMap fun e => e.2.map Prod.fst) []
      (by simp)
    rw [h1]
    simp only []
    rw [nestedLoop_iff]
    have rule : ∀ (o : Nat) (ts : List Tree) (k : Nat) (rules : List (OpId × Nat)) (r : OpId × Nat),
        t.subtrees[k]? = some (.op o ts) →
        nested.lookup ⟨ts.length, o⟩ = some rules → r ∈ rules →
        (nestedRuleOk cache k ⟨ts.length, o⟩ r = true ↔ Tree.maxList (ts.map (Tree.nest r.1)) ≤ r.2) := by
      intro o ts k rules r hk hl hr
      have hmem := lookup_mem hl
      have hle := hn _ hmem r hr
      have hq := h3 r.1 (List.mem_flatMap.mpr ⟨_, hmem, List.mem_map_of_mem hr⟩)
      have hv : ((cache.lookup r.1).bind (·[k]?)).getD 0 = nestSat r.1 (.op o ts) := by
        rw [hq]; simp [hk]
      rw [nestedRuleOk]
      simp only [hv, Bool.not_eq_true', decide_eq_false_iff_not]
      rw [nestSat, Tree.nest_op]
      by_cases hself : ts.length = r.1.arity ∧ o = r.1.id
      · have e : (⟨ts.length, o⟩ : OpId) = r.1 := by
          cases hr1 : r.1; rw [hr1] at hself; simp at hself; simp [hself]
        rw [if_pos hself, if_pos ⟨e, by omega⟩]
        omega
      · have e : (⟨ts.length, o⟩ : OpId) ≠ r.1 := by
          intro e; apply hself; rw [← e]; exact ⟨rfl, rfl⟩
        rw [if_neg hself, if_neg (fun h => e h.1)]
        omega
    constructor
    · intro h o ts hs rules hl r hr
      obtain ⟨k, hk1, hk2⟩ := sub_index hs
      have := h k _ o hk1 rules hl r hr
      rw [Nat.zero_add] at this
      exact (rule o ts k rules r hk2 hl hr).mp this
    · intro h k a o hk rules hl r hr
      obtain ⟨ts, rfl, hs, hk2⟩ := index_sub hk
      rw [Nat.zero_add]
      exact (rule o ts k rules r hk2 hl hr).mpr (h o ts hs rules hl r hr)

end SR
