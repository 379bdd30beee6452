import Verif.Model.NodeUtils
namespace SR

/-- Stack step that rebuilds trees. -/
def treeStep (st : List Tree) (n : PNode) : Option (List Tree) :=
  match n with
  | .var f => some (.var f :: st)
  | .const c => some (.const c :: st)
  | .op a o => if a ≤ st.length then some (.op o (st.take a).reverse :: st.drop a) else none

/-- Serialisation of a stack of trees (top at head), oldest first. -/
def flatStack (st : List Tree) : List PNode := (st.reverse.map Tree.toPostfix).flatten

@[simp] theorem flatStack_nil : flatStack [] = [] := rfl
@[simp] theorem flatStack_cons (t st) : flatStack (t :: st) = flatStack st ++ t.toPostfix := by
  simp [flatStack]

theorem flatStack_append (a b) : flatStack (a ++ b) = flatStack b ++ flatStack a := by
  simp [flatStack]

theorem treeStep_flat {st n st'} (h : treeStep st n = some st') :
    flatStack st ++ [n] = flatStack st' := by
  cases n with
  | var f => simp [treeStep] at h; subst h; simp
  | const f => simp [treeStep] at h; subst h; simp
  | op a o =>
    simp only [treeStep] at h
    split at h
    · next hle =>
      simp at h; subst h
      have e : flatStack st = flatStack (st.drop a) ++ flatStack (st.take a) := by
        rw [← flatStack_append, List.take_append_drop]
      rw [e]
      simp [flatStack, Nat.min_eq_left hle]
    · simp at h

theorem treeRun_flat {ns st st'} (h : ns.foldlM treeStep st = some st') :
    flatStack st ++ ns = flatStack st' := by
  induction ns generalizing st with
  | nil => simp at h; simp [h]
  | cons n ns ih =>
    simp only [List.foldlM_cons, Option.bind_eq_bind, Option.bind_eq_some_iff] at h
    obtain ⟨s1, h1, h2⟩ := h
    rw [← ih h2, ← treeStep_flat h1]; simp

theorem foldlM_append_some {α β} {f : β → α → Option β} {l1 l2 : List α} {b : β} :
    (l1 ++ l2).foldlM f b = (l1.foldlM f b).bind (fun b' => l2.foldlM f b') := by
  rw [List.foldlM_append]; rfl

/-- A list of serialised trees pushes those trees. -/
theorem treeRun_list {ts : List Tree}
    (h : ∀ t ∈ ts, ∀ st, t.toPostfix.foldlM treeStep st = some (t :: st)) (st : List Tree) :
    ((ts.map Tree.toPostfix).flatten).foldlM treeStep st = some (ts.reverse ++ st) := by
  induction ts generalizing st with
  | nil => simp
  | cons t ts ih =>
    simp only [List.map_cons, List.flatten_cons, foldlM_append_some]
    rw [h t (by simp)]
    simp only [Option.bind_some]
    rw [ih (fun u hu => h u (by simp [hu]))]
    simp

theorem treeRun_toPostfix (t : Tree) : ∀ st, t.toPostfix.foldlM treeStep st = some (t :: st) := by
  induction t using Tree.ind with
  | hv f => intro st; simp [treeStep]
  | hc f => intro st; simp [treeStep]
  | ho o ts ih =>
    intro st
    rw [Tree.toPostfix_op, foldlM_append_some, treeRun_list ih]
    simp only [Option.bind_some, List.foldlM_cons, List.foldlM_nil, treeStep]
    have : (ts.reverse ++ st).take ts.length = ts.reverse := by
      rw [List.take_append_of_le_length (by simp)]; simp [List.take_of_length_le]
    have h2 : (ts.reverse ++ st).drop ts.length = st := by
      rw [List.drop_append_of_le_length (by simp)]; simp
    simp [this, h2]

/-- Serialisations cancel on the left. -/
theorem toPostfix_prefix_cancel {t u : Tree} {r r' : List PNode}
    (h : t.toPostfix ++ r = u.toPostfix ++ r')
    (hlen : t.toPostfix.length = u.toPostfix.length) : t = u := by
  have h1 := (List.append_inj h hlen).1
  have e1 := treeRun_toPostfix t []
  have e2 := treeRun_toPostfix u []
  rw [h1, e2] at e1
  simpa using e1.symm

theorem toPostfix_injective {t u : Tree} (h : t.toPostfix = u.toPostfix) : t = u :=
  toPostfix_prefix_cancel (r := []) (r' := []) (by simp [h]) (by rw [h])

theorem toPostfix_ne_nil (t : Tree) : t.toPostfix ≠ [] := by
  cases t <;> simp

/-- Interpretation of trees by the closures of `treeMapreduce`. -/
def Tree.interp {R B : Type} (fLeaf : PNode → R) (fBranch : PNode → B) (op : B → List R → R) :
    Tree → R :=
  Tree.fold (fun f => fLeaf (.var f)) (fun c => fLeaf (.const c))
    (fun o cs => op (fBranch (.op cs.length o)) cs)

theorem mapreduceStep_map {R B : Type} (fLeaf : PNode → R) (fBranch : PNode → B)
    (op : B → List R → R) (st : List Tree) (n : PNode) :
    mapreduceStep fLeaf fBranch op (st.map (Tree.interp fLeaf fBranch op)) n
      = (treeStep st n).map (List.map (Tree.interp fLeaf fBranch op)) := by
  cases n with
  | var f => simp [mapreduceStep, treeStep, Tree.interp]
  | const f => simp [mapreduceStep, treeStep, Tree.interp]
  | op a o =>
    simp only [mapreduceStep, treeStep, List.length_map]
    split
    · next h =>
      simp [Tree.interp, Nat.min_eq_left h, List.map_take, List.map_drop]
    · simp

theorem mapreduceRun_map {R B : Type} (fLeaf : PNode → R) (fBranch : PNode → B)
    (op : B → List R → R) (ns : List PNode) (st : List Tree) :
    ns.foldlM (mapreduceStep fLeaf fBranch op) (st.map (Tree.interp fLeaf fBranch op))
      = (ns.foldlM treeStep st).map (List.map (Tree.interp fLeaf fBranch op)) := by
  induction ns generalizing st with
  | nil => simp
  | cons n ns ih =>
    simp only [List.foldlM_cons, mapreduceStep_map]
    cases treeStep st n with
    | none => simp
    | some s => simp [ih]

theorem treeRun_singleton {ns : List PNode} {t : Tree} :
    ns.foldlM treeStep [] = some [t] ↔ ns = t.toPostfix := by
  constructor
  · intro h; have := treeRun_flat h; simpa using this
  · intro h; rw [h]; exact treeRun_toPostfix t []

/-- `tree_mapreduce` returns `r` exactly when the list serialises a tree whose interpretation is
`r`. -/
theorem treeMapreduce_iff {R B : Type} (fLeaf : PNode → R) (fBranch : PNode → B)
    (op : B → List R → R) (ns : List PNode) (r : R) :
    treeMapreduce fLeaf fBranch op ns = some r ↔
      ∃ t : Tree, ns = t.toPostfix ∧ r = t.interp fLeaf fBranch op := by
  unfold treeMapreduce
  have := mapreduceRun_map fLeaf fBranch op ns []
  simp only [List.map_nil] at this
  rw [this]
  constructor
  · intro h
    cases hr : ns.foldlM treeStep [] with
    | none => simp [hr] at h
    | some st =>
      simp only [hr, Option.map_some] at h
      match st, h, hr with
      | [], h, _ => simp at h
      | [t], h, hr =>
        simp at h
        exact ⟨t, treeRun_singleton.mp hr, h.symm⟩
      | _ :: _ :: _, h, _ => simp at h
  · rintro ⟨t, h1, h2⟩
    rw [treeRun_singleton.mpr h1]; simp [h2]

theorem length_toPostfix (t : Tree) : t.toPostfix.length = t.size := by
  induction t using Tree.ind with
  | hv f => simp
  | hc f => simp
  | ho o ts ih =>
    have : (ts.map (fun t => t.toPostfix.length)) = ts.map Tree.size := List.map_congr_left ih
    simp [List.length_flatten, List.map_map, Function.comp_def, this, Nat.add_comm]

theorem Tree.size_pos (t : Tree) : 0 < t.size := by
  cases t <;> simp <;> omega

/-- Proper trees are exactly those accepted by the validity check, stack version. -/
theorem isValidPostfixGo_iff {ns : List PNode} : ∀ (st : List Tree), (∀ t ∈ st, t.Proper) →
    (isValidPostfixGo ns st.length = true ↔
      ∃ t, ns.foldlM treeStep st = some [t] ∧ t.Proper) := by
  induction ns with
  | nil =>
    intro st hst
    simp only [isValidPostfixGo, beq_iff_eq, List.foldlM_nil]
    constructor
    · intro h
      obtain ⟨t, rfl⟩ := List.length_eq_one_iff.mp h
      exact ⟨t, rfl, hst t (by simp)⟩
    · rintro ⟨t, h, _⟩
      simp at h; simp [h]
  | cons n ns ih =>
    intro st hst
    cases n with
    | var f =>
      have := ih (.var f :: st) (by
        intro t ht; rcases List.mem_cons.mp ht with h | h
        · subst h; simp [Tree.Proper]
        · exact hst t h)
      simpa [isValidPostfixGo, treeStep] using this
    | const f =>
      have := ih (.const f :: st) (by
        intro t ht; rcases List.mem_cons.mp ht with h | h
        · subst h; simp [Tree.Proper]
        · exact hst t h)
      simpa [isValidPostfixGo, treeStep] using this
    | op a o =>
      simp only [isValidPostfixGo, List.foldlM_cons, treeStep]
      by_cases ha : a = 0
      · -- arity zero: rejected, and no proper tree contains it
        subst ha
        simp only [↓reduceIte, Bool.false_eq_true, Nat.zero_le, List.take_zero, List.reverse_nil,
          List.drop_zero, Option.bind_eq_bind, Option.bind_some, false_iff]
        rintro ⟨t, h, hp⟩
        have hf := treeRun_flat h
        -- the arity-0 node occurs in the serialisation of t
        have hmem : PNode.op 0 o ∈ t.toPostfix := by
          simp at hf; rw [← hf]; simp
        exact absurd hmem (by
          clear h hf hmem
          induction t using Tree.ind with
          | hv f => simp
          | hc f => simp
          | ho o' ts ih' =>
            simp only [Tree.Proper, Tree.all_op] at hp
            have hlen := hp.1
            have hch := hp.2
            simp only [Tree.toPostfix_op, List.mem_append, List.mem_flatten, List.mem_map,
              List.mem_singleton, PNode.op.injEq, not_or, not_exists, not_and]
            refine ⟨?_, by omega⟩
            rintro l ⟨t, ht, rfl⟩
            exact ih' t ht (hch t ht))
      · rw [if_neg ha]
        by_cases hle : a ≤ st.length
        · rw [if_neg (by omega), if_pos hle]
          have := ih (.op o (st.take a).reverse :: st.drop a) (by
            intro t ht; rcases List.mem_cons.mp ht with h | h
            · subst h
              simp only [Tree.Proper, Tree.all_op, List.length_reverse, List.length_take,
                Nat.min_eq_left hle, List.mem_reverse]
              exact ⟨by omega, fun t ht => hst t (List.mem_of_mem_take ht)⟩
            · exact hst t (List.mem_of_mem_drop h))
          simpa using this
        · rw [if_pos (by omega), if_neg hle]
          simp

theorem isValidPostfix_iff (ns : List PNode) :
    isValidPostfix ns = true ↔ ∃ t : Tree, t.Proper ∧ ns = t.toPostfix := by
  have := isValidPostfixGo_iff (ns := ns) [] (by simp)
  simp only [List.length_nil] at this
  unfold isValidPostfix
  rw [this]
  constructor
  · rintro ⟨t, h, hp⟩; exact ⟨t, hp, treeRun_singleton.mp h⟩
  · rintro ⟨t, hp, h⟩; exact ⟨t, treeRun_singleton.mpr h, hp⟩

/-! ### subtree sizes -/

theorem subtreeSizesGo_list {ts : List Tree}
    (h : ∀ t ∈ ts, ∀ rest st, subtreeSizesGo (t.toPostfix ++ rest) st
      = (subtreeSizesGo rest (t.size :: st)).map fun r => (t.subtrees.map Tree.size ++ r.1, r.2))
    (rest : List PNode) (st : List Nat) :
    subtreeSizesGo ((ts.map Tree.toPostfix).flatten ++ rest) st
      = (subtreeSizesGo rest ((ts.map Tree.size).reverse ++ st)).map
          fun r => (((ts.map Tree.subtrees).flatten).map Tree.size ++ r.1, r.2) := by
  induction ts generalizing st with
  | nil => simp
  | cons t ts ih =>
    simp only [List.map_cons, List.flatten_cons, List.append_assoc]
    rw [h t (by simp), ih (fun u hu => h u (by simp [hu]))]
    simp [Option.map_map, Function.comp_def]

theorem subtreeSizesGo_toPostfix (t : Tree) : ∀ rest st,
    subtreeSizesGo (t.toPostfix ++ rest) st
      = (subtreeSizesGo rest (t.size :: st)).map
          fun r => (t.subtrees.map Tree.size ++ r.1, r.2) := by
  induction t using Tree.ind with
  | hv f => intro rest st; simp [subtreeSizesGo]
  | hc f => intro rest st; simp [subtreeSizesGo]
  | ho o ts ih =>
    intro rest st
    rw [Tree.toPostfix_op, List.append_assoc, subtreeSizesGo_list ih]
    simp only [List.singleton_append, subtreeSizesGo]
    have h1 : ((ts.map Tree.size).reverse ++ st).take ts.length = (ts.map Tree.size).reverse := by
      rw [List.take_append_of_le_length (by simp)]; simp [List.take_of_length_le]
    have h2 : ((ts.map Tree.size).reverse ++ st).drop ts.length = st := by
      rw [List.drop_append_of_le_length (by simp)]; simp
    rw [if_pos (by simp)]
    simp only [h1, h2, Option.map_map, Function.comp_def, List.sum_reverse, Tree.size_op,
      Tree.subtrees_op, List.map_append, List.map_cons, List.map_nil, List.append_assoc,
      List.singleton_append]

theorem subtreeSizes_toPostfix (t : Tree) :
    subtreeSizes t.toPostfix = some (t.subtrees.map Tree.size) := by
  have := subtreeSizesGo_toPostfix t [] []
  simp only [List.append_nil] at this
  simp [subtreeSizes, this, subtreeSizesGo]

/-- The machine of `subtree_sizes` is defined on the same lists as the tree rebuilder. -/
theorem subtreeSizesGo_isSome (ns : List PNode) : ∀ (st : List Tree),
    (subtreeSizesGo ns (st.map Tree.size)).map Prod.snd
      = (ns.foldlM treeStep st).map (List.map Tree.size) := by
  induction ns with
  | nil => intro st; simp [subtreeSizesGo]
  | cons n ns ih =>
    intro st
    cases n with
    | var f =>
      have := ih (.var f :: st)
      simp only [List.map_cons, Tree.size_var] at this
      simp [subtreeSizesGo, treeStep, Option.map_map, Function.comp_def]
      simpa [Function.comp_def] using this
    | const f =>
      have := ih (.const f :: st)
      simp only [List.map_cons, Tree.size_const] at this
      simp [subtreeSizesGo, treeStep, Option.map_map, Function.comp_def]
      simpa [Function.comp_def] using this
    | op a o =>
      simp only [subtreeSizesGo, treeStep, List.foldlM_cons, List.length_map]
      split
      · next h =>
        have := ih (.op o (st.take a).reverse :: st.drop a)
        simp only [List.map_cons, Tree.size_op, List.map_reverse, List.sum_reverse] at this
        simp [Option.map_map, Function.comp_def, ← List.map_take, ← List.map_drop]
        simpa [Function.comp_def] using this
      · simp

theorem subtreeSizes_isSome {ns : List PNode} {sz : List Nat} (h : subtreeSizes ns = some sz) :
    ∃ t : Tree, ns = t.toPostfix ∧ sz = t.subtrees.map Tree.size := by
  have hm := subtreeSizesGo_isSome ns []
  unfold subtreeSizes at h
  cases hr : subtreeSizesGo ns [] with
  | none => simp [hr] at h
  | some p =>
    obtain ⟨s, st⟩ := p
    simp only [List.map_nil, hr, Option.map_some] at hm
    match st, hr, hm with
    | [], hr, hm => simp [hr] at h
    | _ :: _ :: _, hr, hm => simp [hr] at h
    | [k], hr, hm =>
      cases ht : ns.foldlM treeStep [] with
      | none => simp [ht] at hm
      | some ts =>
        simp only [ht, Option.map_some, Option.some.injEq] at hm
        match ts, ht, hm with
        | [t], ht, _ =>
          have e := treeRun_singleton.mp ht
          refine ⟨t, e, ?_⟩
          have := subtreeSizes_toPostfix t
          rw [← e] at this
          simp only [subtreeSizes, hr, Option.some.injEq] at h this
          rw [← h, this]
        | [], _, hm => simp at hm
        | _ :: _ :: _, _, hm => simp at hm

theorem length_subtrees (t : Tree) : t.subtrees.length = t.size := by
  induction t using Tree.ind with
  | hv f => simp
  | hc f => simp
  | ho o ts ih =>
    have : (ts.map (fun t => t.subtrees.length)) = ts.map Tree.size := List.map_congr_left ih
    simp [List.length_flatten, List.map_map, Function.comp_def, this, Nat.add_comm]

theorem mem_flatten_index {α} {L : List (List α)} {i : Nat} {x : α} (h : L.flatten[i]? = some x) :
    ∃ l1 l l2 j, L = l1 ++ l :: l2 ∧ l[j]? = some x ∧ i = l1.flatten.length + j := by
  induction L generalizing i with
  | nil => simp at h
  | cons l L ih =>
    simp only [List.flatten_cons] at h
    by_cases hi : i < l.length
    · rw [List.getElem?_append_left hi] at h
      exact ⟨[], l, L, i, by simp, h, by simp⟩
    · rw [List.getElem?_append_right (by omega)] at h
      obtain ⟨l1, l', l2, j, e1, e2, e3⟩ := ih h
      refine ⟨l :: l1, l', l2, j, by simp [e1], e2, ?_⟩
      simp only [List.flatten_cons, List.length_append]; omega

/-- Position `i` of the serialisation is the root of the `i`-th subtree: there is a context whose
hole it fills, and the serialisation of that subtree is the slice ending at `i`. -/
theorem subtrees_ctx (t : Tree) : ∀ (i : Nat) (s : Tree), t.subtrees[i]? = some s →
    ∃ c : Ctx, t = c.plug s ∧ c.pre.length + s.size = i + 1 := by
  induction t using Tree.ind with
  | hv f =>
    intro i s h
    cases i with
    | zero => simp at h; subst h; exact ⟨.hole, by simp [Ctx.plug], by simp [Ctx.pre]⟩
    | succ i => simp at h
  | hc f =>
    intro i s h
    cases i with
    | zero => simp at h; subst h; exact ⟨.hole, by simp [Ctx.plug], by simp [Ctx.pre]⟩
    | succ i => simp at h
  | ho o ts ih =>
    intro i s h
    simp only [Tree.subtrees_op] at h
    by_cases hi : i < ((ts.map Tree.subtrees).flatten).length
    · rw [List.getElem?_append_left hi] at h
      obtain ⟨l1, l, l2, j, e1, e2, e3⟩ := mem_flatten_index h
      obtain ⟨ts1, r, e4, e5, e6⟩ := List.map_eq_append_iff.mp e1
      obtain ⟨u, ts2, e7, e8, e9⟩ := List.map_eq_cons_iff.mp e6
      subst e7 e4
      obtain ⟨c, hc1, hc2⟩ := ih u (by simp) j s (by rw [e8]; exact e2)
      refine ⟨.node o ts1 c ts2, by simp [Ctx.plug, ← hc1], ?_⟩
      have hl : l1.flatten.length = ((ts1.map Tree.toPostfix).flatten).length := by
        rw [← e5]
        simp [List.length_flatten, Function.comp_def, length_subtrees, length_toPostfix]
      simp only [Ctx.pre, List.length_append, ← hl]
      omega
    · rw [List.getElem?_append_right (by omega)] at h
      have hi' : i - ((ts.map Tree.subtrees).flatten).length = 0 := by
        cases hh : i - ((ts.map Tree.subtrees).flatten).length with
        | zero => rfl
        | succ k => rw [hh] at h; simp at h
      rw [hi'] at h
      simp only [List.getElem?_cons_zero, Option.some.injEq] at h
      subst h
      refine ⟨.hole, by simp [Ctx.plug], ?_⟩
      have : ((ts.map Tree.subtrees).flatten).length = (ts.map Tree.size).sum := by
        simp [List.length_flatten, Function.comp_def, length_subtrees]
      simp only [Ctx.pre, List.length_nil, Tree.size_op]
      omega

theorem subtrees_ctx_slice {t s : Tree} {i : Nat} (h : t.subtrees[i]? = some s) :
    s.size ≤ i + 1 ∧ (t.toPostfix.drop (i + 1 - s.size)).take s.size = s.toPostfix := by
  obtain ⟨c, hc, hlen⟩ := subtrees_ctx t i s h
  refine ⟨by omega, ?_⟩
  rw [hc, Ctx.toPostfix_plug]
  have : i + 1 - s.size = c.pre.length := by omega
  rw [this, List.append_assoc, List.drop_left, ← length_toPostfix, List.take_left]

end SR
