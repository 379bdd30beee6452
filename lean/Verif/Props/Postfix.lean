import Verif.Proofs.Postfix
import Verif.Spec.Consts
/-
Properties C01, C02: the flat representation and the structural measures.
Specification: `Verif/Spec/Tree.lean`.
-/
namespace SR

/-! ## C01 -/

/-- C01: the validity check accepts a node list exactly when it is the post-order serialisation of
a tree all of whose operators have at least one child. -/
theorem C01_valid_iff_tree (nodes : List PNode) :
    isValidPostfix nodes = true ↔ ∃ t : Tree, t.Proper ∧ nodes = t.toPostfix :=
  isValidPostfix_iff nodes

/-- C01: the tree is unique. -/
theorem C01_tree_unique (nodes : List PNode) (t u : Tree)
    (ht : nodes = t.toPostfix) (hu : nodes = u.toPostfix) : t = u :=
  toPostfix_injective (ht.symm.trans hu)

-- `x0 * (c0 + x1)` is accepted and is a serialised tree; ill-formed lists are not.
example : isValidPostfix [.var 0, .const 0, .var 1, .op 2 0, .op 2 5] = true ∧
    [PNode.var 0, .const 0, .var 1, .op 2 0, .op 2 5]
      = (Tree.op 5 [.var 0, .op 0 [.const 0, .var 1]]).toPostfix := by decide
example : isValidPostfix [.var 0, .op 2 0] = false ∧ isValidPostfix [.var 0, .var 0] = false ∧
    isValidPostfix [] = false ∧ isValidPostfix [.op 0 3] = false := by decide

/-! ## C02 -/

theorem iterMaxOr0_eq (l : List Nat) : iterMaxOr0 l = Tree.maxList l := by
  unfold iterMaxOr0 Tree.maxList
  induction l with
  | nil => simp
  | cons a l ih =>
    rw [List.max?_cons]
    cases h : l.max? with
    | none => simp [h] at ih ⊢; omega
    | some m => simp [h] at ih ⊢; omega

theorem depth_eq_interp (t : Tree) : t.depth =
    t.interp (fun _ => 1) (fun _ => 0) (fun (_ : Nat) children => iterMaxOr0 children + 1) := by
  induction t using Tree.ind with
  | hv f => simp [Tree.interp]
  | hc f => simp [Tree.interp]
  | ho o ts ih =>
    have h := List.map_congr_left ih
    simp only [Tree.depth_op, h, Tree.interp, Tree.fold_op, iterMaxOr0_eq]
    omega

/-- C02 (depth): the reported depth is the height of the tree, and the function returns a value
exactly on serialisations of trees (on any other list it panics). -/
theorem C02_count_depth (nodes : List PNode) (d : Nat) :
    countDepth nodes = some d ↔ ∃ t : Tree, nodes = t.toPostfix ∧ d = t.depth := by
  unfold countDepth
  rw [treeMapreduce_iff]
  simp only [← depth_eq_interp]

/-- C02 (general): `tree_mapreduce` computes the bottom-up recursive fold of the tree. -/
theorem C02_mapreduce {R B : Type} (fLeaf : PNode → R) (fBranch : PNode → B) (op : B → List R → R)
    (nodes : List PNode) (r : R) :
    treeMapreduce fLeaf fBranch op nodes = some r ↔
      ∃ t : Tree, nodes = t.toPostfix ∧
        r = t.fold (fun f => fLeaf (.var f)) (fun c => fLeaf (.const c))
              (fun o cs => op (fBranch (.op cs.length o)) cs) :=
  treeMapreduce_iff fLeaf fBranch op nodes r

/-- C02 (sizes): the table has, at each position, the size of the subtree rooted there; the function
panics exactly on lists that are not serialisations. -/
theorem C02_subtree_sizes (nodes : List PNode) (sizes : List Nat) :
    subtreeSizes nodes = some sizes ↔
      ∃ t : Tree, nodes = t.toPostfix ∧ sizes = t.subtrees.map Tree.size := by
  constructor
  · exact subtreeSizes_isSome
  · rintro ⟨t, rfl, rfl⟩; exact subtreeSizes_toPostfix t

/-- C02 (ranges): for every position `i` of a serialised tree, `subtree_range` gives the inclusive
range of exactly the slice that serialises the subtree rooted at `i`. -/
theorem C02_subtree_range (t : Tree) (sizes : List Nat) (i : Nat)
    (hs : subtreeSizes t.toPostfix = some sizes) (hi : i < t.toPostfix.length) :
    ∃ a s, subtreeRange sizes i = some (a, i) ∧ a ≤ i ∧
      (t.toPostfix.take (i + 1)).drop a = Tree.toPostfix s ∧
      t.subtrees[i]? = some s ∧ Tree.Sub s t := by
  rw [subtreeSizes_toPostfix] at hs
  simp at hs; subst hs
  have hi' : i < t.subtrees.length := by rw [length_subtrees, ← length_toPostfix]; exact hi
  obtain ⟨s, hsome⟩ : ∃ s, t.subtrees[i]? = some s := ⟨_, List.getElem?_eq_getElem hi'⟩
  obtain ⟨c, hc, hlen⟩ := subtrees_ctx t i s hsome
  have hpos := Tree.size_pos s
  refine ⟨i + 1 - s.size, s, ?_, by omega, ?_, hsome, ?_⟩
  · simp [subtreeRange, hsome]
  · rw [hc, Ctx.toPostfix_plug]
    have e1 : i + 1 = (c.pre ++ s.toPostfix).length := by
      simp [length_toPostfix]; omega
    have e2 : i + 1 - s.size = c.pre.length := by omega
    rw [e2, e1, List.take_left, List.drop_left]
  · rw [hc]
    clear hc hlen
    induction c with
    | hole => exact .refl
    | node o l c r ih => exact .child (by simp) ih

theorem count_filter_fold (p : PNode → Bool) (t : Tree) :
    (t.toPostfix.filter p).length =
      t.fold (fun f => (p (.var f)).toNat) (fun c => (p (.const c)).toNat)
        (fun o cs => (p (.op cs.length o)).toNat + cs.sum) := by
  induction t using Tree.ind with
  | hv f => cases h : p (.var f) <;> simp [h]
  | hc f => cases h : p (.const f) <;> simp [h]
  | ho o ts ih =>
    have h := List.map_congr_left ih
    simp only [Tree.toPostfix_op, List.filter_append, List.length_append, Tree.fold_op,
      List.length_map, ← h, List.filter_flatten, List.length_flatten, List.map_map,
      Function.comp_def]
    cases hp : p (.op ts.length o) <;> simp [hp, Nat.add_comm]

/-- C02 (counts): node, constant, variable and operator counts are those of the tree. -/
theorem C02_counts (t : Tree) :
    countNodes t.toPostfix = t.size ∧
    countConstantNodes t.toPostfix = t.numConsts ∧
    countVariableNodes t.toPostfix = t.numVars ∧
    countOperatorNodes t.toPostfix = t.numOps ∧
    t.size = t.numConsts + t.numVars + t.numOps := by
  refine ⟨length_toPostfix t, ?_, ?_, ?_, ?_⟩
  · rw [countConstantNodes, count_filter_fold]; simp [Tree.numConsts, PNode.isConst]
  · rw [countVariableNodes, count_filter_fold]; simp [Tree.numVars, PNode.isVar]
  · rw [countOperatorNodes, count_filter_fold]; simp [Tree.numOps, PNode.isOp]
  · induction t using Tree.ind with
    | hv f => simp [Tree.numConsts, Tree.numVars, Tree.numOps]
    | hc f => simp [Tree.numConsts, Tree.numVars, Tree.numOps]
    | ho o ts ih =>
      simp only [Tree.size_op, Tree.numConsts, Tree.numVars, Tree.numOps, Tree.fold_op]
      induction ts with
      | nil => simp
      | cons t ts ih2 =>
        have h1 := ih t (by simp)
        have h2 := ih2 (fun u hu => ih u (by simp [hu]))
        simp only [Tree.numConsts, Tree.numVars, Tree.numOps] at h1
        simp only [List.map_cons, List.sum_cons]
        omega

/-- The `has_*` predicates and `max_arity`, against the tree's counts. -/
theorem C02_has (t : Tree) :
    (hasConstants t.toPostfix = true ↔ 0 < t.numConsts) ∧
    (hasVariables t.toPostfix = true ↔ 0 < t.numVars) ∧
    (hasOperators t.toPostfix = true ↔ 0 < t.numOps) ∧
    (isLeaf t.toPostfix = true ↔ t.size = 1 ∧ t.numOps = 0) := by
  obtain ⟨_, h2, h3, h4, h5⟩ := C02_counts t
  rw [← h2, ← h3, ← h4]
  have key : ∀ p : PNode → Bool, (t.toPostfix.any p = true ↔ 0 < (t.toPostfix.filter p).length) := by
    intro p
    rw [List.length_pos_iff_exists_mem]
    simp [List.any_eq_true, List.mem_filter]
  refine ⟨key _, key _, key _, ?_⟩
  cases t with
  | var f => simp [isLeaf, countOperatorNodes, PNode.isOp]
  | const f => simp [isLeaf, countOperatorNodes, PNode.isOp]
  | op o ts =>
    have : isLeaf (Tree.op o ts).toPostfix = false := by
      rw [Tree.toPostfix_op]
      cases h : (ts.map Tree.toPostfix).flatten with
      | nil => simp [isLeaf]
      | cons a l =>
        cases l <;> cases a <;> simp [isLeaf]
    simp only [this, Bool.false_eq_true, false_iff, not_and]
    intro _ hc
    simp [countOperatorNodes, PNode.isOp] at hc

/-- Depth never exceeds size (used by the constraint checker's shortcut, C23). -/
theorem C02_depth_le_size (t : Tree) : t.depth ≤ t.size := by
  induction t using Tree.ind with
  | hv f => simp
  | hc f => simp
  | ho o ts ih =>
    simp only [Tree.depth_op, Tree.size_op]
    suffices Tree.maxList (ts.map Tree.depth) ≤ (ts.map Tree.size).sum by omega
    induction ts with
    | nil => simp [Tree.maxList]
    | cons t ts ih2 =>
      have h1 := ih t (by simp)
      have h2 := ih2 (fun u hu => ih u (by simp [hu]))
      simp only [List.map_cons, List.sum_cons, Tree.maxList, List.foldr_cons] at h2 ⊢
      omega

/-- The reported maximal arity is the largest number of children of an operator of the tree (0 when it
has no operator). -/
theorem C02_max_arity (t : Tree) :
    (∀ o a, (o, a) ∈ t.opNodes → a ≤ maxArity t.toPostfix) ∧
      (maxArity t.toPostfix = 0 ∨ ∃ o, (o, maxArity t.toPostfix) ∈ t.opNodes) := by
  have h : (t.toPostfix.filterMap fun n => match n with | .op a _ => some a | _ => none)
      = t.opNodes.map Prod.snd := by
    rw [← opNodes_toPostfix, List.map_filterMap]
    congr 1; funext n; cases n <;> rfl
  have hm : maxArity t.toPostfix = ((t.opNodes.map Prod.snd).max?).getD 0 := by
    rw [← h]; rfl
  rw [hm]
  cases hx : (t.opNodes.map Prod.snd).max? with
  | none =>
    have := List.max?_eq_none_iff.mp hx
    simp only [List.map_eq_nil_iff] at this
    simp [this]
  | some m =>
    obtain ⟨h1, h2⟩ := List.max?_eq_some_iff.mp hx
    refine ⟨fun o a ha => h2 a (List.mem_map.mpr ⟨_, ha, rfl⟩), .inr ?_⟩
    obtain ⟨p, hp, rfl⟩ := List.mem_map.mp h1
    exact ⟨p.1, hp⟩

-- Concrete instance: `sin(x0) * (c0 + x1)`.
example : countDepth [.var 0, .op 1 3, .const 0, .var 1, .op 2 0, .op 2 5] = some 3 ∧
    subtreeSizes [.var 0, .op 1 3, .const 0, .var 1, .op 2 0, .op 2 5] = some [1, 2, 1, 1, 3, 6] ∧
    subtreeRange [1, 2, 1, 1, 3, 6] 4 = some (2, 4) := by decide
example : countDepth [.var 0, .var 1] = none ∧ subtreeSizes [.op 1 0] = none := by decide

end SR
