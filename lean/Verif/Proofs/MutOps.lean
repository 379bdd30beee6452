import Verif.Proofs.Mutation
import Verif.Spec.Edit
import Verif.Props.Lookup
import Mathlib.Data.List.Perm.Subperm
/-
What each mutation does to the tree: total-correctness triples for every random stream.
-/
namespace SR
variable {F T : Type}

theorem Rand.Total.ite {α : Type} {c : Prop} [Decidable c] {m1 m2 : Rand F α} {P : α → Prop}
    (h1 : c → Rand.Total m1 P) (h2 : ¬c → Rand.Total m2 P) : Rand.Total (if c then m1 else m2) P := by
  split
  · exact h1 ‹_›
  · exact h2 ‹_›

theorem Rand.Total.lift_some {α β : Type} {o : Option α} {a : α} {f : α → Rand F β} {P : β → Prop}
    (h : o = some a) (hf : Rand.Total (f a) P) : Rand.Total (Rand.lift o >>= f) P :=
  Rand.Total.bind (P := (· = a)) (Rand.Total.lift ⟨a, h, rfl⟩) fun _ hb => hb ▸ hf

theorem rootNode_isOp {s : Tree} {a o : Nat} (h : s.rootNode = .op a o) :
    ∃ ts, s = .op o ts ∧ ts.length = a := by
  cases s with
  | op o' ts => simp only [Tree.rootNode, PNode.op.injEq] at h; exact ⟨ts, by rw [h.2], h.1⟩
  | _ => simp [Tree.rootNode] at h

theorem rootNode_isVar {s : Tree} {f : Nat} (h : s.rootNode = .var f) : s = .var f := by
  cases s <;> simp_all [Tree.rootNode]

theorem rootNode_isConst {s : Tree} {f : Nat} (h : s.rootNode = .const f) : s = .const f := by
  cases s <;> simp_all [Tree.rootNode]

theorem set_root_op (c : Ctx) (o o' : Nat) (ts : List Tree) :
    ((c.plug (.op o ts)).toPostfix).set (c.pre.length + (Tree.op o ts).size - 1) (.op ts.length o')
      = (c.plug (.op o' ts)).toPostfix := by
  rw [Ctx.toPostfix_plug, Ctx.toPostfix_plug, toPostfix_op_last, toPostfix_op_last, ← List.append_assoc,
    set_at, ← List.append_assoc]
  simp only [List.length_append, flat_length, Tree.size_op]; omega

theorem set_root_var (c : Ctx) (f f' : Nat) :
    ((c.plug (.var f)).toPostfix).set (c.pre.length + (Tree.var f).size - 1) (.var f')
      = (c.plug (.var f')).toPostfix := by
  rw [Ctx.toPostfix_plug, Ctx.toPostfix_plug, Tree.toPostfix_var, Tree.toPostfix_var, set_at]
  simp

theorem positions_nil_iff {p : PNode → Bool} {nodes : List PNode} :
    positions p nodes = [] ↔ ∀ n ∈ nodes, p n = false := by
  rw [List.eq_nil_iff_forall_not_mem]
  simp only [mem_positions, not_exists, not_and, Bool.not_eq_true]
  constructor
  · intro h n hn
    obtain ⟨i, hi, rfl⟩ := List.getElem_of_mem hn
    exact h i _ (List.getElem?_eq_getElem hi)
  · intro h i n hn
    exact h n (List.mem_of_getElem? hn)

/-- Operator mutation. -/
theorem mutateOperator_total (D : Nat) (ops : List OpId) (t : Tree) (cs : List T) (nf : Nat)
    (hops : ∀ op ∈ ops, 1 ≤ op.arity ∧ op.arity ≤ D) (ht : t.Uses ops nf cs.length) :
    Rand.Total (mutateOperator (Operators.of D ops) ⟨t.toPostfix, cs⟩ : Rand F (PostfixExpr T × Bool))
      fun r => (r.2 = false ∧ r.1 = ⟨t.toPostfix, cs⟩ ∧ t.opNodes = []) ∨
        (r.2 = true ∧ ∃ (c : Ctx) (o o' : Nat) (ts : List Tree), t = c.plug (.op o ts) ∧
          (⟨ts.length, o'⟩ : OpId) ∈ ops ∧ r.1 = ⟨(c.plug (.op o' ts)).toPostfix, cs⟩) := by
  unfold mutateOperator
  refine Rand.Total.ite (fun he => Rand.Total.pure (Or.inl ⟨rfl, rfl, ?_⟩)) fun hne => ?_
  · rw [List.isEmpty_iff, positions_nil_iff] at he
    rw [← opNodes_toPostfix, List.filterMap_eq_nil_iff]
    intro n hn
    have := he n hn
    cases n <;> simp_all [PNode.isOp]
  rw [List.isEmpty_iff] at hne
  refine Rand.Total.bind (Total.pick hne) fun i hi => ?_
  obtain ⟨n, hn, hp⟩ := mem_positions.mp hi
  simp only [hn]
  match n, hp with
  | .op a o, _ =>
    obtain ⟨c, s, rfl, rfl, hr⟩ := position_ctx hn
    obtain ⟨ts, rfl, rfl⟩ := rootNode_isOp hr
    have hmem : (⟨ts.length, o⟩ : OpId) ∈ ops := by
      have := ((all_plug c _).mp ht).2
      rw [Tree.all_op] at this; exact this.1
    have hbd := hops _ hmem
    simp only at hbd
    have hpos : 0 < (Operators.of D ops).nops ts.length := by
      rw [nops_of D ops _ hbd.1 hbd.2, List.length_pos_iff_exists_mem]
      exact ⟨_, List.mem_filter.mpr ⟨hmem, by simp⟩⟩
    simp only []
    rw [if_neg (by omega)]
    refine Rand.Total.bind (C52_sample_op D _ ops hbd.1 hbd.2 ⟨_, hmem, rfl⟩) fun op hop => ?_
    refine Rand.Total.pure (Or.inr ⟨rfl, c, o, op.id, ts, rfl, ?_, ?_⟩)
    · have := hop.1; rwa [← hop.2]
    · rw [set_root_op]

/-- Feature mutation. -/
theorem mutateFeature_total (ops : List OpId) (t : Tree) (cs : List T) (nf : Nat)
    (hnf : nf ≤ u16Max + 1) (ht : t.Uses ops nf cs.length) :
    Rand.Total (mutateFeature nf ⟨t.toPostfix, cs⟩ : Rand F (PostfixExpr T × Bool))
      fun r => (r.2 = false ∧ r.1 = ⟨t.toPostfix, cs⟩) ∨
        (r.2 = true ∧ ∃ (c : Ctx) (f f' : Nat), t = c.plug (.var f) ∧
          f' ≠ f ∧ f' < nf ∧ r.1 = ⟨(c.plug (.var f')).toPostfix, cs⟩) := by
  unfold mutateFeature
  refine Rand.Total.ite (fun he => Rand.Total.pure (Or.inl ⟨rfl, rfl⟩)) fun h1 => ?_
  refine Rand.Total.ite (fun he => Rand.Total.pure (Or.inl ⟨rfl, rfl⟩)) fun hne => ?_
  rw [List.isEmpty_iff] at hne
  refine Rand.Total.bind (Total.pick hne) fun i hi => ?_
  obtain ⟨n, hn, hp⟩ := mem_positions.mp hi
  simp only [hn]
  match n, hp with
  | .var f, _ =>
    obtain ⟨c, s, rfl, rfl, hr⟩ := position_ctx hn
    obtain rfl := rootNode_isVar hr
    simp only []
    have hf : f < nf := by
      have := ((all_plug c _).mp ht).2
      rw [Tree.all_var] at this; exact this
    rw [if_neg (by omega)]
    have : ∀ k, Rand.Total (mutateFeatureLoop nf f (c.pre.length + (Tree.var f).size - 1)
        ⟨(c.plug (.var f)).toPostfix, cs⟩ k : Rand F (PostfixExpr T × Bool))
        fun r => (r.2 = false ∧ r.1 = ⟨(c.plug (.var f)).toPostfix, cs⟩) ∨
          (r.2 = true ∧ ∃ (c' : Ctx) (f1 f' : Nat), c.plug (.var f) = c'.plug (.var f1) ∧
          f' ≠ f1 ∧ f' < nf ∧ r.1 = ⟨(c'.plug (.var f')).toPostfix, cs⟩) := by
      intro k
      induction k with
      | zero => exact Rand.Total.pure (Or.inl ⟨rfl, rfl⟩)
      | succ k ih =>
        rw [mutateFeatureLoop]
        refine Rand.Total.bind (Rand.Total.below (by omega)) fun f' hf' => ?_
        refine Rand.Total.ite (fun hne => ?_) fun _ => ih
        rw [if_pos (by omega)]
        refine Rand.Total.pure (Or.inr ⟨rfl, c, f, f', rfl, hne, hf', ?_⟩)
        rw [set_root_var]
    exact this 8

/-- Swapping the operands of a binary operator. -/
theorem swapOperands_total (t : Tree) (cs : List T) :
    Rand.Total (swapOperands ⟨t.toPostfix, cs⟩ : Rand F (PostfixExpr T × Bool))
      fun r => (r.2 = false ∧ r.1 = ⟨t.toPostfix, cs⟩ ∧ ∀ p ∈ t.opNodes, p.2 ≠ 2) ∨
        (r.2 = true ∧ ∃ (c : Ctx) (o : Nat) (x y : Tree), t = c.plug (.op o [x, y]) ∧
          r.1 = ⟨(c.plug (.op o [y, x])).toPostfix, cs⟩) := by
  unfold swapOperands
  refine Rand.Total.ite (fun he => Rand.Total.pure (Or.inl ⟨rfl, rfl, ?_⟩)) fun hne => ?_
  · rw [List.isEmpty_iff, positions_nil_iff] at he
    rw [← opNodes_toPostfix]
    rintro ⟨o, a⟩ hp rfl
    obtain ⟨n, hn, hm⟩ := List.mem_filterMap.mp hp
    have := he n hn
    cases n with
    | op a' o' => simp at hm; obtain ⟨rfl, rfl⟩ := hm; simp [PNode.isBinary] at this
    | _ => simp at hm
  rw [List.isEmpty_iff] at hne
  refine Rand.Total.lift_some (subtreeSizes_toPostfix t) ?_
  refine Rand.Total.bind (Total.pick hne) fun i hi => ?_
  obtain ⟨n, hn, hp⟩ := mem_positions.mp hi
  simp only [hn]
  obtain ⟨o, rfl⟩ : ∃ o, n = .op 2 o := by
    cases n with
    | op a o =>
      by_cases ha : a = 2
      · exact ⟨o, by rw [ha]⟩
      · simp [PNode.isBinary, ha] at hp
    | _ => simp [PNode.isBinary] at hp
  obtain ⟨c, s, rfl, rfl, hr⟩ := position_ctx hn
  obtain ⟨ts, rfl, hlen⟩ := rootNode_isOp hr
  obtain ⟨x, y, rfl⟩ := List.length_eq_two.mp hlen
  have hat := at_plug c (.op o [x, y])
  have hx := At.child (l := []) (u := x) (r := [y]) hat
  have hy := At.child (l := [x]) (u := y) (r := []) hat
  simp only []
  refine Rand.Total.lift_some hat.range ?_
  refine Rand.Total.lift_some (childRanges_eq hat) ?_
  refine Rand.Total.lift_some (a := (c.pre.length, c.pre.length + x.size - 1)) (by simp [rangesFrom]) ?_
  refine Rand.Total.lift_some (a := (c.pre.length + x.size, c.pre.length + x.size + y.size - 1))
    (by simp [rangesFrom]) ?_
  have sy := hy.slice_eq
  have sx := hx.slice_eq
  simp only [List.map_cons, List.map_nil, List.flatten_cons, List.flatten_nil, List.append_nil,
    List.length_append, length_toPostfix] at sy sx
  refine Rand.Total.lift_some sy (Rand.Total.lift_some sx (Rand.Total.lift_some (hat.splice_eq _) ?_))
  refine Rand.Total.pure (Or.inr ⟨rfl, c, o, x, y, rfl, ?_⟩)
  simp [Ctx.toPostfix_plug]

theorem split_at {α : Type} {l : List α} {i : Nat} (h : i < l.length) :
    ∃ a x b, l = a ++ x :: b ∧ a.length = i :=
  ⟨l.take i, l[i], l.drop (i + 1), by simp, by simp; omega⟩

/-- The child at position `j`: its range and whether it is an operator. -/
theorem child_info {nodes : List PNode} {sizes : List Nat} {p q : List PNode} {o : Nat}
    {ts : List Tree} (h : At nodes sizes p q (.op o ts)) {j : Nat} {rg : Nat × Nat}
    (hj : (rangesFrom p.length ts)[j]? = some rg) :
    ∃ l u r, ts = l ++ u :: r ∧ l.length = j ∧
      rg = (p.length + (l.map Tree.size).sum, p.length + (l.map Tree.size).sum + u.size - 1) ∧
      nodes[rg.2]? = some u.rootNode ∧
      At nodes sizes (p ++ (l.map Tree.toPostfix).flatten)
        ((r.map Tree.toPostfix).flatten ++ [.op (l.length + 1 + r.length) o] ++ q) u := by
  have hlt : j < ts.length := by
    have := (List.getElem?_eq_some_iff.mp hj).1
    simpa using this
  obtain ⟨l, u, r, rfl, rfl⟩ := split_at hlt
  rw [rangesFrom_get] at hj
  have hc := At.child h
  have hn := hc.getElem?_eq
  simp only [List.length_append, flat_length] at hn
  simp only [Option.some.injEq] at hj
  subst hj
  exact ⟨l, u, r, rfl, rfl, rfl, hn, hc⟩

/-- Deleting an operator. -/
theorem delete_core [Scalar T] (t : Tree) (cs : List T) (hcs : cs.length ≤ u16Max)
    (hc : ∀ c ∈ t.constIdxs, c < cs.length)
    (hcomp : ∀ u : Tree, (∀ c ∈ u.constIdxs, c < cs.length) →
      Rand.Total (compressR ⟨u.toPostfix, cs⟩ : Rand F (PostfixExpr T)) (SameExpr u cs)) :
    Rand.Total (deleteRandomOp ⟨t.toPostfix, cs⟩ : Rand F (PostfixExpr T × Bool))
      fun r => (r.2 = false ∧ r.1 = ⟨t.toPostfix, cs⟩ ∧ (t.Proper → t.opNodes = [])) ∨
        (r.2 = true ∧ ∃ (c : Ctx) (o : Nat) (l rr : List Tree) (u : Tree),
          t = c.plug (.op o (l ++ u :: rr)) ∧ SameExpr (c.plug u) cs r.1) := by
  unfold deleteRandomOp
  refine Rand.Total.ite (fun he => Rand.Total.pure (Or.inl ⟨rfl, rfl, ?_⟩)) fun hne => ?_
  · intro _
    rw [List.isEmpty_iff, positions_nil_iff] at he
    rw [← opNodes_toPostfix, List.filterMap_eq_nil_iff]
    intro n hn
    have := he n hn
    cases n <;> simp_all [PNode.isOp]
  rw [List.isEmpty_iff] at hne
  refine Rand.Total.bind (Total.pick hne) fun i hi => ?_
  obtain ⟨n, hn, hp⟩ := mem_positions.mp hi
  simp only [hn]
  match n, hp with
  | .op a o, _ =>
    obtain ⟨c, s, rfl, rfl, hr⟩ := position_ctx hn
    obtain ⟨ts, rfl, rfl⟩ := rootNode_isOp hr
    simp only []
    have hat := at_plug c (.op o ts)
    refine Rand.Total.ite (fun h0 => Rand.Total.pure (Or.inl ⟨rfl, rfl, ?_⟩)) fun h0 => ?_
    · intro hprop
      have := ((all_plug c _).mp hprop).2
      rw [Tree.all_op] at this
      omega
    refine Rand.Total.lift_some (subtreeSizes_toPostfix _) ?_
    refine Rand.Total.lift_some hat.range ?_
    rw [if_neg (by
      simp only [Tree.size_op]
      cases ts with
      | nil => simp at h0
      | cons u us => have := Tree.size_pos u; simp only [List.map_cons, List.sum_cons]; omega)]
    refine Rand.Total.lift_some (childRanges_eq hat) ?_
    refine Rand.Total.bind (Rand.Total.below (by omega)) fun k hk => ?_
    have hk' : k < (rangesFrom c.pre.length ts).length := by simpa using hk
    refine Rand.Total.lift_some (List.getElem?_eq_getElem hk') ?_
    obtain ⟨l, u, r, rfl, rfl, hrg, _, hu⟩ := child_info hat (List.getElem?_eq_getElem hk')
    rw [hrg]
    have hsl := hu.slice_eq
    simp only [List.length_append, flat_length] at hsl
    refine Rand.Total.lift_some hsl (Rand.Total.lift_some (hat.splice_eq _) ?_)
    rw [← Ctx.toPostfix_plug]
    refine Rand.Total.bind (hcomp (c.plug u) ?_) fun e' he' =>
      Rand.Total.pure (Or.inr ⟨rfl, c, o, l, r, u, rfl, he'⟩)
    have h1 : (c.plug (.op o (l ++ u :: r))).All (fun _ => True) (· < cs.length) (fun _ _ => True) :=
      Tree.all_iff.mpr ⟨fun _ _ => trivial, hc, fun _ _ => trivial⟩
    have h2 := (all_plug c _).mp h1
    have h3 := (all_plug c u).mpr ⟨h2.1, (Tree.all_op.mp h2.2).2 u (by simp)⟩
    exact (Tree.all_iff.mp h3).2.1

theorem validRoots_spec (nodes : List PNode) (sizes : List Nat)
    (hcr : ∀ k a o, nodes[k]? = some (.op a o) → ∃ cs, childRanges sizes k a = some cs) :
    ∀ (rest done : List PNode), nodes = done ++ rest →
    ∃ L, validRoots nodes sizes rest done.length = some L ∧ ∀ k, k ∈ L ↔ (done.length ≤ k ∧
      ∃ a o cs, nodes[k]? = some (.op a o) ∧ a ≠ 0 ∧ childRanges sizes k a = some cs ∧
        cs.any (endIsOp nodes) = true) := by
  intro rest
  induction rest with
  | nil =>
    intro done h
    refine ⟨[], rfl, fun k => ⟨fun h => by simp at h, ?_⟩⟩
    rintro ⟨hk, a, o, cs, hn, _⟩
    have := (List.getElem?_eq_some_iff.mp hn).1
    rw [h] at this; simp at this; omega
  | cons n rest ih =>
    intro done h
    obtain ⟨L, hL, hmem⟩ := ih (done ++ [n]) (by simp [h])
    simp only [List.length_append, List.length_singleton] at hL hmem
    have hget : nodes[done.length]? = some n := by rw [h]; simp
    have hskip : (∀ a o cs, n = .op a o → a ≠ 0 → childRanges sizes done.length a = some cs →
        cs.any (endIsOp nodes) = false) → ∀ k, k ∈ L ↔ (done.length ≤ k ∧
        ∃ a o cs, nodes[k]? = some (.op a o) ∧ a ≠ 0 ∧ childRanges sizes k a = some cs ∧
          cs.any (endIsOp nodes) = true) := by
      intro hno k
      rw [hmem]
      constructor
      · rintro ⟨h1, h2⟩; exact ⟨by omega, h2⟩
      · rintro ⟨h1, a, o, cs, h2, h3, h4, h5⟩
        refine ⟨?_, a, o, cs, h2, h3, h4, h5⟩
        rcases Nat.lt_or_ge done.length k with hlt | hge
        · omega
        · have : k = done.length := by omega
          subst this
          rw [hget] at h2
          have := hno a o cs (by simpa using h2) h3 h4
          rw [h5] at this; simp at this
    cases n with
    | var f => exact ⟨L, by rw [validRoots, hL]; simp, hskip (by intros; simp_all)⟩
    | const f => exact ⟨L, by rw [validRoots, hL]; simp, hskip (by intros; simp_all)⟩
    | op a o =>
      rw [validRoots]
      by_cases ha : a = 0
      · rw [if_pos ha, hL]
        exact ⟨L, rfl, hskip (by
          intro a' o' cs e h1; simp only [PNode.op.injEq] at e; omega)⟩
      · rw [if_neg ha]
        obtain ⟨cs, hcs⟩ := hcr _ a o hget
        rw [hcs]
        simp only []
        by_cases hany : cs.any (endIsOp nodes) = true
        · rw [if_pos hany, hL]
          refine ⟨done.length :: L, rfl, fun k => ?_⟩
          rw [List.mem_cons, hmem]
          constructor
          · rintro (rfl | ⟨h1, h2⟩)
            · exact ⟨Nat.le_refl _, a, o, cs, hget, ha, hcs, hany⟩
            · exact ⟨by omega, h2⟩
          · rintro ⟨h1, h2⟩
            rcases Nat.lt_or_ge done.length k with hlt | hge
            · exact Or.inr ⟨by omega, h2⟩
            · exact Or.inl (by omega)
        · rw [if_neg hany, hL]
          refine ⟨L, rfl, hskip ?_⟩
          intro a' o' cs' e _ h4
          simp only [PNode.op.injEq] at e
          obtain ⟨rfl, rfl⟩ := e
          rw [hcs] at h4
          simp only [Option.some.injEq] at h4
          subst h4
          simpa using hany

theorem childRanges_any (t : Tree) (k a o : Nat) (h : t.toPostfix[k]? = some (.op a o)) :
    ∃ (c : Ctx) (ts : List Tree), t = c.plug (.op o ts) ∧ ts.length = a ∧
      k = c.pre.length + (Tree.op o ts).size - 1 ∧
      childRanges (t.subtrees.map Tree.size) k a = some (rangesFrom c.pre.length ts) := by
  obtain ⟨c, s, rfl, rfl, hr⟩ := position_ctx h
  obtain ⟨ts, rfl, rfl⟩ := rootNode_isOp hr
  exact ⟨c, ts, rfl, rfl, rfl, childRanges_eq (at_plug c _)⟩

/-- Rotation. -/
theorem rotateTree_total (t : Tree) (cs : List T) :
    Rand.Total (rotateTree ⟨t.toPostfix, cs⟩ : Rand F (PostfixExpr T × Bool))
      fun r => (r.2 = false ∧ r.1 = ⟨t.toPostfix, cs⟩ ∧ (t.Proper → ∀ (c : Ctx) (o o' : Nat)
          (l rr us : List Tree), t ≠ c.plug (.op o (l ++ .op o' us :: rr)))) ∨
        (r.2 = true ∧ ∃ (c : Ctx) (o o' : Nat) (l rr l' r' : List Tree) (g : Tree),
          t = c.plug (.op o (l ++ .op o' (l' ++ g :: r') :: rr)) ∧
          r.1 = ⟨(c.plug (.op o' (l' ++ .op o (l ++ g :: rr) :: r'))).toPostfix, cs⟩) := by
  unfold rotateTree
  refine Rand.Total.lift_some (subtreeSizes_toPostfix t) ?_
  obtain ⟨L, hL, hmem⟩ := validRoots_spec t.toPostfix (t.subtrees.map Tree.size)
    (fun k a o h => by
      obtain ⟨c, ts, _, _, _, h4⟩ := childRanges_any t k a o h
      exact ⟨_, h4⟩) t.toPostfix [] rfl
  refine Rand.Total.lift_some hL ?_
  refine Rand.Total.ite (fun he => Rand.Total.pure (Or.inl ⟨rfl, rfl, ?_⟩)) fun hne => ?_
  · intro _ c o o' l rr us ht
    rw [List.isEmpty_iff] at he
    subst he ht
    have hat := at_plug c (.op o (l ++ .op o' us :: rr))
    have hsub := At.child hat
    have h1 := hsub.getElem?_eq
    simp only [List.length_append, flat_length] at h1
    have := (hmem (c.pre.length + (Tree.op o (l ++ .op o' us :: rr)).size - 1)).mpr
      ⟨Nat.zero_le _, _, o, _, hat.getElem?_eq, by simp, childRanges_eq hat, ?_⟩
    · simp at this
    · rw [List.any_eq_true]
      refine ⟨_, List.mem_of_getElem? (rangesFrom_get c.pre.length l rr (.op o' us)), ?_⟩
      simp only [endIsOp]
      rw [h1]; rfl
  rw [List.isEmpty_iff] at hne
  refine Rand.Total.bind (Total.pick hne) fun i hi => ?_
  obtain ⟨_, a, o, cr, hn, ha, hcr, hany⟩ := (hmem i).mp hi
  simp only [hn]
  obtain ⟨c, ts, ht, hlen, hidx, hcr'⟩ := childRanges_any t i a o hn
  subst ht
  have hcreq : cr = rangesFrom c.pre.length ts := by
    rw [hcr] at hcr'; simpa using hcr'
  subst hcreq
  rw [if_neg ha]
  refine Rand.Total.lift_some hcr ?_
  have hat := at_plug c (.op o ts)
  refine Rand.Total.ite (fun he => ?_) fun hpne => ?_
  · exfalso
    rw [List.isEmpty_iff, List.map_eq_nil_iff, List.filter_eq_nil_iff] at he
    obtain ⟨x, hx, hx2⟩ := List.any_eq_true.mp hany
    obtain ⟨j, hj, rfl⟩ := List.getElem_of_mem hx
    exact he (_, j) (List.mem_zipIdx_iff_getElem?.mpr (List.getElem?_eq_getElem hj)) hx2
  rw [List.isEmpty_iff] at hpne
  refine Rand.Total.bind (Total.pick hpne) fun j hj => ?_
  obtain ⟨⟨rg, j'⟩, hjf, rfl⟩ := List.mem_map.mp hj
  obtain ⟨hz, hend⟩ := List.mem_filter.mp hjf
  have hget := List.mem_zipIdx_iff_getElem?.mp hz
  simp only at hget hend ⊢
  obtain ⟨l, u, rr, rfl, rfl, rfl, hroot, hu⟩ := child_info hat hget
  refine Rand.Total.lift_some hget ?_
  simp only [endIsOp, hroot] at hend
  cases u with
  | var f => simp [Tree.rootNode, PNode.isOp] at hend
  | const f => simp [Tree.rootNode, PNode.isOp] at hend
  | op o' us =>
    simp only [hroot, Tree.rootNode]
    refine Rand.Total.ite (fun h0 => Rand.Total.pure (Or.inl ⟨rfl, rfl, ?_⟩)) fun h0 => ?_
    · intro hprop
      exfalso
      have := ((all_plug c _).mp hprop).2
      have := (Tree.all_op.mp this).2 (.op o' us) (by simp)
      have := (Tree.all_op.mp this).1
      omega
    have hcr2 := childRanges_eq hu
    simp only [List.length_append, flat_length] at hcr2
    refine Rand.Total.lift_some hcr2 ?_
    refine Rand.Total.bind (Rand.Total.below (by omega)) fun k hk => ?_
    have hlenp : (c.pre ++ (l.map Tree.toPostfix).flatten).length
        = c.pre.length + (l.map Tree.size).sum := by simp only [List.length_append, flat_length]
    obtain ⟨rg2, hki⟩ : ∃ rg2, (rangesFrom (c.pre.length + (l.map Tree.size).sum) us)[k]? = some rg2 :=
      ⟨_, List.getElem?_eq_getElem (by simpa using hk)⟩
    refine Rand.Total.lift_some hki ?_
    have hki' := hki
    rw [← hlenp] at hki'
    obtain ⟨l', g, r', rfl, rfl, hrg, _, hg⟩ := child_info hu hki'
    rw [hrg, hidx]
    refine Rand.Total.lift_some hat.range ?_
    have hsl := hg.slice_eq
    simp only [List.length_append, flat_length] at hsl hrg ⊢
    refine Rand.Total.lift_some hsl ?_
    have hg1 := gather_eq (c.plug (.op o (l ++ .op o' (l' ++ g :: r') :: rr))).toPostfix g.toPostfix l rr (.op o' (l' ++ g :: r')) c.pre.length 0 c.pre
      ([.op (l ++ .op o' (l' ++ g :: r') :: rr).length o] ++ c.post) rfl (by
        rw [hat.nodes_eq, toPostfix_op_last]; simp only [List.append_assoc])
    rw [Nat.zero_add] at hg1
    refine Rand.Total.lift_some hg1 ?_
    have hg2 := gather_eq (c.plug (.op o (l ++ .op o' (l' ++ g :: r') :: rr))).toPostfix
      ((l.map Tree.toPostfix).flatten ++ g.toPostfix ++ (rr.map Tree.toPostfix).flatten ++ [.op a o])
      l' r' g (c.pre.length + (l.map Tree.size).sum) 0 (c.pre ++ (l.map Tree.toPostfix).flatten)
      ([.op (l' ++ g :: r').length o'] ++ ((rr.map Tree.toPostfix).flatten ++
        [.op (l.length + 1 + rr.length) o] ++ c.post)) (by rw [hlenp]) (by
        rw [hu.nodes_eq, toPostfix_op_last]; simp only [List.append_assoc])
    rw [Nat.zero_add] at hg2
    refine Rand.Total.lift_some hg2 (Rand.Total.lift_some (hat.splice_eq _) ?_)
    refine Rand.Total.pure (Or.inr ⟨rfl, c, o, o', l, rr, l', r', g, rfl, ?_⟩)
    rw [Ctx.toPostfix_plug, toPostfix_op_last]
    rw [← hlen]
    simp [List.append_assoc, Nat.add_comm, Nat.add_left_comm]

end SR
