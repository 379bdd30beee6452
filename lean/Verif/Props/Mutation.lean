import Verif.Proofs.MutAdd
import Mathlib.Analysis.SpecialFunctions.Pow.Real
import Mathlib.MeasureTheory.Measure.Lebesgue.Basic
/-
C19 (mutations preserve well-formedness), C20 (sizes), C21 (rotation and swap rearrange),
C22 (crossover), C53 (constant mutation).

`Rand.Total m P` (Model/Rand.lean): for every random stream `m` does not panic and its result satisfies `P`.
-/
namespace SR
variable {F T : Type}

/-- The setting of the mutation theorems: a tree over the configured operators (arity between 1 and `D`) and
features, within the `u16` limits on features and constants. -/
structure MutSetting (D : Nat) (ops : List OpId) (nf : Nat) (t : Tree) (cs : List T) : Prop where
  ops_ok : ∀ op ∈ ops, 1 ≤ op.arity ∧ op.arity ≤ D
  nf_pos : 1 ≤ nf
  nf_le : nf ≤ 65536
  consts_le : cs.length + D ≤ 65535
  uses : t.Uses ops nf cs.length

namespace MutSetting
variable {D : Nat} {ops : List OpId} {nf : Nat} {t : Tree} {cs : List T}

theorem proper (h : MutSetting D ops nf t cs) : t.Proper :=
  Tree.All.mono (fun _ _ => trivial) (fun _ _ => trivial) (fun _ _ hm => (h.ops_ok _ hm).1) h.uses

theorem consts (h : MutSetting D ops nf t cs) : ∀ x ∈ t.constIdxs, x < cs.length :=
  (Tree.all_iff.mp h.uses).2.1

theorem ok (h : MutSetting D ops nf t cs) : ExprOk ops nf ⟨t.toPostfix, cs⟩ := ⟨t, rfl, h.uses⟩
end MutSetting

/-- Non-vacuity: `f(x0 * c0, x1)` over a unary, a binary and two features meets the setting. -/
example : MutSetting 2 [⟨1, 0⟩, ⟨2, 0⟩, ⟨2, 1⟩] 2
    (.op 0 [.op 1 [.var 0, .const 0], .var 1]) [(3 : Int)] where
  ops_ok := by decide
  nf_pos := by decide
  nf_le := by decide
  consts_le := by decide
  uses := by simp [Tree.Uses]

theorem size_plug (c : Ctx) (s s' : Tree) : (c.plug s).size + s'.size = (c.plug s').size + s.size := by
  rw [← length_toPostfix (c.plug s), ← length_toPostfix (c.plug s'), Ctx.toPostfix_plug,
    Ctx.toPostfix_plug]
  simp only [List.length_append, length_toPostfix]; omega

theorem SameExpr.length {u : Tree} {cs : List T} {e : PostfixExpr T} (h : SameExpr u cs e) :
    e.nodes.length = u.size := by
  obtain ⟨ρ, h, _⟩ := h
  rw [h, length_toPostfix, Tree.size_mapConst]

theorem fresh_sizes {nf a b : Nat} {ls : List Tree} (h : ∀ u ∈ ls, Fresh nf a b u) :
    (ls.map Tree.size).sum = ls.length := by
  rw [List.map_congr_left (g := fun _ => 1) fun u hu => (h u hu).size]; simp

/-! ## C20/C21: what each mutation does, exactly -/

section
variable [Scalar T] (normal : F → F → T) {D : Nat} {ops : List OpId} {nf : Nat} {t : Tree} {cs : List T}

/-- C20 (operator): the mutation fails exactly on trees without operator; otherwise it replaces one
operator by a configured operator of the same arity and changes nothing else. -/
theorem C20_mutate_operator (h : MutSetting D ops nf t cs) :
    Rand.Total (mutateOperator (Operators.of D ops) ⟨t.toPostfix, cs⟩ : Rand F (PostfixExpr T × Bool))
      fun r => (r.2 = false ∧ r.1 = ⟨t.toPostfix, cs⟩ ∧ t.opNodes = []) ∨
        (r.2 = true ∧ ∃ (c : Ctx) (o o' : Nat) (ts : List Tree), t = c.plug (.op o ts) ∧
          (⟨ts.length, o'⟩ : OpId) ∈ ops ∧ r.1 = ⟨(c.plug (.op o' ts)).toPostfix, cs⟩) :=
  mutateOperator_total D ops t cs nf h.ops_ok h.uses

omit [Scalar T] in
/-- C20 (operator): if no operator is configured with the arity of any operator of the expression, the mutation leaves it as it is and
reports failure. -/
theorem C20_operator_unconfigured (ops' : Operators) (e : PostfixExpr T)
    (h : ∀ a id, PNode.op a id ∈ e.nodes → ops'.nops a = 0) :
    Rand.Total (mutateOperator ops' e : Rand F (PostfixExpr T × Bool)) fun r => r = (e, false) := by
  unfold mutateOperator
  simp only
  split
  · exact Rand.Total.pure rfl
  · next hne =>
    refine Rand.Total.bind (Total.pick (by simpa using hne)) fun i hi => ?_
    split
    · next a id hn =>
      rw [if_pos (h a id (List.mem_of_getElem? hn))]
      exact Rand.Total.pure rfl
    · exact Rand.Total.pure rfl

/-- The hypothesis is met: an expression with a unary operator when only binary ones are configured. -/
example : ∀ a id, PNode.op a id ∈ ([.var 0, .op 1 3] : List PNode) → (Operators.of 2 [⟨2, 0⟩]).nops a = 0 := by
  intro a id h
  simp only [List.mem_cons, reduceCtorEq, PNode.op.injEq, List.not_mem_nil, or_false, false_or] at h
  rw [h.1]
  decide

/-- C20 (feature): either nothing changes (reported as failure) or one feature leaf becomes a different
configured feature. -/
theorem C20_mutate_feature (h : MutSetting D ops nf t cs) :
    Rand.Total (mutateFeature nf ⟨t.toPostfix, cs⟩ : Rand F (PostfixExpr T × Bool))
      fun r => (r.2 = false ∧ r.1 = ⟨t.toPostfix, cs⟩) ∨
        (r.2 = true ∧ ∃ (c : Ctx) (f f' : Nat), t = c.plug (.var f) ∧
          f' ≠ f ∧ f' < nf ∧ r.1 = ⟨(c.plug (.var f')).toPostfix, cs⟩) :=
  mutateFeature_total ops t cs nf h.nf_le h.uses

/-- C20 (no expression): on an expression without nodes, whatever its constants, the configured operators,
the number of features and the random draws, every mutation leaves it as it is and reports failure, except
rotation, which panics (it computes the subtree sizes before looking for a root). -/
theorem C20_empty (ops' : Operators) (k : Nat) (ks : List T) (A : FArith F) (cast : F → T) (mulT : T → T → T)
    (p q r : F) :
    (∀ m ∈ ([mutateOperator ops', mutateFeature k, swapOperands, insertRandomOp normal ops' k,
        prependRandomOp normal ops' k, appendRandomOp normal ops' k, addNode normal ops' k, deleteRandomOp,
        mutateConstant A cast mulT p q r] : List (PostfixExpr T → Rand F (PostfixExpr T × Bool))),
      Rand.Total (m ⟨[], ks⟩) fun res => res = (⟨[], ks⟩, false)) ∧
    ∀ g : Rng F, (rotateTree ⟨[], ks⟩ : Rand F (PostfixExpr T × Bool)) g = none := by
  have base : Rand.Total (pure (⟨[], ks⟩, false) : Rand F (PostfixExpr T × Bool))
      fun res => res = (⟨[], ks⟩, false) := Rand.Total.pure rfl
  refine ⟨?_, fun g => rfl⟩
  intro m hm
  simp only [List.mem_cons, List.not_mem_nil, or_false] at hm
  rcases hm with rfl | rfl | rfl | rfl | rfl | rfl | rfl | rfl | rfl
  · exact base
  · unfold mutateFeature
    exact Rand.Total.ite (fun _ => base) fun _ => base
  · exact base
  · exact base
  · exact base
  · exact base
  · unfold addNode
    exact Rand.Total.bind Rand.Total.bool fun b _ => Rand.Total.ite (fun _ => base) fun _ => base
  · exact base
  · exact base

/-- C21 (swap): the mutation fails exactly on trees without a binary operator; otherwise the two operands of
one binary operator are exchanged, everything else and the constants staying the same. -/
theorem C21_swap (t : Tree) (cs : List T) :
    Rand.Total (swapOperands ⟨t.toPostfix, cs⟩ : Rand F (PostfixExpr T × Bool))
      fun r => (r.2 = false ∧ r.1 = ⟨t.toPostfix, cs⟩ ∧ ∀ p ∈ t.opNodes, p.2 ≠ 2) ∨
        (r.2 = true ∧ ∃ (c : Ctx) (o : Nat) (x y : Tree), t = c.plug (.op o [x, y]) ∧
          r.1 = ⟨(c.plug (.op o [y, x])).toPostfix, cs⟩) :=
  swapOperands_total t cs

/-- C21 (rotation): the mutation fails exactly when no operator has an operator child (on trees whose
operators have arguments); otherwise at some node `o(l.., p(l'.., g, r'..), r..)` the pivot child `p` becomes
the root of the region and its child `g` becomes a child of the old root: `p(l'.., o(l.., g, r..), r'..)`. -/
theorem C21_rotate (t : Tree) (cs : List T) :
    Rand.Total (rotateTree ⟨t.toPostfix, cs⟩ : Rand F (PostfixExpr T × Bool))
      fun r => (r.2 = false ∧ r.1 = ⟨t.toPostfix, cs⟩ ∧ (t.Proper → ∀ (c : Ctx) (o o' : Nat)
          (l rr us : List Tree), t ≠ c.plug (.op o (l ++ .op o' us :: rr)))) ∨
        (r.2 = true ∧ ∃ (c : Ctx) (o o' : Nat) (l rr l' r' : List Tree) (g : Tree),
          t = c.plug (.op o (l ++ .op o' (l' ++ g :: r') :: rr)) ∧
          r.1 = ⟨(c.plug (.op o' (l' ++ .op o (l ++ g :: rr) :: r'))).toPostfix, cs⟩) :=
  rotateTree_total t cs

/-- C21: swap and rotation keep the multiset of nodes and the constants. -/
theorem C21_only_rearrange (t : Tree) (cs : List T) :
    Rand.Total (swapOperands ⟨t.toPostfix, cs⟩ : Rand F (PostfixExpr T × Bool))
      (fun r => r.1.nodes.Perm t.toPostfix ∧ r.1.consts = cs) ∧
    Rand.Total (rotateTree ⟨t.toPostfix, cs⟩ : Rand F (PostfixExpr T × Bool))
      (fun r => r.1.nodes.Perm t.toPostfix ∧ r.1.consts = cs) := by
  constructor
  · refine (C21_swap t cs).mono ?_
    rintro r (⟨_, h, _⟩ | ⟨_, c, o, x, y, ht, h⟩)
    · rw [h]; exact ⟨List.Perm.refl _, rfl⟩
    · rw [h, ht]
      refine ⟨?_, rfl⟩
      simp only [Ctx.toPostfix_plug, Tree.toPostfix_op, List.map_cons, List.map_nil, List.flatten_cons,
        List.flatten_nil, List.append_nil, List.length_cons, List.length_nil]
      exact ((List.perm_append_comm.append_right _).append_left _).append_right _
  · refine (C21_rotate t cs).mono ?_
    rintro r (⟨_, h, _⟩ | ⟨_, c, o, o', l, rr, l', r', g, ht, h⟩)
    · rw [h]; exact ⟨List.Perm.refl _, rfl⟩
    · rw [h, ht]
      refine ⟨?_, rfl⟩
      simp only [Ctx.toPostfix_plug, Tree.toPostfix_op]
      refine (List.Perm.append_left _ ?_).append_right _
      rw [List.perm_iff_count]
      intro n
      simp only [List.map_append, List.map_cons, List.flatten_append, List.flatten_cons,
        List.count_append, Tree.toPostfix_op, List.length_append, List.length_cons]
      omega

/-- C20 (insertion): an operator of the set is inserted above some subtree, its other arguments being fresh
leaves; the insertion fails only for an empty operator set. -/
theorem C20_insert (h : MutSetting D ops nf t cs) :
    Rand.Total (insertRandomOp normal (Operators.of D ops) nf ⟨t.toPostfix, cs⟩)
      fun r => (r.2 = false ∧ r.1 = ⟨t.toPostfix, cs⟩ ∧ ops = []) ∨
        (r.2 = true ∧ ∃ (c : Ctx) (s : Tree) (op : OpId) (ls rs : List Tree) (new : List T),
          t = c.plug s ∧ op ∈ ops ∧ ls.length + 1 + rs.length = op.arity ∧
          (∀ u ∈ ls ++ rs, Fresh nf cs.length (cs ++ new).length u) ∧
          (∀ v ∈ new, ∃ a b, v = normal a b) ∧ new.length ≤ D ∧
          SameExpr (c.plug (.op op.id (ls ++ s :: rs))) (cs ++ new) r.1) :=
  insertRandomOp_total normal D ops nf t cs h.ops_ok h.nf_pos h.nf_le h.consts_le h.consts

/-- C20 (prepend): as insertion, above the root. -/
theorem C20_prepend (h : MutSetting D ops nf t cs) :
    Rand.Total (prependRandomOp normal (Operators.of D ops) nf ⟨t.toPostfix, cs⟩)
      fun r => (r.2 = false ∧ r.1 = ⟨t.toPostfix, cs⟩ ∧ ops = []) ∨
        (r.2 = true ∧ ∃ (op : OpId) (ls rs : List Tree) (new : List T),
          op ∈ ops ∧ ls.length + 1 + rs.length = op.arity ∧
          (∀ u ∈ ls ++ rs, Fresh nf cs.length (cs ++ new).length u) ∧
          (∀ v ∈ new, ∃ a b, v = normal a b) ∧ new.length ≤ D ∧
          SameExpr (.op op.id (ls ++ t :: rs)) (cs ++ new) r.1) :=
  prependRandomOp_total normal D ops nf t cs h.ops_ok h.nf_pos h.nf_le h.consts_le h.consts

/-- C20 (append): a leaf is replaced by an operator of the set applied to fresh leaves. -/
theorem C20_append (h : MutSetting D ops nf t cs) :
    Rand.Total (appendRandomOp normal (Operators.of D ops) nf ⟨t.toPostfix, cs⟩)
      fun r => (r.2 = false ∧ r.1 = ⟨t.toPostfix, cs⟩ ∧ ops = []) ∨
        (r.2 = true ∧ ∃ (c : Ctx) (s : Tree) (op : OpId) (ls : List Tree) (new : List T),
          t = c.plug s ∧ ((∃ f, s = .var f) ∨ ∃ c, s = .const c) ∧ op ∈ ops ∧ ls.length = op.arity ∧
          (∀ u ∈ ls, Fresh nf cs.length (cs ++ new).length u) ∧
          (∀ v ∈ new, ∃ a b, v = normal a b) ∧ new.length ≤ D ∧
          SameExpr (c.plug (.op op.id ls)) (cs ++ new) r.1) :=
  appendRandomOp_total normal D ops nf t cs h.ops_ok h.nf_pos h.nf_le h.consts_le h.consts h.proper

/-- C20 (deletion): fails exactly on trees without operator; otherwise one operator node is replaced by
the subtree of one of its children (constants keep their values). -/
theorem C20_delete (h : MutSetting D ops nf t cs) :
    Rand.Total (deleteRandomOp ⟨t.toPostfix, cs⟩ : Rand F (PostfixExpr T × Bool))
      fun r => (r.2 = false ∧ r.1 = ⟨t.toPostfix, cs⟩ ∧ t.opNodes = []) ∨
        (r.2 = true ∧ ∃ (c : Ctx) (o : Nat) (l rr : List Tree) (u : Tree),
          t = c.plug (.op o (l ++ u :: rr)) ∧ SameExpr (c.plug u) cs r.1) := by
  have hcs := h.consts_le
  have hu : u16Max = 65535 := rfl
  refine (delete_core t cs (by omega) h.consts fun u hu =>
    (compressR_total u cs (by omega) hu).mono fun _ h => h.1).mono ?_
  rintro r (⟨h1, h2, h3⟩ | h1)
  · exact Or.inl ⟨h1, h2, h3 h.proper⟩
  · exact Or.inr h1

/-- C20 (sizes): adding operators adds exactly the operator's arity to the node count; deleting strictly
shrinks; the in-place mutations keep the node count. -/
theorem C20_sizes (h : MutSetting D ops nf t cs) :
    let e : PostfixExpr T := ⟨t.toPostfix, cs⟩
    let adds (r : PostfixExpr T × Bool) : Prop :=
      (r.2 = false ∧ r.1 = e) ∨ ∃ op ∈ ops, r.1.nodes.length = t.size + op.arity
    let keeps (r : PostfixExpr T × Bool) : Prop := r.1.nodes.length = t.size
    Rand.Total (insertRandomOp normal (Operators.of D ops) nf e) adds ∧
    Rand.Total (prependRandomOp normal (Operators.of D ops) nf e) adds ∧
    Rand.Total (appendRandomOp normal (Operators.of D ops) nf e) adds ∧
    Rand.Total (addNode normal (Operators.of D ops) nf e) adds ∧
    Rand.Total (deleteRandomOp e : Rand F _) (fun r => (r.2 = false ∧ r.1 = e) ∨
      r.1.nodes.length < t.size) ∧
    Rand.Total (mutateOperator (Operators.of D ops) e : Rand F _) keeps ∧
    Rand.Total (mutateFeature nf e : Rand F _) keeps ∧
    Rand.Total (swapOperands e : Rand F _) keeps ∧
    Rand.Total (rotateTree e : Rand F _) keeps := by
  intro e adds keeps
  have hins : Rand.Total (insertRandomOp normal (Operators.of D ops) nf e) adds := by
    refine (C20_insert normal h).mono ?_
    rintro r (⟨h1, h2, _⟩ | ⟨_, c, s, op, ls, rs, new, ht, hop, hlen, hfr, _, _, hs⟩)
    · exact Or.inl ⟨h1, h2⟩
    · refine Or.inr ⟨op, hop, ?_⟩
      have h1 := fresh_sizes hfr
      have h2 := size_plug c s (.op op.id (ls ++ s :: rs))
      rw [hs.length, ht]
      simp only [List.map_append, List.sum_append, List.length_append] at h1
      simp only [Tree.size_op, List.map_append, List.map_cons, List.sum_append, List.sum_cons] at h2
      omega
  have hpre : Rand.Total (prependRandomOp normal (Operators.of D ops) nf e) adds := by
    refine (C20_prepend normal h).mono ?_
    rintro r (⟨h1, h2, _⟩ | ⟨_, op, ls, rs, new, hop, hlen, hfr, _, _, hs⟩)
    · exact Or.inl ⟨h1, h2⟩
    · refine Or.inr ⟨op, hop, ?_⟩
      have h1 := fresh_sizes hfr
      rw [hs.length]
      simp only [List.map_append, List.sum_append, List.length_append] at h1
      simp only [Tree.size_op, List.map_append, List.map_cons, List.sum_append, List.sum_cons]
      omega
  have happ : Rand.Total (appendRandomOp normal (Operators.of D ops) nf e) adds := by
    refine (C20_append normal h).mono ?_
    rintro r (⟨h1, h2, _⟩ | ⟨_, c, s, op, ls, new, ht, hl, hop, hlen, hfr, _, _, hs⟩)
    · exact Or.inl ⟨h1, h2⟩
    · refine Or.inr ⟨op, hop, ?_⟩
      have h1 := fresh_sizes hfr
      have h2 := size_plug c s (.op op.id ls)
      have h3 : s.size = 1 := by rcases hl with ⟨f, rfl⟩ | ⟨f, rfl⟩ <;> simp
      rw [hs.length, ht]
      simp only [Tree.size_op] at h2
      omega
  refine ⟨hins, hpre, happ, ?_, ?_, ?_, ?_, ?_, ?_⟩
  · refine Rand.Total.bind Rand.Total.bool fun b _ => ?_
    exact Rand.Total.ite (fun _ => happ) (fun _ => hpre)
  · refine (C20_delete h).mono ?_
    rintro r (⟨h1, h2, _⟩ | ⟨_, c, o, l, rr, u, ht, hs⟩)
    · exact Or.inl ⟨h1, h2⟩
    · refine Or.inr ?_
      have h2 := size_plug c u (.op o (l ++ u :: rr))
      rw [hs.length, ht]
      simp only [Tree.size_op, List.map_append, List.map_cons, List.sum_append, List.sum_cons] at h2
      omega
  · refine (C20_mutate_operator h).mono ?_
    rintro r (⟨_, h2, _⟩ | ⟨_, c, o, o', ts, ht, _, h2⟩)
    · simp only [keeps, h2, length_toPostfix]
    · have := size_plug c (.op o ts) (.op o' ts)
      simp only [keeps, h2, ht, length_toPostfix, Tree.size_op] at this ⊢
      omega
  · refine (C20_mutate_feature h).mono ?_
    rintro r (⟨_, h2⟩ | ⟨_, c, f, f', ht, _, _, h2⟩)
    · simp only [keeps, h2, length_toPostfix]
    · have := size_plug c (.var f) (.var f')
      simp only [keeps, h2, ht, length_toPostfix, Tree.size_var] at this ⊢
      omega
  · refine (C21_only_rearrange t cs).1.mono fun r hr => ?_
    show r.1.nodes.length = t.size
    rw [← length_toPostfix]; exact hr.1.length_eq
  · refine (C21_only_rearrange t cs).2.mono fun r hr => ?_
    show r.1.nodes.length = t.size
    rw [← length_toPostfix]; exact hr.1.length_eq

/-- C20 (random trees): a random tree of a requested size never exceeds it, and stops short only when no
operator of the set fits any more; in particular with a unary operator the size is exact. -/
theorem C20_random_expr (hops : ∀ op ∈ ops, 1 ≤ op.arity ∧ op.arity ≤ D) (h1 : 1 ≤ nf)
    (hnf : nf ≤ 65536) (target : Nat) (h1t : 1 ≤ target) (htar : target ≤ 65536) :
    Rand.Total (randomExpr normal (Operators.of D ops) nf target : Rand F (PostfixExpr T))
      fun e => ExprOk ops nf e ∧ e.nodes.length ≤ target ∧
        (∀ op ∈ ops, target < e.nodes.length + op.arity) ∧
        ((∃ op ∈ ops, op.arity = 1) → e.nodes.length = target) := by
  refine (randomExpr_total normal D ops nf target hops h1 hnf h1t htar).mono ?_
  rintro e ⟨u, hn, hu, hs, hmax⟩
  have hl : e.nodes.length = u.size := by rw [hn, length_toPostfix]
  refine ⟨⟨u, hn, hu⟩, by omega, by rw [hl]; exact hmax, ?_⟩
  rintro ⟨op, hop, h⟩
  have := hmax op hop
  omega

/-- C20 (random trees by expansion): at most `max maxSize 1` nodes; unless the bound stops it, at least one
node per requested expansion is added. -/
theorem C20_random_append (hops : ∀ op ∈ ops, 1 ≤ op.arity ∧ op.arity ≤ D) (h1 : 1 ≤ nf)
    (hnf : nf ≤ 65536) (nAppend maxSize : Nat) (hmax : maxSize ≤ 65535) :
    Rand.Total (randomExprAppendOps normal (Operators.of D ops) nf nAppend maxSize :
        Rand F (PostfixExpr T))
      fun e => ExprOk ops nf e ∧ e.nodes.length ≤ max maxSize 1 ∧
        (1 + nAppend ≤ e.nodes.length ∨ ∀ op ∈ ops, max maxSize 1 < e.nodes.length + op.arity) :=
  (randomExprAppendOps_total normal D ops nf nAppend maxSize hops h1 hnf hmax).mono
    fun _ h => ⟨h.1, h.2.2⟩

/-! ## C19 -/

omit [Scalar T] in
theorem mutateConstant_total (A : FArith F) (cast : F → T) (mulT : T → T → T)
    (perturb temperature probNegate : F) (t : Tree) (cs : List T)
    (hc : ∀ x ∈ t.constIdxs, x < cs.length) :
    Rand.Total (mutateConstant A cast mulT perturb temperature probNegate ⟨t.toPostfix, cs⟩)
      fun r => (r.2 = false ∧ r.1 = ⟨t.toPostfix, cs⟩ ∧ t.constIdxs = []) ∨
        (r.2 = true ∧ ∃ (ci : Nat) (v : T) (x u : F) (b : Bool), ci ∈ t.constIdxs ∧ cs[ci]? = some v ∧
          r.1 = ⟨t.toPostfix, cs.set ci
            (mulT v (cast (mutateFactor A perturb temperature probNegate x b u)))⟩) := by
  unfold mutateConstant
  refine Rand.Total.ite (fun he => Rand.Total.pure (Or.inl ⟨rfl, rfl, ?_⟩)) fun hne => ?_
  · rw [List.isEmpty_iff, positions_nil_iff] at he
    rw [← constIdxs_toPostfix, List.filterMap_eq_nil_iff]
    intro n hn
    have := he n hn
    cases n <;> simp_all [PNode.isConst, PNode.constIdx?]
  rw [List.isEmpty_iff] at hne
  refine Rand.Total.bind (Total.pick hne) fun i hi => ?_
  obtain ⟨n, hn, hp⟩ := mem_positions.mp hi
  simp only [hn]
  match n, hp with
  | .const ci, _ =>
    have hci : ci ∈ t.constIdxs := by
      rw [← constIdxs_toPostfix, List.mem_filterMap]
      exact ⟨_, List.mem_of_getElem? hn, rfl⟩
    have hv := List.getElem?_eq_getElem (hc ci hci)
    simp only []
    refine Rand.Total.bind (P := fun _ => True) (Rand.Total.float fun _ => trivial) fun x _ => ?_
    refine Rand.Total.bind Rand.Total.bool fun b _ => ?_
    refine Rand.Total.bind (P := fun _ => True) (Rand.Total.float fun _ => trivial) fun u _ => ?_
    rw [hv]
    exact Rand.Total.pure (Or.inr ⟨rfl, ci, _, x, u, b, hci, hv, rfl⟩)

/-- C19: for every well-formed expression over the configured operators and features and every random
stream, no mutation panics and each returns a well-formed expression over the same operators and features;
when it reports failure the expression is unchanged. -/
theorem C19_mutations_preserve (A : FArith F) (cast : F → T) (mulT : T → T → T)
    (perturb temperature probNegate : F) (h : MutSetting D ops nf t cs) :
    let e : PostfixExpr T := ⟨t.toPostfix, cs⟩
    let good (r : PostfixExpr T × Bool) : Prop := ExprOk ops nf r.1 ∧ (r.2 = false → r.1 = e)
    Rand.Total (mutateConstant A cast mulT perturb temperature probNegate e) good ∧
    Rand.Total (mutateOperator (Operators.of D ops) e : Rand F _) good ∧
    Rand.Total (mutateFeature nf e : Rand F _) good ∧
    Rand.Total (swapOperands e : Rand F _) good ∧
    Rand.Total (rotateTree e : Rand F _) good ∧
    Rand.Total (insertRandomOp normal (Operators.of D ops) nf e) good ∧
    Rand.Total (prependRandomOp normal (Operators.of D ops) nf e) good ∧
    Rand.Total (appendRandomOp normal (Operators.of D ops) nf e) good ∧
    Rand.Total (addNode normal (Operators.of D ops) nf e) good ∧
    Rand.Total (deleteRandomOp e : Rand F _) good := by
  intro e good
  have hsame : ∀ r : PostfixExpr T × Bool, r.2 = false ∧ r.1 = e → good r :=
    fun r hr => ⟨by rw [hr.2]; exact h.ok, fun _ => hr.2⟩
  have hno : ∀ {r : PostfixExpr T × Bool}, r.2 = true → r.2 = false → r.1 = e := by
    intro r h1 h2; rw [h1] at h2; simp at h2
  have hpre : Rand.Total (prependRandomOp normal (Operators.of D ops) nf e) good := by
    refine (C20_prepend normal h).mono ?_
    rintro r (⟨h1, h2, _⟩ | ⟨h1, op, ls, rs, new, hop, hlen, hfr, _, _, hs⟩)
    · exact hsame r ⟨h1, h2⟩
    · refine ⟨hs.ok (Tree.all_op.mpr ⟨?_, ?_⟩), hno h1⟩
      · have : (ls ++ t :: rs).length = op.arity := by simp; omega
        rw [this]; exact hop
      · intro u hu
        simp only [List.mem_append, List.mem_cons] at hu
        rcases hu with hu | rfl | hu
        · exact (hfr u (by simp [hu])).uses ops
        · exact h.uses.mono (by simp)
        · exact (hfr u (by simp [hu])).uses ops
  have happ : Rand.Total (appendRandomOp normal (Operators.of D ops) nf e) good := by
    refine (C20_append normal h).mono ?_
    rintro r (⟨h1, h2, _⟩ | ⟨h1, c, s, op, ls, new, ht, hl, hop, hlen, hfr, _, _, hs⟩)
    · exact hsame r ⟨h1, h2⟩
    · refine ⟨hs.ok ?_, hno h1⟩
      have hu := h.uses
      rw [ht] at hu
      refine (all_plug c _).mpr ⟨((all_plug c _).mp hu).1.mono (fun _ h => h)
        (fun _ h => by simp; omega) (fun _ _ h => h), Tree.all_op.mpr ⟨?_, ?_⟩⟩
      · rw [hlen]; exact hop
      · exact fun u hu => (hfr u hu).uses ops
  refine ⟨?_, ?_, ?_, ?_, ?_, ?_, hpre, happ, ?_, ?_⟩
  · refine (mutateConstant_total A cast mulT perturb temperature probNegate t cs h.consts).mono ?_
    rintro r (⟨h1, h2, _⟩ | ⟨h1, ci, v, x, u, b, _, _, h2⟩)
    · exact hsame r ⟨h1, h2⟩
    · refine ⟨⟨t, by rw [h2], by rw [h2]; simpa using h.uses⟩, hno h1⟩
  · refine (C20_mutate_operator h).mono ?_
    rintro r (⟨h1, h2, _⟩ | ⟨h1, c, o, o', ts, ht, hop, h2⟩)
    · exact hsame r ⟨h1, h2⟩
    · refine ⟨⟨_, by rw [h2], ?_⟩, hno h1⟩
      have hu := h.uses
      rw [ht] at hu
      have hu := (all_plug c _).mp hu
      rw [h2]
      exact (all_plug c _).mpr ⟨hu.1, Tree.all_op.mpr ⟨hop, (Tree.all_op.mp hu.2).2⟩⟩
  · refine (C20_mutate_feature h).mono ?_
    rintro r (⟨h1, h2⟩ | ⟨h1, c, f, f', ht, _, hf, h2⟩)
    · exact hsame r ⟨h1, h2⟩
    · refine ⟨⟨_, by rw [h2], ?_⟩, hno h1⟩
      have hu := h.uses
      rw [ht] at hu
      rw [h2]
      exact (all_plug c _).mpr ⟨((all_plug c _).mp hu).1, Tree.all_var.mpr hf⟩
  · refine (C21_swap t cs).mono ?_
    rintro r (⟨h1, h2, _⟩ | ⟨h1, c, o, x, y, ht, h2⟩)
    · exact hsame r ⟨h1, h2⟩
    · refine ⟨⟨_, by rw [h2], ?_⟩, hno h1⟩
      have hu := h.uses
      rw [ht] at hu
      have hu := (all_plug c _).mp hu
      have hop := Tree.all_op.mp hu.2
      rw [h2]
      refine (all_plug c _).mpr ⟨hu.1, Tree.all_op.mpr ⟨hop.1, fun u hu => hop.2 u ?_⟩⟩
      simp only [List.mem_cons, List.not_mem_nil, or_false] at hu ⊢
      exact hu.symm
  · refine (C21_rotate t cs).mono ?_
    rintro r (⟨h1, h2, _⟩ | ⟨h1, c, o, o', l, rr, l', r', g, ht, h2⟩)
    · exact hsame r ⟨h1, h2⟩
    · refine ⟨⟨_, by rw [h2], ?_⟩, hno h1⟩
      have hu := h.uses
      rw [ht] at hu
      have hu := (all_plug c _).mp hu
      have hop := Tree.all_op.mp hu.2
      have hpv := Tree.all_op.mp (hop.2 (.op o' (l' ++ g :: r')) (by simp))
      rw [h2]
      refine (all_plug c _).mpr ⟨hu.1, Tree.all_op.mpr ⟨by simpa using hpv.1, fun u hu => ?_⟩⟩
      simp only [List.mem_append, List.mem_cons] at hu
      rcases hu with hu | rfl | hu
      · exact hpv.2 u (by simp [hu])
      · refine Tree.all_op.mpr ⟨by simpa using hop.1, fun v hv => ?_⟩
        simp only [List.mem_append, List.mem_cons] at hv
        rcases hv with hv | rfl | hv
        · exact hop.2 v (by simp [hv])
        · exact hpv.2 v (by simp)
        · exact hop.2 v (by simp [hv])
      · exact hpv.2 u (by simp [hu])
  · refine (C20_insert normal h).mono ?_
    rintro r (⟨h1, h2, _⟩ | ⟨h1, c, s, op, ls, rs, new, ht, hop, hlen, hfr, _, _, hs⟩)
    · exact hsame r ⟨h1, h2⟩
    · refine ⟨hs.ok ?_, hno h1⟩
      have hu := h.uses.mono (nc' := (cs ++ new).length) (by simp)
      rw [ht] at hu
      have hu := (all_plug c _).mp hu
      refine (all_plug c _).mpr ⟨hu.1, Tree.all_op.mpr ⟨?_, ?_⟩⟩
      · have : (ls ++ s :: rs).length = op.arity := by simp; omega
        rw [this]; exact hop
      · intro u hu'
        simp only [List.mem_append, List.mem_cons] at hu'
        rcases hu' with hu' | rfl | hu'
        · exact (hfr u (by simp [hu'])).uses ops
        · exact hu.2
        · exact (hfr u (by simp [hu'])).uses ops
  · refine Rand.Total.bind Rand.Total.bool fun b _ => ?_
    exact Rand.Total.ite (fun _ => happ) (fun _ => hpre)
  · refine (C20_delete h).mono ?_
    rintro r (⟨h1, h2, _⟩ | ⟨h1, c, o, l, rr, u, ht, hs⟩)
    · exact hsame r ⟨h1, h2⟩
    · refine ⟨hs.ok ?_, hno h1⟩
      have hu := h.uses
      rw [ht] at hu
      have hu := (all_plug c _).mp hu
      exact (all_plug c _).mpr ⟨hu.1, (Tree.all_op.mp hu.2).2 u (by simp)⟩

/-! ## C22 -/

/-- C22: for every pair of well-formed parents and every random stream, crossover picks a subtree of each
parent; child 1 is parent 1 with its subtree replaced by the other parent's, *reading its constants from the
other parent's table*, and symmetrically for child 2 (both up to renumbering of constants).  (The parents
are arguments passed by value: nothing is modified.) -/
theorem C22_crossover (ta tb : Tree) (csA csB : List T)
    (ha : ta.Uses ops nf csA.length) (hb : tb.Uses ops nf csB.length)
    (hlim : csA.length + csB.length ≤ 65535) :
    Rand.Total (crossoverTrees ⟨ta.toPostfix, csA⟩ ⟨tb.toPostfix, csB⟩ :
        Rand F (PostfixExpr T × PostfixExpr T))
      fun r => ∃ (ca cb : Ctx) (sa sb : Tree), ta = ca.plug sa ∧ tb = cb.plug sb ∧
        SameExpr (ca.plug (sb.mapConst (· + csA.length))) (csA ++ csB) r.1 ∧
        SameExpr (cb.plug (sa.mapConst (· + csB.length))) (csB ++ csA) r.2 ∧
        ExprOk ops nf r.1 ∧ ExprOk ops nf r.2 ∧
        r.1.nodes.length + r.2.nodes.length = ta.size + tb.size := by
  refine (crossoverTrees_total ta tb csA csB (Tree.all_iff.mp ha).2.1 (Tree.all_iff.mp hb).2.1
    hlim).mono ?_
  rintro r ⟨ca, cb, sa, sb, rfl, rfl, h1, h2, _⟩
  have hshift : ∀ (s : Tree) (n m : Nat), s.Uses ops nf m → (s.mapConst (· + n)).Uses ops nf (n + m) := by
    intro s n m hs
    have hs := Tree.all_iff.mp hs
    refine Tree.all_iff.mpr ⟨by rw [Tree.features_mapConst]; exact hs.1, ?_, by
      rw [Tree.opNodes_mapConst]; exact hs.2.2⟩
    intro x hx
    rw [Tree.constIdxs_mapConst, List.mem_map] at hx
    obtain ⟨y, hy, rfl⟩ := hx
    have := hs.2.1 y hy
    omega
  have hA := (all_plug ca _).mp ha
  have hB := (all_plug cb _).mp hb
  refine ⟨ca, cb, sa, sb, rfl, rfl, h1, h2, h1.ok ?_, h2.ok ?_, ?_⟩
  · rw [List.length_append]
    exact (all_plug ca _).mpr ⟨hA.1.mono (fun _ h => h) (fun _ h => by omega) (fun _ _ h => h),
      hshift sb _ _ hB.2⟩
  · rw [List.length_append]
    exact (all_plug cb _).mpr ⟨hB.1.mono (fun _ h => h) (fun _ h => by omega) (fun _ _ h => h),
      hshift sa _ _ hA.2⟩
  · rw [h1.length, h2.length]
    have e1 := size_plug ca sa (sb.mapConst (· + csA.length))
    have e2 := size_plug cb sb (sa.mapConst (· + csB.length))
    rw [Tree.size_mapConst] at e1 e2
    omega

/-- C22: the meaning of "replaced, evaluated with its own constants": the donor part contributes its value
under the donor's constants, in the other parent's context. -/
theorem C22_child_value (opset : OpSet T) (feat : Nat → T) (c : Ctx) (s : Tree) (csA csB : List T)
    (hc : (c.plug s).Uses ops nf csA.length) (sb : Tree) (hb : sb.Uses ops nf csB.length) :
    (sb.mapConst (· + csA.length)).eval opset feat (constAt (csA ++ csB))
        = sb.eval opset feat (constAt csB) ∧
    s.eval opset feat (constAt (csA ++ csB)) = s.eval opset feat (constAt csA) := by
  constructor
  · apply Tree.eval_mapConst
    intro x _
    rw [constAt, constAt, List.getElem?_append_right (by omega), Nat.add_sub_cancel]
  · have hs := ((all_plug c _).mp hc).2
    have := Tree.eval_mapConst opset feat (constAt csA) (constAt (csA ++ csB)) id s (by
      intro x hx
      have := (Tree.all_iff.mp hs).2.1 x hx
      simp [constAt, List.getElem?_append_left this])
    rw [Tree.mapConst_id' (ρ := id) (fun _ _ => rfl)] at this
    exact this

end

/-! ## C53 -/

/-- Exact real arithmetic for the constant mutation. -/
noncomputable def realArith : FArith ℝ where
  zero := 0
  one := 1
  onePointOne := 11 / 10
  add := (· + ·)
  mul := (· * ·)
  div := (· / ·)
  neg := (- ·)
  max := max
  powf := (· ^ ·)
  gt a b := decide (a > b)

/-- C53: for every expression, temperature and draws, a constant mutation either reports failure (exactly
when there is no constant leaf) or multiplies exactly one constant that occurs in the tree by the factor,
leaving the nodes and all other constants alone. -/
theorem C53_one_constant (A : FArith F) (cast : F → T) (mulT : T → T → T)
    (perturb temperature probNegate : F) (t : Tree) (cs : List T)
    (hc : ∀ x ∈ t.constIdxs, x < cs.length) :
    Rand.Total (mutateConstant A cast mulT perturb temperature probNegate ⟨t.toPostfix, cs⟩)
      fun r => (r.2 = false ∧ r.1 = ⟨t.toPostfix, cs⟩ ∧ t.constIdxs = []) ∨
        (r.2 = true ∧ ∃ (ci : Nat) (v : T) (x u : F) (b : Bool), ci ∈ t.constIdxs ∧ cs[ci]? = some v ∧
          r.1 = ⟨t.toPostfix, cs.set ci
            (mulT v (cast (mutateFactor A perturb temperature probNegate x b u)))⟩) :=
  mutateConstant_total A cast mulT perturb temperature probNegate t cs hc

/-- C53: over the reals, with a non-negative perturbation factor, the factor's magnitude is `m` or `1/m` for
some `1 ≤ m ≤ 1.1 + perturbation · max(temperature, 0)`, and the sign is flipped exactly when the draw
exceeds the configured `probability_negate_constant`. -/
theorem C53_factor (perturb temperature p x u : ℝ) (b : Bool) (hp : 0 ≤ perturb) (hx0 : 0 ≤ x)
    (hx1 : x ≤ 1) :
    ∃ m : ℝ, 1 ≤ m ∧ m ≤ 11 / 10 + perturb * max temperature 0 ∧
      mutateFactor realArith perturb temperature p x b u =
        (if u > p then -1 else 1) * (if b then m else m⁻¹) := by
  have hpf : 0 ≤ perturb * max temperature 0 := mul_nonneg hp (le_max_right _ _)
  refine ⟨(perturb * max temperature 0 + 11 / 10) ^ x, ?_, ?_, ?_⟩
  · exact Real.one_le_rpow (by linarith) hx0
  · calc (perturb * max temperature 0 + 11 / 10) ^ x
        ≤ (perturb * max temperature 0 + 11 / 10) ^ (1 : ℝ) :=
          Real.rpow_le_rpow_of_exponent_le (by linarith) hx1
      _ = 11 / 10 + perturb * max temperature 0 := by rw [Real.rpow_one]; ring
  · by_cases hu : u > p
    · cases b <;> simp [mutateFactor, realArith, hu]
    · cases b <;> simp [mutateFactor, realArith, hu]

/-- C53 (finding): with a uniform draw in `[0, 1)` the sign is flipped with probability `1 - p`, not `p`:
the option `probability_negate_constant` has the opposite of its documented effect (`p = 0` flips always,
`p = 1` never). -/
theorem C53_negation_probability (perturb temperature p x : ℝ) (b : Bool) (hp : 0 ≤ perturb)
    (h0 : 0 ≤ p) (h1 : p ≤ 1) (hx0 : 0 ≤ x) (hx1 : x ≤ 1) :
    MeasureTheory.volume {u : ℝ | 0 ≤ u ∧ u < 1 ∧ mutateFactor realArith perturb temperature p x b u < 0}
      = ENNReal.ofReal (1 - p) := by
  have hset : {u : ℝ | 0 ≤ u ∧ u < 1 ∧ mutateFactor realArith perturb temperature p x b u < 0}
      = Set.Ioo p 1 := by
    ext u
    obtain ⟨m, hm, _, heq⟩ := C53_factor perturb temperature p x u b hp hx0 hx1
    simp only [Set.mem_setOf_eq, Set.mem_Ioo]
    have hpos : (0 : ℝ) < if b then m else m⁻¹ := by
      split
      · linarith
      · exact inv_pos.mpr (by linarith)
    rw [heq]
    by_cases hu : u > p
    · simp only [hu, if_true]
      constructor
      · rintro ⟨_, h, _⟩; exact ⟨trivial, h⟩
      · rintro ⟨_, h⟩; exact ⟨by linarith, h, by linarith⟩
    · simp only [hu, if_false]
      constructor
      · rintro ⟨_, _, h⟩; linarith
      · rintro ⟨h, _⟩; exact h.elim
  rw [hset, Real.volume_Ioo]

/-! Concrete runs of the model (non-vacuity of the success branches). -/

/-- `f(x0 * c0, x1)`. -/
private def exNodes : List PNode := [.var 0, .const 0, .op 2 1, .var 1, .op 2 0]

example : exNodes = (Tree.op 0 [.op 1 [.var 0, .const 0], .var 1]).toPostfix := by simp [exNodes]

/-- Swap: the draws select the root, whose operands are exchanged. -/
example : (swapOperands ⟨exNodes, [(3 : Int)]⟩ (Rand.script Nat [1])).map (·.1) =
    some (⟨[.var 1, .var 0, .const 0, .op 2 1, .op 2 0], [3]⟩, true) := by decide

/-- Deletion: the product is replaced by its first operand; the unused constant disappears. -/
example : (deleteRandomOp ⟨exNodes, [(3 : Int)]⟩ (Rand.script Nat [0, 0])).map (·.1) =
    some (⟨[.var 0, .var 1, .op 2 0], []⟩, true) := by decide

/-- Crossover of `f(x0 * c0, x1)` (with `c0 = 3`) and `c0` (with `c0 = 7`). -/
example : (crossoverTrees ⟨exNodes, [(3 : Int)]⟩ ⟨[.const 0], [(7 : Int)]⟩
      (Rand.script Nat [3, 0])).map (·.1) =
    some (⟨[.var 0, .const 0, .op 2 1, .const 1, .op 2 0], [3, 7]⟩, ⟨[.var 1], []⟩) := by decide

end SR
