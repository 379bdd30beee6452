import Verif.Proofs.MutOps
/-
Mutations that add nodes, random trees, and crossover.
-/
namespace SR
variable {F T : Type}

/-- Compression keeps the expression up to renumbering and never panics below the `u16` limit. -/
theorem compressR_total [Scalar T] (u : Tree) (cs : List T) (hcs : cs.length ≤ u16Max)
    (hc : ∀ c ∈ u.constIdxs, c < cs.length) :
    Rand.Total (compressR ⟨u.toPostfix, cs⟩ : Rand F (PostfixExpr T))
      fun e => SameExpr u cs e ∧ e.consts.length ≤ cs.length := by
  have hsub : (firstUses u.constIdxs).Subperm (List.range cs.length) :=
    (firstUses_nodup _).subperm fun c hcm => List.mem_range.mpr (hc c ((mem_firstUses _ _).mp hcm))
  have hle : (firstUses u.constIdxs).length ≤ cs.length := by
    simpa using hsub.length_le
  have := compressConstants_eq u cs hc (Nat.le_trans hle hcs)
  refine Rand.Total.lift ⟨_, by rw [this]; rfl, ⟨_, rfl, ?_⟩, by simpa using hle⟩
  intro c hcm
  have hm := (mem_firstUses u.constIdxs c).mpr hcm
  simp [List.getElem?_idxOf hm, constAt, List.getElem?_eq_getElem (hc c hcm)]

theorem Fresh.mono {nf a b a' b' : Nat} {t : Tree} (h : Fresh nf a b t) (ha : a' ≤ a) (hb : b ≤ b') :
    Fresh nf a' b' t := by
  rcases h with h | ⟨c, h1, h2, h3⟩
  · exact Or.inl h
  · exact Or.inr ⟨c, by omega, by omega, h3⟩

theorem Fresh.uses {nf a b : Nat} {t : Tree} (h : Fresh nf a b t) (ops : List OpId) : t.Uses ops nf b := by
  rcases h with ⟨f, hf, rfl⟩ | ⟨c, _, h2, rfl⟩
  · exact Tree.all_var.mpr hf
  · exact Tree.all_const.mpr h2

theorem Fresh.size {nf a b : Nat} {t : Tree} (h : Fresh nf a b t) : t.size = 1 := by
  rcases h with ⟨f, hf, rfl⟩ | ⟨c, _, h2, rfl⟩ <;> simp

/-- A fresh leaf. -/
theorem randomLeaf_total (normal : F → F → T) (nf : Nat) (cs : List T) (h1 : 1 ≤ nf)
    (hnf : nf ≤ u16Max + 1) (hcs : cs.length ≤ u16Max) :
    Rand.Total (randomLeaf normal nf cs) fun r => ∃ (u : Tree) (new : List T), [r.1] = u.toPostfix ∧
      r.2 = cs ++ new ∧ new.length ≤ 1 ∧ (∀ v ∈ new, ∃ a b, v = normal a b) ∧
      Fresh nf cs.length r.2.length u := by
  unfold randomLeaf
  refine Rand.Total.bind Rand.Total.bool fun b _ => ?_
  refine Rand.Total.ite (fun _ => ?_) fun _ => ?_
  · refine Rand.Total.bind (P := fun _ => True) (Rand.Total.float fun _ => trivial) fun u1 _ => ?_
    refine Rand.Total.bind (P := fun _ => True) (Rand.Total.float fun _ => trivial) fun u2 _ => ?_
    rw [if_pos hcs]
    refine Rand.Total.pure ⟨.const cs.length, [normal u1 u2], by simp, rfl, by simp, ?_, ?_⟩
    · intro v hv; simp only [List.mem_singleton] at hv; exact ⟨u1, u2, hv⟩
    · exact Or.inr ⟨cs.length, Nat.le_refl _, by simp, rfl⟩
  · refine Rand.Total.bind (Rand.Total.below (by omega)) fun f hf => ?_
    rw [if_pos (by omega)]
    exact Rand.Total.pure ⟨.var f, [], by simp, by simp, by simp, by simp, Or.inl ⟨f, hf, rfl⟩⟩

/-- Several fresh leaves. -/
theorem randomLeaves_total (normal : F → F → T) (nf : Nat) (h1 : 1 ≤ nf) (hnf : nf ≤ u16Max + 1)
    (k : Nat) : ∀ (cs : List T), cs.length + k ≤ u16Max + 1 →
    Rand.Total (randomLeaves normal nf k cs) fun r => ∃ (us : List Tree) (new : List T),
      r.1 = (us.map Tree.toPostfix).flatten ∧ us.length = k ∧ r.2 = cs ++ new ∧ new.length ≤ k ∧
      (∀ v ∈ new, ∃ a b, v = normal a b) ∧ ∀ u ∈ us, Fresh nf cs.length r.2.length u := by
  induction k with
  | zero =>
    intro cs _
    exact Rand.Total.pure ⟨[], [], by simp, rfl, by simp, by simp, by simp, by simp⟩
  | succ k ih =>
    intro cs hcs
    rw [randomLeaves]
    refine Rand.Total.bind (randomLeaf_total normal nf cs h1 hnf (by omega)) fun r hr => ?_
    obtain ⟨u, new, hu, hr2, hnew, hval, hfr⟩ := hr
    refine Rand.Total.bind (ih r.2 (by rw [hr2]; simp; omega)) fun r' hr' => ?_
    obtain ⟨us, new', hus, hlen, hr2', hnew', hval', hfr'⟩ := hr'
    refine Rand.Total.pure ⟨u :: us, new ++ new', ?_, by simp [hlen], ?_, by simp; omega, ?_, ?_⟩
    · simp only [List.map_cons, List.flatten_cons, ← hu, hus]; rfl
    · simp only [hr2', hr2, List.append_assoc]
    · intro v hv
      rcases List.mem_append.mp hv with h | h
      · exact hval v h
      · exact hval' v h
    · intro v hv
      rcases List.mem_cons.mp hv with rfl | h
      · exact hfr.mono (Nat.le_refl _) (by simp only [hr2']; simp)
      · exact (hfr' v h).mono (by rw [hr2]; simp) (Nat.le_refl _)

/-- The `carry` loop after the carried subtree has been placed. -/
theorem carryLoop_after (normal : F → F → T) (nf carry : Nat) (old : List PNode) (h1 : 1 ≤ nf)
    (hnf : nf ≤ u16Max + 1) (k : Nat) : ∀ (j : Nat) (cs : List T), carry < j →
    cs.length + k ≤ u16Max + 1 →
    Rand.Total (carryLoop normal nf carry old k j cs) fun r => ∃ (us : List Tree) (new : List T),
      r.1 = (us.map Tree.toPostfix).flatten ∧ us.length = k ∧ r.2 = cs ++ new ∧ new.length ≤ k ∧
      (∀ v ∈ new, ∃ a b, v = normal a b) ∧ ∀ u ∈ us, Fresh nf cs.length r.2.length u := by
  induction k with
  | zero =>
    intro j cs _ _
    exact Rand.Total.pure ⟨[], [], by simp, rfl, by simp, by simp, by simp, by simp⟩
  | succ k ih =>
    intro j cs hj hcs
    rw [carryLoop, if_neg (by omega)]
    refine Rand.Total.bind (randomLeaf_total normal nf cs h1 hnf (by omega)) fun r hr => ?_
    obtain ⟨u, new, hu, hr2, hnew, hval, hfr⟩ := hr
    refine Rand.Total.bind (ih (j + 1) r.2 (by omega) (by rw [hr2]; simp; omega)) fun r' hr' => ?_
    obtain ⟨us, new', hus, hlen, hr2', hnew', hval', hfr'⟩ := hr'
    refine Rand.Total.pure ⟨u :: us, new ++ new', ?_, by simp [hlen], ?_, by simp; omega, ?_, ?_⟩
    · simp only [List.map_cons, List.flatten_cons, ← hu, hus]; rfl
    · simp only [hr2', hr2, List.append_assoc]
    · intro v hv
      rcases List.mem_append.mp hv with h | h
      · exact hval v h
      · exact hval' v h
    · intro v hv
      rcases List.mem_cons.mp hv with rfl | h
      · exact hfr.mono (Nat.le_refl _) (by simp only [hr2']; simp)
      · exact (hfr' v h).mono (by rw [hr2]; simp) (Nat.le_refl _)

theorem carryLoop_total (normal : F → F → T) (nf carry : Nat) (old : List PNode) (h1 : 1 ≤ nf)
    (hnf : nf ≤ u16Max + 1) (k : Nat) : ∀ (j : Nat) (cs : List T), j ≤ carry → carry < j + k →
    cs.length + k ≤ u16Max + 1 →
    Rand.Total (carryLoop normal nf carry old k j cs) fun r => ∃ (ls rs : List Tree) (new : List T),
      r.1 = (ls.map Tree.toPostfix).flatten ++ old ++ (rs.map Tree.toPostfix).flatten ∧
      ls.length = carry - j ∧ ls.length + 1 + rs.length = k ∧ r.2 = cs ++ new ∧ new.length ≤ k ∧
      (∀ v ∈ new, ∃ a b, v = normal a b) ∧ ∀ u ∈ ls ++ rs, Fresh nf cs.length r.2.length u := by
  induction k with
  | zero => intro j cs h2 h3; omega
  | succ k ih =>
    intro j cs hj hj' hcs
    rw [carryLoop]
    refine Rand.Total.ite (fun e => ?_) fun e => ?_
    · refine Rand.Total.bind (carryLoop_after normal nf carry old h1 hnf k (j + 1) cs (by omega)
        (by omega)) fun r hr => ?_
      obtain ⟨us, new, hus, hlen, hr2, hnew, hval, hfr⟩ := hr
      refine Rand.Total.pure ⟨[], us, new, by simp [hus], by simp; omega, by simp; omega, hr2, by omega,
        hval, by simpa using hfr⟩
    · refine Rand.Total.bind (randomLeaf_total normal nf cs h1 hnf (by omega)) fun r hr => ?_
      obtain ⟨u, new, hu, hr2, hnew, hval, hfr⟩ := hr
      refine Rand.Total.bind (ih (j + 1) r.2 (by omega) (by omega) (by rw [hr2]; simp; omega))
        fun r' hr' => ?_
      obtain ⟨ls, rs, new', hus, hlen, hlen2, hr2', hnew', hval', hfr'⟩ := hr'
      refine Rand.Total.pure ⟨u :: ls, rs, new ++ new', ?_, by simp; omega, by simp; omega, ?_,
        by simp; omega, ?_, ?_⟩
      · simp only [List.map_cons, List.flatten_cons, ← hu, hus]; simp
      · simp only [hr2', hr2, List.append_assoc]
      · intro v hv
        rcases List.mem_append.mp hv with h | h
        · exact hval v h
        · exact hval' v h
      · intro v hv
        rcases List.mem_cons.mp hv with rfl | h
        · exact hfr.mono (Nat.le_refl _) (by simp only [hr2']; simp)
        · exact (hfr' v h).mono (by rw [hr2]; simp) (Nat.le_refl _)

theorem totalOpsUpTo_zero_iff (D m : Nat) (ops : List OpId)
    (hops : ∀ op ∈ ops, 1 ≤ op.arity ∧ op.arity ≤ D) :
    (Operators.of D ops).totalOpsUpTo m = 0 ↔ ∀ op ∈ ops, m < op.arity := by
  simp only [Operators.totalOpsUpTo, List.sum_eq_zero_iff_forall_eq_nat, List.mem_map,
    List.mem_range'_1, forall_exists_index, and_imp]
  constructor
  · intro h op hop
    by_contra hlt
    have hb := hops op hop
    have := h _ op.arity (by omega) (by simp only [Operators.of]; omega) rfl
    rw [nops_of D ops _ hb.1 hb.2, List.length_eq_zero_iff, List.filter_eq_nil_iff] at this
    exact this op hop (by simp)
  · rintro h _ a h1 h2 rfl
    simp only [Operators.of] at h2
    rw [nops_of D ops _ h1 (by omega), List.length_eq_zero_iff, List.filter_eq_nil_iff]
    intro op hop
    have := h op hop
    simp; omega

/-- Draw an arity, then an operator of that arity. -/
theorem sampleBoth_total {α : Type} (D m : Nat) (ops : List OpId)
    (hops : ∀ op ∈ ops, 1 ≤ op.arity ∧ op.arity ≤ D)
    (hex : ∃ op ∈ ops, op.arity ≤ m) (f : Nat → OpId → Rand F α) (P : α → Prop)
    (hf : ∀ op ∈ ops, op.arity ≤ m → Rand.Total (f op.arity op) P) :
    Rand.Total ((Operators.of D ops).sampleArity m >>= fun a =>
      (Operators.of D ops).sampleOp a >>= fun op => f a op) P := by
  obtain ⟨op0, h0, hm⟩ := hex
  refine Rand.Total.bind (C52_sample_arity D m ops ⟨op0, h0, (hops op0 h0).1, hm, (hops op0 h0).2⟩)
    fun a ha => ?_
  obtain ⟨ham, op1, hop1, rfl⟩ := ha
  refine Rand.Total.bind (C52_sample_op D _ ops (hops op1 hop1).1 (hops op1 hop1).2 ⟨op1, hop1, rfl⟩)
    fun op hop => ?_
  rw [← hop.2]
  exact hf op hop.1 (by rw [hop.2]; exact ham)

/-- A tree position replaced: the constants stay in range. -/
theorem plug_constIdxs {c : Ctx} {s s' : Tree} {n n' : Nat} (h : ∀ x ∈ (c.plug s).constIdxs, x < n)
    (hn : n ≤ n') (h' : ∀ x ∈ s'.constIdxs, x < n') : ∀ x ∈ (c.plug s').constIdxs, x < n' := by
  have h1 : (c.plug s).All (fun _ => True) (· < n) (fun _ _ => True) :=
    Tree.all_iff.mpr ⟨fun _ _ => trivial, h, fun _ _ => trivial⟩
  have h2 := ((all_plug c _).mp h1).1.mono (pc' := (· < n')) (fun _ h => h)
    (fun _ h => Nat.lt_of_lt_of_le h hn) (fun _ _ h => h)
  have h3 : s'.All (fun _ => True) (· < n') (fun _ _ => True) :=
    Tree.all_iff.mpr ⟨fun _ _ => trivial, h', fun _ _ => trivial⟩
  exact (Tree.all_iff.mp ((all_plug c s').mpr ⟨h2, h3⟩)).2.1

theorem plug_constIdxs_hole {c : Ctx} {s : Tree} {n : Nat} (h : ∀ x ∈ (c.plug s).constIdxs, x < n) :
    ∀ x ∈ s.constIdxs, x < n := by
  have h1 : (c.plug s).All (fun _ => True) (· < n) (fun _ _ => True) :=
    Tree.all_iff.mpr ⟨fun _ _ => trivial, h, fun _ _ => trivial⟩
  exact (Tree.all_iff.mp ((all_plug c _).mp h1).2).2.1

theorem op_constIdxs {o n : Nat} {ts : List Tree} (h : ∀ u ∈ ts, ∀ x ∈ u.constIdxs, x < n) :
    ∀ x ∈ (Tree.op o ts).constIdxs, x < n := by
  intro x hx
  rw [Tree.constIdxs_op] at hx
  obtain ⟨_, hl, hx⟩ := List.mem_flatten.mp hx
  obtain ⟨u, hu, rfl⟩ := List.mem_map.mp hl
  exact h u hu x hx

theorem Fresh.constIdxs {nf a b : Nat} {t : Tree} (h : Fresh nf a b t) : ∀ x ∈ t.constIdxs, x < b := by
  rcases h with ⟨f, hf, rfl⟩ | ⟨c, _, h2, rfl⟩ <;> simp [*]

/-- Inserting an operator above a subtree. -/
theorem insertRandomOp_total [Scalar T] (normal : F → F → T) (D : Nat) (ops : List OpId) (nf : Nat)
    (t : Tree) (cs : List T) (hops : ∀ op ∈ ops, 1 ≤ op.arity ∧ op.arity ≤ D) (h1 : 1 ≤ nf)
    (hnf : nf ≤ u16Max + 1) (hcs : cs.length + D ≤ u16Max) (hc : ∀ x ∈ t.constIdxs, x < cs.length) :
    Rand.Total (insertRandomOp normal (Operators.of D ops) nf ⟨t.toPostfix, cs⟩)
      fun r => (r.2 = false ∧ r.1 = ⟨t.toPostfix, cs⟩ ∧ ops = []) ∨
        (r.2 = true ∧ ∃ (c : Ctx) (s : Tree) (op : OpId) (ls rs : List Tree) (new : List T),
          t = c.plug s ∧ op ∈ ops ∧ ls.length + 1 + rs.length = op.arity ∧
          (∀ u ∈ ls ++ rs, Fresh nf cs.length (cs ++ new).length u) ∧
          (∀ v ∈ new, ∃ a b, v = normal a b) ∧ new.length ≤ D ∧
          SameExpr (c.plug (.op op.id (ls ++ s :: rs))) (cs ++ new) r.1) := by
  unfold insertRandomOp
  rw [if_neg (by simpa using toPostfix_ne_nil t)]
  refine Rand.Total.ite (fun he => Rand.Total.pure (Or.inl ⟨rfl, rfl, ?_⟩)) fun hne => ?_
  · rw [totalOpsUpTo_zero_iff _ _ _ hops] at he
    rw [List.eq_nil_iff_forall_not_mem]
    intro op hop
    have := he op hop; have := (hops op hop).2
    simp only [Operators.of] at *; omega
  refine Rand.Total.bind (Rand.Total.below (List.length_pos_iff.mpr (toPostfix_ne_nil t))) fun i hi => ?_
  refine Rand.Total.lift_some (subtreeSizes_toPostfix t) ?_
  obtain ⟨c, s, rfl, rfl, _⟩ := position_ctx (List.getElem?_eq_getElem hi)
  have hat := at_plug c s
  refine Rand.Total.lift_some hat.range (Rand.Total.lift_some hat.slice_eq ?_)
  refine sampleBoth_total D _ ops hops ?_ _ _ fun op hop hle => ?_
  · rw [totalOpsUpTo_zero_iff _ _ _ hops] at hne
    push Not at hne; obtain ⟨op, h, h'⟩ := hne; exact ⟨op, h, by omega⟩
  have hb := hops op hop
  refine Rand.Total.bind (Rand.Total.below (by omega)) fun carry hcarry => ?_
  refine Rand.Total.bind (carryLoop_total normal nf carry s.toPostfix h1 hnf op.arity 0 cs (by omega)
    (by omega) (by omega)) fun r hr => ?_
  obtain ⟨ls, rs, new, hr1, _, hlen, hr2, hnew, hval, hfr⟩ := hr
  refine Rand.Total.lift_some (hat.splice_eq _) ?_
  have hnodes : c.pre ++ (r.1 ++ [PNode.op op.arity op.id]) ++ c.post
      = (c.plug (.op op.id (ls ++ s :: rs))).toPostfix := by
    rw [Ctx.toPostfix_plug, toPostfix_op_last, hr1, ← hlen]
    simp [Nat.add_comm, Nat.add_left_comm]
  rw [hnodes]
  refine Rand.Total.bind (compressR_total _ r.2 (by rw [hr2]; simp; omega) ?_) fun e' he' =>
    Rand.Total.pure (Or.inr ⟨rfl, c, s, op, ls, rs, new, rfl, hop, hlen, by rw [← hr2]; exact hfr, hval,
      by omega, by rw [← hr2]; exact he'.1⟩)
  refine plug_constIdxs hc (by rw [hr2]; simp) (op_constIdxs ?_)
  intro u hu
  simp only [List.mem_append, List.mem_cons] at hu
  rcases hu with hu | rfl | hu
  · exact (hfr u (by simp [hu])).constIdxs
  · intro x hx
    have := plug_constIdxs_hole hc x hx
    rw [hr2]; simp; omega
  · exact (hfr u (by simp [hu])).constIdxs

/-- Adding an operator above the root. -/
theorem prependRandomOp_total [Scalar T] (normal : F → F → T) (D : Nat) (ops : List OpId) (nf : Nat)
    (t : Tree) (cs : List T) (hops : ∀ op ∈ ops, 1 ≤ op.arity ∧ op.arity ≤ D) (h1 : 1 ≤ nf)
    (hnf : nf ≤ u16Max + 1) (hcs : cs.length + D ≤ u16Max) (hc : ∀ x ∈ t.constIdxs, x < cs.length) :
    Rand.Total (prependRandomOp normal (Operators.of D ops) nf ⟨t.toPostfix, cs⟩)
      fun r => (r.2 = false ∧ r.1 = ⟨t.toPostfix, cs⟩ ∧ ops = []) ∨
        (r.2 = true ∧ ∃ (op : OpId) (ls rs : List Tree) (new : List T),
          op ∈ ops ∧ ls.length + 1 + rs.length = op.arity ∧
          (∀ u ∈ ls ++ rs, Fresh nf cs.length (cs ++ new).length u) ∧
          (∀ v ∈ new, ∃ a b, v = normal a b) ∧ new.length ≤ D ∧
          SameExpr (.op op.id (ls ++ t :: rs)) (cs ++ new) r.1) := by
  unfold prependRandomOp
  rw [if_neg (by simpa using toPostfix_ne_nil t)]
  refine Rand.Total.ite (fun he => Rand.Total.pure (Or.inl ⟨rfl, rfl, ?_⟩)) fun hne => ?_
  · rw [totalOpsUpTo_zero_iff _ _ _ hops] at he
    rw [List.eq_nil_iff_forall_not_mem]
    intro op hop
    have := he op hop; have := (hops op hop).2
    simp only [Operators.of] at *; omega
  refine sampleBoth_total D _ ops hops ?_ _ _ fun op hop hle => ?_
  · rw [totalOpsUpTo_zero_iff _ _ _ hops] at hne
    push Not at hne; obtain ⟨op, h, h'⟩ := hne; exact ⟨op, h, by omega⟩
  have hb := hops op hop
  refine Rand.Total.bind (Rand.Total.below (by omega)) fun carry hcarry => ?_
  refine Rand.Total.bind (carryLoop_total normal nf carry t.toPostfix h1 hnf op.arity 0 cs (by omega)
    (by omega) (by omega)) fun r hr => ?_
  obtain ⟨ls, rs, new, hr1, _, hlen, hr2, hnew, hval, hfr⟩ := hr
  have hnodes : r.1 ++ [PNode.op op.arity op.id] = (Tree.op op.id (ls ++ t :: rs)).toPostfix := by
    rw [toPostfix_op_last, hr1, ← hlen]
    simp [Nat.add_comm, Nat.add_left_comm]
  simp only [hnodes]
  refine Rand.Total.bind (compressR_total _ r.2 (by rw [hr2]; simp; omega) ?_) fun e' he' =>
    Rand.Total.pure (Or.inr ⟨rfl, op, ls, rs, new, hop, hlen, by rw [← hr2]; exact hfr, hval,
      by omega, by rw [← hr2]; exact he'.1⟩)
  refine op_constIdxs ?_
  intro u hu
  simp only [List.mem_append, List.mem_cons] at hu
  rcases hu with hu | rfl | hu
  · exact (hfr u (by simp [hu])).constIdxs
  · intro x hx
    have := hc x hx
    rw [hr2]; simp; omega
  · exact (hfr u (by simp [hu])).constIdxs

theorem exists_leaf (t : Tree) : t.Proper → ∃ n ∈ t.toPostfix, n.isLeafNode = true := by
  induction t using Tree.ind with
  | hv f => intro _; exact ⟨.var f, by simp, rfl⟩
  | hc f => intro _; exact ⟨.const f, by simp, rfl⟩
  | ho o ts ih =>
    intro h
    obtain ⟨h1, h2⟩ := Tree.all_op.mp h
    cases ts with
    | nil => simp at h1
    | cons u us =>
      obtain ⟨n, hn, hl⟩ := ih u (by simp) (h2 u (by simp))
      exact ⟨n, by simp [hn], hl⟩

theorem rootNode_leaf {s : Tree} (h : s.rootNode.isLeafNode = true) :
    s.size = 1 ∧ ((∃ f, s = .var f) ∨ ∃ c, s = .const c) := by
  cases s <;> simp_all [Tree.rootNode, PNode.isLeafNode]

/-- Expanding a leaf into an operator with fresh leaves. -/
theorem appendRandomOp_total [Scalar T] (normal : F → F → T) (D : Nat) (ops : List OpId) (nf : Nat)
    (t : Tree) (cs : List T) (hops : ∀ op ∈ ops, 1 ≤ op.arity ∧ op.arity ≤ D) (h1 : 1 ≤ nf)
    (hnf : nf ≤ u16Max + 1) (hcs : cs.length + D ≤ u16Max) (hc : ∀ x ∈ t.constIdxs, x < cs.length)
    (hp : t.Proper) :
    Rand.Total (appendRandomOp normal (Operators.of D ops) nf ⟨t.toPostfix, cs⟩)
      fun r => (r.2 = false ∧ r.1 = ⟨t.toPostfix, cs⟩ ∧ ops = []) ∨
        (r.2 = true ∧ ∃ (c : Ctx) (s : Tree) (op : OpId) (ls : List Tree) (new : List T),
          t = c.plug s ∧ ((∃ f, s = .var f) ∨ ∃ c, s = .const c) ∧ op ∈ ops ∧ ls.length = op.arity ∧
          (∀ u ∈ ls, Fresh nf cs.length (cs ++ new).length u) ∧
          (∀ v ∈ new, ∃ a b, v = normal a b) ∧ new.length ≤ D ∧
          SameExpr (c.plug (.op op.id ls)) (cs ++ new) r.1) := by
  unfold appendRandomOp
  rw [if_neg (by simpa using toPostfix_ne_nil t)]
  refine Rand.Total.ite (fun he => Rand.Total.pure (Or.inl ⟨rfl, rfl, ?_⟩)) fun hne => ?_
  · rw [totalOpsUpTo_zero_iff _ _ _ hops] at he
    rw [List.eq_nil_iff_forall_not_mem]
    intro op hop
    have := he op hop; have := (hops op hop).2
    simp only [Operators.of] at *; omega
  have hpos : positions PNode.isLeafNode t.toPostfix ≠ [] := by
    rw [ne_eq, positions_nil_iff]
    intro h
    obtain ⟨n, hn, hl⟩ := exists_leaf t hp
    rw [h n hn] at hl; simp at hl
  simp only []
  rw [if_neg (by simpa using hpos)]
  refine Rand.Total.bind (Total.pick hpos) fun i hi => ?_
  obtain ⟨n, hn, hl⟩ := mem_positions.mp hi
  obtain ⟨c, s, rfl, rfl, hr⟩ := position_ctx hn
  rw [← hr] at hl
  obtain ⟨hs1, hleaf⟩ := rootNode_leaf hl
  have hat := at_plug c s
  refine sampleBoth_total D _ ops hops ?_ _ _ fun op hop hle => ?_
  · rw [totalOpsUpTo_zero_iff _ _ _ hops] at hne
    push Not at hne; obtain ⟨op, h, h'⟩ := hne; exact ⟨op, h, by omega⟩
  have hb := hops op hop
  refine Rand.Total.bind (randomLeaves_total normal nf h1 hnf op.arity cs (by omega)) fun r hr => ?_
  obtain ⟨ls, new, hr1, hlen, hr2, hnew, hval, hfr⟩ := hr
  have hsp := hat.splice_eq (r.1 ++ [PNode.op op.arity op.id])
  have e1 : c.pre.length + s.size - 1 = c.pre.length := by omega
  rw [e1] at hsp ⊢
  refine Rand.Total.lift_some hsp ?_
  have hnodes : c.pre ++ (r.1 ++ [PNode.op op.arity op.id]) ++ c.post
      = (c.plug (.op op.id ls)).toPostfix := by
    rw [Ctx.toPostfix_plug, toPostfix_op_last, hr1, ← hlen]
  rw [hnodes]
  refine Rand.Total.bind (compressR_total _ r.2 (by rw [hr2]; simp; omega) ?_) fun e' he' =>
    Rand.Total.pure (Or.inr ⟨rfl, c, s, op, ls, new, rfl, hleaf, hop, hlen, by rw [← hr2]; exact hfr,
      hval, by omega, by rw [← hr2]; exact he'.1⟩)
  exact plug_constIdxs hc (by rw [hr2]; simp) (op_constIdxs fun u hu => (hfr u hu).constIdxs)

/-- One leaf expansion (shared by the two random-tree loops). -/
theorem expand_total {α : Type} (normal : F → F → T) (D m : Nat) (ops : List OpId) (nf : Nat) (t : Tree)
    (cs : List T) (hops : ∀ op ∈ ops, 1 ≤ op.arity ∧ op.arity ≤ D) (h1 : 1 ≤ nf)
    (hnf : nf ≤ u16Max + 1) (ht : t.Uses ops nf cs.length) (hcs : cs.length ≤ t.size)
    (op : OpId) (hop : op ∈ ops) (hle : t.size + op.arity ≤ m) (hm : m ≤ u16Max + 1)
    (f : List PNode × List T → Nat → Rand F α) (P : α → Prop)
    (hf : ∀ (u : Tree) (cs' : List T), u.Uses ops nf cs'.length → cs'.length ≤ u.size →
      u.size = t.size + op.arity → ∀ nodes : List PNode, nodes = u.toPostfix →
      Rand.Total (f (nodes, cs') 0) P) :
    Rand.Total (pick (positions PNode.isLeafNode t.toPostfix) >>= fun leafIdx =>
      randomLeaves normal nf op.arity cs >>= fun x =>
      Rand.lift (splice t.toPostfix leafIdx leafIdx (x.1 ++ [PNode.op op.arity op.id])) >>= fun nodes =>
      f (nodes, x.2) 0) P := by
  have hp : t.Proper := Tree.All.mono (fun _ _ => trivial) (fun _ _ => trivial)
    (fun o a h => (hops _ h).1) ht
  have hpos : positions PNode.isLeafNode t.toPostfix ≠ [] := by
    rw [ne_eq, positions_nil_iff]
    intro h
    obtain ⟨n, hn, hl⟩ := exists_leaf t hp
    rw [h n hn] at hl; simp at hl
  refine Rand.Total.bind (Total.pick hpos) fun i hi => ?_
  obtain ⟨n, hn, hl⟩ := mem_positions.mp hi
  obtain ⟨c, s, rfl, rfl, hr⟩ := position_ctx hn
  rw [← hr] at hl
  obtain ⟨hs1, hleaf⟩ := rootNode_leaf hl
  have hat := at_plug c s
  refine Rand.Total.bind (randomLeaves_total normal nf h1 hnf op.arity cs (by omega)) fun r hr => ?_
  obtain ⟨ls, new, hr1, hlen, hr2, hnew, hval, hfr⟩ := hr
  have hsp := hat.splice_eq (r.1 ++ [PNode.op op.arity op.id])
  have e1 : c.pre.length + s.size - 1 = c.pre.length := by omega
  rw [e1] at hsp ⊢
  refine Rand.Total.lift_some hsp ?_
  have hnodes : c.pre ++ (r.1 ++ [PNode.op op.arity op.id]) ++ c.post
      = (c.plug (.op op.id ls)).toPostfix := by
    rw [Ctx.toPostfix_plug, toPostfix_op_last, hr1, ← hlen]
  have hsz : (c.plug (.op op.id ls)).size = (c.plug s).size + op.arity := by
    rw [← length_toPostfix, ← length_toPostfix, Ctx.toPostfix_plug, Ctx.toPostfix_plug]
    simp only [List.length_append, length_toPostfix, hs1, Tree.size_op]
    have : (ls.map Tree.size).sum = ls.length := by
      have := List.map_congr_left (g := fun _ => 1) fun u hu => (hfr u hu).size
      rw [this]; simp
    omega
  refine hf (c.plug (.op op.id ls)) r.2 ?_ ?_ hsz _ hnodes
  · have h2 := (all_plug c _).mp ht
    refine (all_plug c _).mpr ⟨h2.1.mono (fun _ h => h)
      (fun _ h => by rw [hr2]; simp; omega) (fun _ _ h => h), Tree.all_op.mpr ⟨?_, ?_⟩⟩
    · rw [hlen]; exact hop
    · exact fun u hu => (hfr u hu).uses ops
  · rw [hsz, hr2]; simp; omega

theorem randomExprLoop_total (normal : F → F → T) (D : Nat) (ops : List OpId) (nf target : Nat)
    (hops : ∀ op ∈ ops, 1 ≤ op.arity ∧ op.arity ≤ D) (h1 : 1 ≤ nf) (hnf : nf ≤ u16Max + 1)
    (htar : target ≤ u16Max + 1) (fuel : Nat) : ∀ (t : Tree) (cs : List T), t.Uses ops nf cs.length →
    cs.length ≤ t.size → t.size ≤ target → target ≤ t.size + fuel →
    Rand.Total (randomExprLoop normal (Operators.of D ops) nf target fuel ⟨t.toPostfix, cs⟩)
      fun e => ∃ u : Tree, e.nodes = u.toPostfix ∧ u.Uses ops nf e.consts.length ∧ u.size ≤ target ∧
        ∀ op ∈ ops, target < u.size + op.arity := by
  induction fuel with
  | zero =>
    intro t cs ht hcs h2 h3
    refine Rand.Total.pure ⟨t, rfl, ht, h2, fun op hop => ?_⟩
    have := (hops op hop).1; omega
  | succ fuel ih =>
    intro t cs ht hcs h2 h3
    rw [randomExprLoop]
    simp only [length_toPostfix]
    refine Rand.Total.ite (fun hcond => ?_) fun hcond => ?_
    · refine sampleBoth_total D _ ops hops ?_ _ _ fun op hop hle => ?_
      · by_contra hno
        push Not at hno
        have := (totalOpsUpTo_zero_iff D (min (Operators.of D ops).D (target - t.size)) ops hops).mpr
          (fun op hop => by have := hno op hop; omega)
        omega
      · refine expand_total normal D target ops nf t cs hops h1 hnf ht hcs op hop (by omega) htar
          (fun x _ => randomExprLoop normal (Operators.of D ops) nf target fuel ⟨x.1, x.2⟩) _ ?_
        intro u cs' hu hcs' hsz nodes hnodes
        have := (hops op hop).1
        simp only [hnodes]
        exact ih u cs' hu hcs' (by omega) (by omega)
    · refine Rand.Total.pure ⟨t, rfl, ht, h2, fun op hop => ?_⟩
      have hb := hops op hop
      by_contra hno
      refine hcond ⟨by omega, Nat.pos_of_ne_zero fun h0 => ?_⟩
      have := (totalOpsUpTo_zero_iff D _ ops hops).mp h0 op hop
      have hD : (Operators.of D ops).D = D := rfl
      omega

/-- Random trees of a target size. -/
theorem randomExpr_total (normal : F → F → T) (D : Nat) (ops : List OpId) (nf target : Nat)
    (hops : ∀ op ∈ ops, 1 ≤ op.arity ∧ op.arity ≤ D) (h1 : 1 ≤ nf) (hnf : nf ≤ u16Max + 1)
    (h1t : 1 ≤ target) (htar : target ≤ u16Max + 1) :
    Rand.Total (randomExpr normal (Operators.of D ops) nf target : Rand F (PostfixExpr T))
      fun e => ∃ u : Tree, e.nodes = u.toPostfix ∧ u.Uses ops nf e.consts.length ∧ u.size ≤ target ∧
        ∀ op ∈ ops, target < u.size + op.arity := by
  unfold randomExpr
  rw [if_pos h1t]
  refine Rand.Total.bind (randomLeaf_total normal nf [] h1 hnf (by simp)) fun r hr => ?_
  obtain ⟨u, new, hu, hr2, hnew, _, hfr⟩ := hr
  have hs := hfr.size
  simp only [hu]
  exact randomExprLoop_total normal D ops nf target hops h1 hnf htar target u r.2 (hfr.uses ops)
    (by rw [hr2]; simp; omega) (by omega) (by omega)

theorem randomExprAppendLoop_total (normal : F → F → T) (D : Nat) (ops : List OpId) (nf maxSize : Nat)
    (hops : ∀ op ∈ ops, 1 ≤ op.arity ∧ op.arity ≤ D) (h1 : 1 ≤ nf) (hnf : nf ≤ u16Max + 1)
    (hmax : maxSize ≤ u16Max + 1) (k : Nat) : ∀ (t : Tree) (cs : List T), t.Uses ops nf cs.length →
    cs.length ≤ t.size → t.size ≤ maxSize →
    Rand.Total (randomExprAppendLoop normal (Operators.of D ops) nf maxSize k ⟨t.toPostfix, cs⟩)
      fun e => ∃ u : Tree, e.nodes = u.toPostfix ∧ u.Uses ops nf e.consts.length ∧
        e.consts.length ≤ u.size ∧ u.size ≤ maxSize ∧ t.size ≤ u.size ∧
        (t.size + k ≤ u.size ∨ ∀ op ∈ ops, maxSize < u.size + op.arity) := by
  induction k with
  | zero => intro t cs ht hcs h2; exact Rand.Total.pure ⟨t, rfl, ht, hcs, h2, Nat.le_refl _, Or.inl (by omega)⟩
  | succ k ih =>
    intro t cs ht hcs h2
    rw [randomExprAppendLoop]
    simp only [length_toPostfix]
    refine Rand.Total.ite (fun hz => ?_) fun hz => ?_
    · refine Rand.Total.pure ⟨t, rfl, ht, hcs, h2, Nat.le_refl _, Or.inr fun op hop => ?_⟩
      have := (hops op hop).1; omega
    refine Rand.Total.ite (fun h0 => ?_) fun h0 => ?_
    · refine Rand.Total.pure ⟨t, rfl, ht, hcs, h2, Nat.le_refl _, Or.inr fun op hop => ?_⟩
      have := (totalOpsUpTo_zero_iff D _ ops hops).mp h0 op hop
      have hb := (hops op hop).2
      have hD : (Operators.of D ops).D = D := rfl
      omega
    refine sampleBoth_total D _ ops hops ?_ _ _ fun op hop hle => ?_
    · by_contra hno
      push Not at hno
      exact h0 ((totalOpsUpTo_zero_iff D _ ops hops).mpr fun op hop => by have := hno op hop; omega)
    · have hp : t.Proper := Tree.All.mono (fun _ _ => trivial) (fun _ _ => trivial)
        (fun o a h => (hops _ h).1) ht
      have hpos : positions PNode.isLeafNode t.toPostfix ≠ [] := by
        rw [ne_eq, positions_nil_iff]
        intro h
        obtain ⟨n, hn, hl⟩ := exists_leaf t hp
        rw [h n hn] at hl; simp at hl
      rw [if_neg (by simpa using hpos)]
      refine expand_total normal D maxSize ops nf t cs hops h1 hnf ht hcs op hop (by omega) hmax
        (fun x _ => randomExprAppendLoop normal (Operators.of D ops) nf maxSize k ⟨x.1, x.2⟩) _ ?_
      intro u cs' hu hcs' hsz nodes hnodes
      have := (hops op hop).1
      simp only [hnodes]
      refine (ih u cs' hu hcs' (by omega)).mono ?_
      rintro e ⟨v, hv1, hv2, hv3, hv4, hv5, hv6⟩
      refine ⟨v, hv1, hv2, hv3, hv4, by omega, ?_⟩
      rcases hv6 with h | h
      · exact Or.inl (by omega)
      · exact Or.inr h

/-- Random trees by repeated leaf expansion. -/
theorem randomExprAppendOps_total [Scalar T] (normal : F → F → T) (D : Nat) (ops : List OpId)
    (nf nAppend maxSize : Nat) (hops : ∀ op ∈ ops, 1 ≤ op.arity ∧ op.arity ≤ D) (h1 : 1 ≤ nf)
    (hnf : nf ≤ u16Max + 1) (hmax : maxSize ≤ u16Max) :
    Rand.Total (randomExprAppendOps normal (Operators.of D ops) nf nAppend maxSize :
        Rand F (PostfixExpr T))
      fun e => ExprOk ops nf e ∧ e.consts.length ≤ e.nodes.length ∧ e.nodes.length ≤ max maxSize 1 ∧
        (1 + nAppend ≤ e.nodes.length ∨ ∀ op ∈ ops, max maxSize 1 < e.nodes.length + op.arity) := by
  unfold randomExprAppendOps
  have hu : u16Max = 65535 := rfl
  refine Rand.Total.bind (randomExprAppendLoop_total normal D ops nf (max maxSize 1) hops h1 hnf
    (by omega) nAppend (.const 0) [Scalar.zero] (Tree.all_const.mpr (by simp)) (by simp) (by simp; omega))
    fun e he => ?_
  obtain ⟨u, hn, huse, hc, hsz, h5, h6⟩ := he
  obtain ⟨nodes, cs⟩ := e
  simp only at hn huse hc
  subst hn
  refine (compressR_total u cs (by omega) (Tree.all_iff.mp huse).2.1).mono ?_
  rintro e' ⟨hs, hle⟩
  have hlen : e'.nodes.length = u.size := by
    obtain ⟨ρ, h, _⟩ := hs
    rw [h, length_toPostfix, Tree.size_mapConst]
  refine ⟨hs.ok huse, by omega, by omega, ?_⟩
  rw [hlen]
  simpa using h6

/-! ### Crossover -/

theorem remap_run (donor : List T) : ∀ (ns : List PNode) (st : RemapState T) (base m : Nat),
    st.map.length = donor.length →
    (∀ n ∈ ns, ∀ c, n = .const c → c < donor.length) →
    (∀ (i v : Nat), st.map[i]? = some (some v) → v < st.dst.length ∧ st.dst[v]? = donor[i]?) →
    st.dst.length + (st.map.filter (· == none)).length ≤ m → m ≤ u16Max + 1 →
    ∃ (st' : RemapState T) (ρ : Nat → Nat) (w : List T),
      ns.foldlM (remapStep donor) st = some st' ∧ st'.out = st.out ++ ns.map (PNode.mapConst ρ) ∧
      st'.dst = st.dst ++ w ∧ st'.dst.length ≤ m ∧
      (∀ (i v : Nat), st.map[i]? = some (some v) → ρ i = v) ∧
      (∀ n ∈ ns, ∀ c, n = .const c → ρ c < st'.dst.length ∧ st'.dst[ρ c]? = donor[c]?) := by
  intro ns
  induction ns with
  | nil =>
    intro st base m hl hc hv hm hu
    refine ⟨st, fun i => ((st.map[i]?).getD none).getD 0, [], rfl, by simp, by simp, by omega, ?_, by simp⟩
    intro i v h; simp [h]
  | cons n ns ih =>
    intro st base m hl hc hv hm hu
    have hrest : ∀ x ∈ ns, ∀ c, x = .const c → c < donor.length :=
      fun x hx => hc x (List.mem_cons_of_mem _ hx)
    rw [List.foldlM_cons]
    have hplain : (∀ c, n ≠ .const c) → ∃ (st' : RemapState T) (ρ : Nat → Nat) (w : List T),
        ns.foldlM (remapStep donor) { st with out := st.out ++ [n] } = some st' ∧
        st'.out = st.out ++ (n :: ns).map (PNode.mapConst ρ) ∧
        st'.dst = st.dst ++ w ∧ st'.dst.length ≤ m ∧
        (∀ (i v : Nat), st.map[i]? = some (some v) → ρ i = v) ∧
        (∀ x ∈ n :: ns, ∀ c, x = .const c → ρ c < st'.dst.length ∧ st'.dst[ρ c]? = donor[c]?) := by
      intro hnc
      obtain ⟨st', ρ, w, h1, h2, h3, h4, h5, h6⟩ := ih { st with out := st.out ++ [n] } base m hl hrest hv hm hu
      refine ⟨st', ρ, w, h1, ?_, h3, h4, h5, ?_⟩
      · rw [h2]
        have : PNode.mapConst ρ n = n := by
          cases n with
          | const c => exact (hnc c rfl).elim
          | _ => rfl
        simp [this]
      · intro x hx c hxc
        rcases List.mem_cons.mp hx with rfl | hx
        · exact (hnc c hxc).elim
        · exact h6 x hx c hxc
    cases n with
    | var f => exact hplain (by simp)
    | op a o => exact hplain (by simp)
    | const old =>
      have hold : old < donor.length := hc _ (List.mem_cons_self) old rfl
      have hget := List.getElem?_eq_getElem (l := st.map) (by rw [hl]; exact hold : old < st.map.length)
      cases hmap : st.map[old]'(by rw [hl]; exact hold) with
      | some v =>
        rw [hmap] at hget
        have hstep : remapStep donor st (.const old) = some { st with out := st.out ++ [.const v] } := by
          simp only [remapStep, hget]
        rw [hstep]
        obtain ⟨st', ρ, w, h1, h2, h3, h4, h5, h6⟩ :=
          ih { st with out := st.out ++ [.const v] } base m hl hrest hv hm hu
        have hρ := h5 old v hget
        refine ⟨st', ρ, w, h1, ?_, h3, h4, h5, ?_⟩
        · rw [h2]; simp [PNode.mapConst, hρ]
        · intro x hx c hxc
          rcases List.mem_cons.mp hx with rfl | hx
          · simp only [PNode.const.injEq] at hxc; subst hxc
            obtain ⟨ha, hb⟩ := hv old v hget
            rw [hρ, h3]
            refine ⟨by simp only [List.length_append]; omega, ?_⟩
            rw [List.getElem?_append_left ha]; exact hb
          · exact h6 x hx c hxc
      | none =>
        rw [hmap] at hget
        have hcnt : 0 < (st.map.filter (· == none)).length := by
          rw [List.length_pos_iff_exists_mem]
          exact ⟨none, List.mem_filter.mpr ⟨List.mem_of_getElem? hget, rfl⟩⟩
        have hstep : remapStep donor st (.const old) = some
            { map := st.map.set old (some st.dst.length), dst := st.dst ++ [donor[old]],
              out := st.out ++ [.const st.dst.length] } := by
          simp only [remapStep, hget]
          rw [if_pos (by omega), List.getElem?_eq_getElem hold]
        rw [hstep]
        have hfil : ((st.map.set old (some st.dst.length)).filter (· == none)).length + 1
            = (st.map.filter (· == none)).length := by
          have hlt : old < st.map.length := by rw [hl]; exact hold
          have e1 : st.map = st.map.take old ++ none :: st.map.drop (old + 1) := by
            conv => lhs; rw [← List.take_append_drop old st.map]
            rw [List.drop_eq_getElem_cons hlt, hmap]
          have e2 : st.map.set old (some st.dst.length)
              = st.map.take old ++ some st.dst.length :: st.map.drop (old + 1) := by
            rw [List.set_eq_take_append_cons_drop, if_pos hlt]
          rw [e2]
          conv => rhs; rw [e1]
          simp; omega
        obtain ⟨st', ρ, w, h1, h2, h3, h4, h5, h6⟩ :=
          ih { map := st.map.set old (some st.dst.length), dst := st.dst ++ [donor[old]],
               out := st.out ++ [.const st.dst.length] } base m (by simpa using hl) hrest (by
            intro i v h
            simp only [List.getElem?_set] at h
            simp only [List.length_append, List.length_singleton]
            by_cases e : old = i
            · subst e
              rw [if_pos rfl, if_pos (by rw [hl]; exact hold)] at h
              simp only [Option.some.injEq] at h
              subst h
              exact ⟨by omega, by simp [List.getElem?_eq_getElem hold]⟩
            · rw [if_neg e] at h
              obtain ⟨ha, hb⟩ := hv i v h
              exact ⟨by omega, by rw [List.getElem?_append_left ha]; exact hb⟩)
            (by simp only [List.length_append, List.length_singleton]; omega) hu
        have hρ : ρ old = st.dst.length := h5 old st.dst.length (by
          simp [hl, hold])
        simp only at h2 h3
        refine ⟨st', ρ, donor[old] :: w, h1, ?_, by rw [h3]; simp, h4, ?_, ?_⟩
        · rw [h2]; simp [PNode.mapConst, hρ]
        · intro i v h
          apply h5
          rw [List.getElem?_set]
          by_cases e : old = i
          · subst e; rw [hget] at h; simp at h
          · rw [if_neg e]; exact h
        · intro x hx c hxc
          rcases List.mem_cons.mp hx with rfl | hx
          · simp only [PNode.const.injEq] at hxc; subst hxc
            rw [hρ, h3]
            exact ⟨by simp, by simp [List.getElem?_eq_getElem hold]⟩
          · exact h6 x hx c hxc

/-- One crossover child: the context of `a` filled with the donor subtree `s`, whose constants are those of
the donor. -/
theorem crossChild_eq [Scalar T] (c : Ctx) (sa s : Tree) (csA csB : List T) (db : Ctx)
    (ha : ∀ x ∈ (c.plug sa).constIdxs, x < csA.length)
    (hb : ∀ x ∈ s.constIdxs, x < csB.length) (hlim : csA.length + csB.length ≤ u16Max) :
    ∃ e, crossChild ⟨(c.plug sa).toPostfix, csA⟩ ⟨(db.plug s).toPostfix, csB⟩ c.pre.length
        (c.pre.length + sa.size - 1) s.toPostfix = some e ∧
      SameExpr (c.plug (s.mapConst (· + csA.length))) (csA ++ csB) e ∧
      e.consts.length ≤ csA.length + csB.length := by
  obtain ⟨st', ρ, w, h1, h2, h3, h4, h5, h6⟩ := remap_run csB s.toPostfix
    { map := List.replicate csB.length none, dst := csA, out := [] } 0 (csA.length + csB.length)
    (by simp) (by
      intro n hn x hx
      subst hx
      apply hb
      rw [← constIdxs_toPostfix, List.mem_filterMap]
      exact ⟨_, hn, rfl⟩) (by
      intro i v h
      rw [List.getElem?_replicate] at h
      split at h <;> simp at h) (by simp) (by omega)
  have hρ : ∀ x ∈ s.constIdxs, ρ x < st'.dst.length ∧ st'.dst[ρ x]? = csB[x]? := by
    intro x hx
    rw [← constIdxs_toPostfix, List.mem_filterMap] at hx
    obtain ⟨n, hn, hnx⟩ := hx
    cases n with
    | const y => simp [PNode.constIdx?] at hnx; subst hnx; exact h6 _ hn _ rfl
    | _ => simp [PNode.constIdx?] at hnx
  have hpos := Tree.size_pos sa
  have hnodes : (c.plug sa).toPostfix.take c.pre.length ++ st'.out ++
      (c.plug sa).toPostfix.drop (c.pre.length + sa.size - 1 + 1)
      = (c.plug (s.mapConst ρ)).toPostfix := by
    have e : c.pre.length + sa.size - 1 + 1 = (c.pre ++ sa.toPostfix).length := by
      simp [length_toPostfix]; omega
    rw [e, Ctx.toPostfix_plug, Ctx.toPostfix_plug, List.drop_left, List.append_assoc c.pre sa.toPostfix,
      List.take_left, h2, toPostfix_mapConst]
    simp
  have hcomp := compressR_total (F := Unit) (c.plug (s.mapConst ρ)) st'.dst (by omega)
    (plug_constIdxs ha (by rw [h3]; simp) (by
      intro x hx
      rw [Tree.constIdxs_mapConst, List.mem_map] at hx
      obtain ⟨y, hy, rfl⟩ := hx
      exact (hρ y hy).1))
  obtain ⟨e, g', he, hsame, hle⟩ := hcomp ⟨fun _ => 0, fun _ => ()⟩
  refine ⟨e, ?_, ?_, by omega⟩
  · simp only [compressR, Rand.lift, Option.map_map, Option.map_eq_some_iff] at he
    obtain ⟨⟨e1, fl⟩, hc1, hc2⟩ := he
    simp only [Function.comp, Prod.mk.injEq] at hc2
    simp only [crossChild, remapSubtreeConsts, h1, Option.map_some, Option.bind_eq_bind, Option.bind_some,
      hnodes, hc1, hc2.1]
  · have hctx : c.All (fun _ => True) (· < csA.length) (fun _ _ => True) :=
      ((all_plug c _).mp (Tree.all_iff.mpr ⟨fun _ _ => trivial, ha, fun _ _ => trivial⟩)).1
    refine hsame.trans (σ := fun i => if i < csA.length then i else ρ (i - csA.length)) ?_ ?_
    · rw [plug_mapConst hctx (fun i hi => by simp [hi]), Tree.mapConst_comp]
      exact congrArg c.plug (Tree.mapConst_congr fun x _ => by
        have h : ¬ x + csA.length < csA.length := by omega
        simp only [h, if_false, Nat.add_sub_cancel])
    · intro x hx
      by_cases hlt : x < csA.length
      · simp only [hlt, if_true]
        rw [h3, List.getElem?_append_left hlt, List.getElem?_append_left hlt]
      · simp only [hlt, if_false]
        rw [List.getElem?_append_right (by omega)]
        -- the index comes from the donor subtree
        have hx2 : ∃ y ∈ s.constIdxs, x = y + csA.length := by
          have hall : (c.plug (s.mapConst (· + csA.length))).All (fun _ => True)
              (fun i => i < csA.length ∨ ∃ y ∈ s.constIdxs, i = y + csA.length) (fun _ _ => True) := by
            refine (all_plug c _).mpr ⟨hctx.mono (fun _ h => h) (fun _ h => Or.inl h) (fun _ _ h => h), ?_⟩
            refine Tree.all_iff.mpr ⟨fun _ _ => trivial, ?_, fun _ _ => trivial⟩
            intro i hi
            rw [Tree.constIdxs_mapConst, List.mem_map] at hi
            obtain ⟨y, hy, rfl⟩ := hi
            exact Or.inr ⟨y, hy, rfl⟩
          rcases (Tree.all_iff.mp hall).2.1 x hx with h | h
          · omega
          · exact h
        obtain ⟨y, hy, rfl⟩ := hx2
        rw [Nat.add_sub_cancel]
        exact (hρ y hy).2

/-- Crossover. -/
theorem crossoverTrees_total [Scalar T] (ta tb : Tree) (csA csB : List T)
    (ha : ∀ x ∈ ta.constIdxs, x < csA.length) (hb : ∀ x ∈ tb.constIdxs, x < csB.length)
    (hlim : csA.length + csB.length ≤ u16Max) :
    Rand.Total (crossoverTrees ⟨ta.toPostfix, csA⟩ ⟨tb.toPostfix, csB⟩ :
        Rand F (PostfixExpr T × PostfixExpr T))
      fun r => ∃ (ca cb : Ctx) (sa sb : Tree), ta = ca.plug sa ∧ tb = cb.plug sb ∧
        SameExpr (ca.plug (sb.mapConst (· + csA.length))) (csA ++ csB) r.1 ∧
        SameExpr (cb.plug (sa.mapConst (· + csB.length))) (csB ++ csA) r.2 ∧
        r.1.consts.length ≤ csA.length + csB.length ∧ r.2.consts.length ≤ csA.length + csB.length := by
  unfold crossoverTrees
  refine Rand.Total.lift_some (subtreeSizes_toPostfix ta) (Rand.Total.lift_some (subtreeSizes_toPostfix tb) ?_)
  refine Rand.Total.bind (Rand.Total.below (List.length_pos_iff.mpr (toPostfix_ne_nil ta))) fun i hi => ?_
  refine Rand.Total.bind (Rand.Total.below (List.length_pos_iff.mpr (toPostfix_ne_nil tb))) fun j hj => ?_
  obtain ⟨ca, sa, rfl, rfl, _⟩ := position_ctx (List.getElem?_eq_getElem hi)
  obtain ⟨cb, sb, rfl, rfl, _⟩ := position_ctx (List.getElem?_eq_getElem hj)
  have hA := at_plug ca sa
  have hB := at_plug cb sb
  refine Rand.Total.lift_some hA.range (Rand.Total.lift_some hB.range ?_)
  refine Rand.Total.lift_some hA.slice_eq (Rand.Total.lift_some hB.slice_eq ?_)
  obtain ⟨e1, he1, hs1, hl1⟩ := crossChild_eq ca sa sb csA csB cb ha (plug_constIdxs_hole hb) hlim
  obtain ⟨e2, he2, hs2, hl2⟩ := crossChild_eq cb sb sa csB csA ca hb (plug_constIdxs_hole ha) (by omega)
  refine Rand.Total.lift_some he1 (Rand.Total.lift_some he2 ?_)
  exact Rand.Total.pure ⟨ca, cb, sa, sb, rfl, rfl, hs1, hs2, hl1, by rw [Nat.add_comm]; exact hl2⟩

end SR
