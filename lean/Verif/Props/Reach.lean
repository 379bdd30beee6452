import Verif.Spec.Reach
import Verif.Props.Mutation
import Verif.Proofs.Postfix
import Verif.Props.Evolve
import Mathlib.Data.List.Forall2
/-
C77: the generators can produce every expression.
-/
namespace SR
variable {F α β T : Type} {S : F → Prop}

namespace Rand
theorem Reaches.pure (a : α) : Reaches S (Pure.pure a : Rand F α) a := fun g0 h => ⟨g0, h, rfl⟩

theorem Reaches.bind {m : Rand F α} {f : α → Rand F β} {a : α} {b : β} (h1 : Reaches S m a) (h2 : Reaches S (f a) b) :
    Reaches S (m >>= f) b := by
  intro g0 h0
  obtain ⟨g1, h1', e1⟩ := h2 g0 h0
  obtain ⟨g2, h2', e2⟩ := h1 g1 h1'
  exact ⟨g2, h2', by rw [run_bind, e2]; exact e1⟩

theorem Reaches.lift {x : Option α} {a : α} (h : x = some a) : Reaches S (Rand.lift x : Rand F α) a :=
  fun g0 h0 => ⟨g0, h0, by rw [h]; rfl⟩

theorem Reaches.below {n i : Nat} (h : i < n) (hn : n ≤ 2 ^ 64) : Reaches S (Rand.below n : Rand F Nat) i :=
  fun g0 h0 => ⟨consInt i g0, ⟨h0.floats, fun k => by cases k <;> [exact lt_of_lt_of_le h hn; exact h0.words _]⟩, below_cons h g0⟩

theorem Reaches.float {x : F} (h : S x) : Reaches S (Rand.float : Rand F F) x :=
  fun g0 h0 => ⟨consFloat x g0, ⟨fun k => by cases k <;> [exact h; exact h0.floats _], h0.words⟩, float_cons x g0⟩

theorem Reaches.bool (b : Bool) : Reaches S (Rand.bool : Rand F Bool) b := by
  refine Reaches.bind (a := if b then 1 else 0) (Reaches.below (by split <;> omega) (by norm_num)) ?_
  cases b <;> exact Reaches.pure _

theorem Reaches.pick {l : List α} {a : α} (h : a ∈ l) (hl : l.length ≤ 2 ^ 64) : Reaches S (SR.pick l : Rand F α) a := by
  obtain ⟨i, hi, e⟩ := List.mem_iff_getElem.mp h
  exact Reaches.bind (Reaches.below hi hl) (Reaches.lift (by rw [List.getElem?_eq_getElem hi, e]))
end Rand

open Rand

theorem SameNode.append {cs cs' : List T} (new : List T) {a b : PNode} (h : SameNode cs cs' a b) : SameNode (cs ++ new) cs' a b := by
  cases h with
  | var => exact .var
  | op => exact .op
  | const h1 h2 =>
    refine .const ?_ h2
    rw [List.getElem?_append_left (List.getElem?_eq_some_iff.mp h1).1, h1]

/-- The constants of the tree can be drawn. -/
def Drawable (normal : F → F → T) (S : F → Prop) (cs : List T) (t : Tree) : Prop :=
  ∀ c ∈ t.constIdxs, ∃ u1 u2, S u1 ∧ S u2 ∧ cs[c]? = some (normal u1 u2)

/-- A leaf that may still have to be replaced: it is the leaf wanted, or an operator is wanted. -/
def Start (cs cs' : List T) (l : PNode) : Tree → Prop
  | .op _ _ => l.isLeafNode = true
  | .var f => SameNode cs cs' l (.var f)
  | .const c => SameNode cs cs' l (.const c)

theorem Start.append {cs cs' : List T} (new : List T) {l : PNode} {t : Tree} (h : Start cs cs' l t) : Start (cs ++ new) cs' l t := by
  cases t with
  | op => exact h
  | var => exact SameNode.append new h
  | const => exact SameNode.append new h

/-- Constants that the leaves themselves need, and constants needed below operators. -/
def leafConsts : Tree → Nat | .const _ => 1 | _ => 0
def innerConsts : Tree → Nat | .op o ts => (Tree.op o ts).numConsts | _ => 0

theorem numConsts_split (t : Tree) : t.numConsts = leafConsts t + innerConsts t := by
  cases t <;> simp [leafConsts, innerConsts, Tree.numConsts]

theorem numOps_op' (o : Nat) (ts : List Tree) : (Tree.op o ts).numOps = 1 + (ts.map Tree.numOps).sum := by simp [Tree.numOps]

theorem numConsts_op' (o : Nat) (ts : List Tree) : (Tree.op o ts).numConsts = (ts.map Tree.numConsts).sum := by
  simp [Tree.numConsts]

theorem randomLeaf_reaches (normal : F → F → T) {nf : Nat} (h1 : 1 ≤ nf) (hnf : nf ≤ 65536) {cs : List T} (ops : List OpId)
    (t : Tree) (hu : t.Uses ops nf cs.length) (hd : Drawable normal S cs t) (acc : List T) (hacc : acc.length + leafConsts t ≤ 65536) :
    ∃ l new, Reaches S (randomLeaf normal nf acc) (l, acc ++ new) ∧ new.length = leafConsts t ∧ Start (acc ++ new) cs l t := by
  have hvar : ∀ f, f < nf → Reaches S (randomLeaf normal nf acc) (.var f, acc) := by
    intro f hf
    refine Reaches.bind (Reaches.bool false) ?_
    refine Reaches.bind (Reaches.below hf (le_trans hnf (by norm_num))) ?_
    rw [if_pos (show f ≤ u16Max by unfold u16Max; omega)]
    exact Reaches.pure _
  cases t with
  | op o ts => exact ⟨.var 0, [], by simpa using hvar 0 (by omega), rfl, rfl⟩
  | var f => exact ⟨.var f, [], by simpa using hvar f (by simpa [Tree.Uses] using hu), rfl, .var⟩
  | const c =>
    obtain ⟨u1, u2, s1, s2, e⟩ := hd c (by simp [Tree.constIdxs])
    refine ⟨.const acc.length, [normal u1 u2], ?_, rfl, .const (v := normal u1 u2) (by simp) e⟩
    refine Reaches.bind (Reaches.bool true) ?_
    refine Reaches.bind (Reaches.float s1) (Reaches.bind (Reaches.float s2) ?_)
    rw [if_pos (show acc.length ≤ u16Max by unfold u16Max; simp [leafConsts] at hacc; omega)]
    exact Reaches.pure _

theorem randomLeaves_reaches (normal : F → F → T) {nf : Nat} (h1 : 1 ≤ nf) (hnf : nf ≤ 65536) {cs : List T} (ops : List OpId)
    (ts : List Tree) (hu : ∀ t ∈ ts, t.Uses ops nf cs.length) (hd : ∀ t ∈ ts, Drawable normal S cs t) : ∀ acc : List T,
    acc.length + (ts.map leafConsts).sum ≤ 65536 →
    ∃ ls new, Reaches S (randomLeaves normal nf ts.length acc) (ls, acc ++ new) ∧ new.length = (ts.map leafConsts).sum ∧
      List.Forall₂ (Start (acc ++ new) cs) ls ts := by
  induction ts with
  | nil => intro acc _; exact ⟨[], [], by rw [List.append_nil]; exact Reaches.pure _, rfl, .nil⟩
  | cons t ts ih =>
    intro acc hacc
    simp only [List.map_cons, List.sum_cons] at hacc
    obtain ⟨l, new, r1, n1, s1⟩ := randomLeaf_reaches normal h1 hnf ops t (hu t (by simp)) (hd t (by simp)) acc (by omega)
    obtain ⟨ls, new', r2, n2, s2⟩ := ih (fun t ht => hu t (by simp [ht])) (fun t ht => hd t (by simp [ht])) (acc ++ new)
      (by simp; omega)
    refine ⟨l :: ls, new ++ new', ?_, by simp [n1, n2], ?_⟩
    · refine Reaches.bind r1 ?_
      refine Reaches.bind r2 ?_
      rw [List.append_assoc]
      exact Reaches.pure _
    · rw [← List.append_assoc]
      exact .cons (s1.append _) s2

/-- What the two loops have in common: a step replaces a leaf by an operator over fresh leaves, if there is room. -/
def Grows (S : F → Prop) (normal : F → F → T) (ops : List OpId) (nf target : Nat) (L : Nat → PostfixExpr T → Rand F (PostfixExpr T)) : Prop :=
  ∀ fuel pre post p acc o k ls acc' r, (⟨k, o⟩ : OpId) ∈ ops → p.isLeafNode = true → pre.length + 1 + post.length + k ≤ target →
    Reaches S (randomLeaves normal nf k acc) (ls, acc') → Reaches S (L fuel ⟨pre ++ (ls ++ [.op k o]) ++ post, acc'⟩) r →
    Reaches S (L (fuel + 1) ⟨pre ++ [p] ++ post, acc⟩) r

theorem grow_list {target : Nat} {L : Nat → PostfixExpr T → Rand F (PostfixExpr T)} {cs : List T}
    (ts : List Tree)
    (ih : ∀ t ∈ ts, ∀ (p : PNode) (pre post : List PNode) (acc : List T) (fuel : Nat), Start acc cs p t →
      pre.length + t.size + post.length ≤ target → acc.length + innerConsts t ≤ 65536 →
      ∃ n new, List.Forall₂ (SameNode (acc ++ new) cs) n t.toPostfix ∧ new.length = innerConsts t ∧
        (∀ r, Reaches S (L fuel ⟨pre ++ n ++ post, acc ++ new⟩) r → Reaches S (L (fuel + t.numOps) ⟨pre ++ [p] ++ post, acc⟩) r)) :
    ∀ (ls : List PNode) (pre post : List PNode) (acc : List T) (fuel : Nat), List.Forall₂ (Start acc cs) ls ts →
      pre.length + (ts.map Tree.size).sum + post.length ≤ target → acc.length + (ts.map innerConsts).sum ≤ 65536 →
      ∃ n new, List.Forall₂ (SameNode (acc ++ new) cs) n (ts.map Tree.toPostfix).flatten ∧ new.length = (ts.map innerConsts).sum ∧
        (∀ r, Reaches S (L fuel ⟨pre ++ n ++ post, acc ++ new⟩) r →
          Reaches S (L (fuel + (ts.map Tree.numOps).sum) ⟨pre ++ ls ++ post, acc⟩) r) := by
  induction ts with
  | nil =>
    intro ls pre post acc fuel hs _ _
    cases hs
    exact ⟨[], [], .nil, rfl, by simp⟩
  | cons t ts iht =>
    intro ls pre post acc fuel hs hsz hc
    cases hs with
    | @cons l _ ls _ h1 h2 =>
      simp only [List.map_cons, List.sum_cons] at hsz hc ⊢
      have hlen : ls.length = ts.length := h2.length_eq
      have hge : ts.length ≤ (ts.map Tree.size).sum := by
        clear * -
        induction ts with
        | nil => simp
        | cons t ts ih =>
          have : 1 ≤ t.size := by cases t <;> simp
          simp only [List.length_cons, List.map_cons, List.sum_cons]; omega
      obtain ⟨n1, new1, s1, c1, r1⟩ := ih t (by simp) l pre (ls ++ post) acc (fuel + (ts.map Tree.numOps).sum) h1
        (by simp; omega) (by omega)
      obtain ⟨n2, new2, s2, c2, r2⟩ := iht (fun t ht => ih t (by simp [ht])) ls (pre ++ n1) post (acc ++ new1) fuel
        (h2.imp fun _ _ h => h.append _) (by have := s1.length_eq; rw [length_toPostfix] at this; simp; omega) (by simp; omega)
      refine ⟨n1 ++ n2, new1 ++ new2, ?_, by simp [c1, c2], fun r hr => ?_⟩
      · rw [List.flatten_cons, ← List.append_assoc]
        exact List.rel_append (s1.imp fun _ _ h => h.append _) s2
      · have e1 : pre ++ l :: ls ++ post = pre ++ [l] ++ (ls ++ post) := by simp
        have e2 : fuel + (t.numOps + (ts.map Tree.numOps).sum) = fuel + (ts.map Tree.numOps).sum + t.numOps := by omega
        rw [e1, e2]
        refine r1 r ?_
        have e3 : pre ++ n1 ++ (ls ++ post) = pre ++ n1 ++ ls ++ post := by simp
        rw [e3]
        refine r2 r ?_
        simpa using hr

theorem grow_tree {normal : F → F → T} {ops : List OpId} {nf target : Nat} {L : Nat → PostfixExpr T → Rand F (PostfixExpr T)} {cs : List T}
    (h1 : 1 ≤ nf) (hnf : nf ≤ 65536) (hL : Grows S normal ops nf target L) (t : Tree) :
    t.Uses ops nf cs.length → Drawable normal S cs t →
    ∀ (p : PNode) (pre post : List PNode) (acc : List T) (fuel : Nat), Start acc cs p t →
      pre.length + t.size + post.length ≤ target → acc.length + innerConsts t ≤ 65536 →
      ∃ n new, List.Forall₂ (SameNode (acc ++ new) cs) n t.toPostfix ∧ new.length = innerConsts t ∧
        (∀ r, Reaches S (L fuel ⟨pre ++ n ++ post, acc ++ new⟩) r → Reaches S (L (fuel + t.numOps) ⟨pre ++ [p] ++ post, acc⟩) r) := by
  induction t using Tree.ind with
  | hv f =>
    intro _ _ p pre post acc fuel hs _ _
    exact ⟨[p], [], .cons (by rw [List.append_nil]; exact hs) .nil, rfl, by simp [Tree.numOps]⟩
  | hc c =>
    intro _ _ p pre post acc fuel hs _ _
    exact ⟨[p], [], .cons (by rw [List.append_nil]; exact hs) .nil, rfl, by simp [Tree.numOps]⟩
  | ho o ts ih =>
    intro hu hd p pre post acc fuel hs hsz hc
    obtain ⟨hop, hut⟩ := Tree.all_op.mp hu
    have hdt : ∀ t ∈ ts, Drawable normal S cs t := by
      intro t ht c hcm
      refine hd c ?_
      simp only [Tree.constIdxs, Tree.fold_op, List.mem_flatten, List.mem_map]
      exact ⟨_, ⟨t, ht, rfl⟩, hcm⟩
    have hsum : (ts.map leafConsts).sum + (ts.map innerConsts).sum = innerConsts (.op o ts) := by
      show _ = (Tree.op o ts).numConsts
      rw [numConsts_op']
      clear * -
      induction ts with
      | nil => rfl
      | cons t ts ih =>
        have := numConsts_split t
        simp only [List.map_cons, List.sum_cons]; omega
    have hge : ts.length ≤ (ts.map Tree.size).sum := by
      clear * -
      induction ts with
      | nil => simp
      | cons t ts ih =>
        have : 1 ≤ t.size := by cases t <;> simp
        simp only [List.length_cons, List.map_cons, List.sum_cons]; omega
    rw [Tree.size_op] at hsz
    obtain ⟨ls, new1, rl, nl, sl⟩ := randomLeaves_reaches normal h1 hnf ops ts hut hdt acc (by omega)
    obtain ⟨n, new2, s2, c2, r2⟩ := grow_list ts (fun t ht => ih t ht (hut t ht) (hdt t ht)) ls pre (.op ts.length o :: post) (acc ++ new1) fuel sl
      (by simp; omega) (by simp; omega)
    refine ⟨n ++ [.op ts.length o], new1 ++ new2, ?_, by simp; omega, fun r hr => ?_⟩
    · rw [Tree.toPostfix_op, ← List.append_assoc]
      exact List.rel_append s2 (.cons .op .nil)
    · rw [numOps_op', show fuel + (1 + (ts.map Tree.numOps).sum) = fuel + (ts.map Tree.numOps).sum + 1 by omega]
      refine hL _ pre post p acc o ts.length ls (acc ++ new1) r hop hs (by omega) rl ?_
      rw [show pre ++ (ls ++ [.op ts.length o]) ++ post = pre ++ ls ++ .op ts.length o :: post by simp]
      refine r2 r ?_
      simpa using hr

theorem totalOps_pos {D : Nat} {ops : List OpId} {op : OpId} (hop : op ∈ ops) (h1 : 1 ≤ op.arity) (h2 : op.arity ≤ D) {m : Nat}
    (hm : op.arity ≤ m) : 0 < (Operators.of D ops).totalOpsUpTo m := by
  rw [Operators.totalOpsUpTo]
  have hmem : op.arity ∈ List.range' 1 (min m (Operators.of D ops).D) := by
    rw [List.mem_range'_1]; simp only [Operators.of]; omega
  have hn : 0 < (Operators.of D ops).nops op.arity := by
    rw [nops_of D ops _ h1 h2, List.length_pos_iff_exists_mem]
    exact ⟨op, by simp [hop]⟩
  have := le_sum_of_mem (l := (List.range' 1 (min m (Operators.of D ops).D)).map
    (Operators.of D ops).nops) (List.mem_map.mpr ⟨_, hmem, rfl⟩)
  omega

/-- There are no more operators of some arities than operators. -/
theorem totalOps_le (D : Nat) (ops : List OpId) (m : Nat) : (Operators.of D ops).totalOpsUpTo m ≤ ops.length := by
  rw [Operators.totalOpsUpTo]
  have hle : ∀ a ∈ List.range' 1 (min m (Operators.of D ops).D), (Operators.of D ops).nops a = (ops.filter fun p => p.arity = a).length := by
    intro a ha
    rw [List.mem_range'_1] at ha
    simp only [Operators.of] at ha
    exact nops_of D ops a (by omega) (by omega)
  rw [List.map_congr_left hle]
  have hnd : (List.range' 1 (min m (Operators.of D ops).D)).Nodup := List.nodup_range'
  generalize List.range' 1 (min m (Operators.of D ops).D) = L at hnd
  clear hle
  induction L generalizing ops with
  | nil => simp
  | cons a L ih =>
    rw [List.nodup_cons] at hnd
    rw [List.map_cons, List.sum_cons]
    have h1 : ops.length = (ops.filter fun p => p.arity = a).length + (ops.filter fun p => !decide (p.arity = a)).length :=
      List.length_eq_length_filter_add _
    have h2 := ih (ops.filter fun p => !decide (p.arity = a)) hnd.2
    have h3 : (L.map fun b => ((ops.filter fun p => !decide (p.arity = a)).filter fun p => p.arity = b).length) =
        L.map fun b => (ops.filter fun p => p.arity = b).length := by
      refine List.map_congr_left fun b hb => ?_
      rw [List.filter_filter]
      congr 1
      refine List.filter_congr fun p _ => ?_
      by_cases hpb : p.arity = b
      · have : p.arity ≠ a := by rintro rfl; exact hnd.1 (hpb ▸ hb)
        simp [hpb] at this ⊢
        exact this
      · simp [hpb]
    rw [h3] at h2
    omega

theorem sample_reaches {D : Nat} {ops : List OpId} (hlen : ops.length ≤ 2 ^ 64) {op : OpId} (hop : op ∈ ops) (h1 : 1 ≤ op.arity) (h2 : op.arity ≤ D) {m : Nat}
    (hm : op.arity ≤ m) : Reaches S ((Operators.of D ops).sampleArity m : Rand F Nat) op.arity ∧
      Reaches S ((Operators.of D ops).sampleOp op.arity : Rand F OpId) op := by
  have hf : op ∈ ops.filter fun p => p.arity = op.arity := by simp [hop]
  obtain ⟨i, hi, hie⟩ := List.getElem_of_mem hf
  have hmem : op.arity ∈ List.range' 1 (min m (Operators.of D ops).D) := by
    rw [List.mem_range'_1]; simp only [Operators.of]; omega
  obtain ⟨r, hr, hh⟩ := sampleArityLoop_hit (Operators.of D ops).nops _ op.arity i hmem
    List.nodup_range' (by rw [nops_of D ops _ h1 h2]; exact hi)
  have hget : (Operators.of D ops).byArity[op.arity - 1]?
      = some (ops.filter fun p => p.arity = op.arity) := by
    simp only [Operators.of, List.getElem?_map, List.getElem?_range (show op.arity - 1 < D by omega),
      Option.map_some, Nat.sub_add_cancel h1]
  refine ⟨Reaches.bind (Reaches.below hr ((totalOps_le D ops m).trans hlen)) (Reaches.lift hh), ?_⟩
  unfold Operators.sampleOp
  rw [hget]
  exact Reaches.bind (Reaches.below hi ((List.length_filter_le _ _).trans hlen)) (Reaches.lift (by rw [List.getElem?_eq_getElem hi, hie]))

theorem splice_leaf (pre post : List PNode) (p : PNode) (new : List PNode) :
    splice (pre ++ [p] ++ post) pre.length pre.length new = some (pre ++ new ++ post) := by
  unfold splice
  rw [if_pos (by simp)]
  simp

theorem leaf_position (pre post : List PNode) {p : PNode} (hp : p.isLeafNode = true) :
    pre.length ∈ positions PNode.isLeafNode (pre ++ [p] ++ post) :=
  mem_positions.mpr ⟨p, by simp, hp⟩

theorem positions_room (pre post : List PNode) (p : PNode) (h : pre.length + 1 + post.length ≤ 2 ^ 64) :
    (positions PNode.isLeafNode (pre ++ [p] ++ post)).length ≤ 2 ^ 64 := by
  refine le_trans ?_ h
  unfold positions
  rw [List.length_map]
  refine (List.length_filter_le _ _).trans (le_of_eq ?_)
  simp; omega

theorem randomExprLoop_grows (normal : F → F → T) {D : Nat} {ops : List OpId} (hlen' : ops.length ≤ 2 ^ 64)
    (hops : ∀ op ∈ ops, 1 ≤ op.arity ∧ op.arity ≤ D) (nf : Nat) {target : Nat} (ht : target ≤ 2 ^ 64) :
    Grows S normal ops nf target (randomExprLoop normal (Operators.of D ops) nf target) := by
  intro fuel pre post p acc o k ls acc' r hop hp hroom hleaves hr
  obtain ⟨a1, a2⟩ := hops _ hop
  simp only at a1 a2
  rw [randomExprLoop]
  have hlen : (pre ++ [p] ++ post).length = pre.length + 1 + post.length := by simp; omega
  rw [if_pos ⟨by simp only [hlen]; omega, totalOps_pos hop a1 a2 (by simp only [hlen]; simp [Operators.of]; omega)⟩]
  simp only
  obtain ⟨s1, s2⟩ := sample_reaches (S := S) (F := F) hlen' hop a1 a2 (m := min (target - (pre ++ [p] ++ post).length) (Operators.of D ops).D)
    (by simp only [hlen]; simp [Operators.of]; omega)
  refine Reaches.bind s1 (Reaches.bind s2 (Reaches.bind (Reaches.pick (leaf_position pre post hp) (positions_room pre post p (by omega))) ?_))
  refine Reaches.bind hleaves ?_
  exact Reaches.bind (Reaches.lift (splice_leaf pre post p _)) hr

/-- C77: the generator of random expressions can return every expression of the requested size over the configured
operators and features, with every constant that the normal generator can return (at most 65536 of them). -/
theorem C77_generate (normal : F → F → T) (D : Nat) (ops : List OpId) (hlen : ops.length ≤ 2 ^ 64) (hops : ∀ op ∈ ops, 1 ≤ op.arity ∧ op.arity ≤ D) (nf : Nat)
    (h1 : 1 ≤ nf) (hnf : nf ≤ 65536) (t : Tree) (ht : t.size ≤ 2 ^ 64) (cs : List T) (hu : t.Uses ops nf cs.length) (hc : t.numConsts ≤ 65536)
    (hd : ∀ c ∈ t.constIdxs, ∃ u1 u2, S u1 ∧ S u2 ∧ cs[c]? = some (normal u1 u2)) :
    ∃ e, Writes e t cs ∧ Reaches S (randomExpr normal (Operators.of D ops) nf t.size) e := by
  have hpos : 1 ≤ t.size := by cases t <;> simp
  have hops' : t.numOps ≤ t.size := by
    clear * -
    induction t using Tree.ind with
    | hv f => simp [Tree.numOps]
    | hc c => simp [Tree.numOps]
    | ho o ts ih =>
      rw [numOps_op', Tree.size_op]
      have : (ts.map Tree.numOps).sum ≤ (ts.map Tree.size).sum := by
        clear * - ih
        induction ts with
        | nil => simp
        | cons t ts iht =>
          simp only [List.map_cons, List.sum_cons]
          have := ih t (by simp)
          have := iht fun u hu => ih u (by simp [hu])
          omega
      omega
  have hs := numConsts_split t
  obtain ⟨l, new, r1, n1, s1⟩ := randomLeaf_reaches normal h1 hnf ops t hu hd [] (by simp; omega)
  obtain ⟨n, new', s2, n2, r2⟩ := grow_tree h1 hnf (randomExprLoop_grows (S := S) normal hlen hops nf ht) t hu hd l [] [] ([] ++ new)
    (t.size - t.numOps) s1 (by simp) (by simp; omega)
  refine ⟨⟨n, [] ++ new ++ new'⟩, s2, ?_⟩
  unfold randomExpr
  rw [if_pos hpos]
  refine Reaches.bind r1 ?_
  have := r2 ⟨n, [] ++ new ++ new'⟩ ?_
  · rw [Nat.sub_add_cancel hops'] at this
    exact this
  · have hn : n.length = t.size := by rw [s2.length_eq, length_toPostfix]
    simp only [List.nil_append, List.append_nil]
    cases t.size - t.numOps with
    | zero => exact Reaches.pure _
    | succ k =>
      rw [randomExprLoop, if_neg (by simp only [hn]; omega)]
      exact Reaches.pure _

theorem randomExprAppendLoop_grows (normal : F → F → T) {D : Nat} {ops : List OpId} (hlen' : ops.length ≤ 2 ^ 64)
    (hops : ∀ op ∈ ops, 1 ≤ op.arity ∧ op.arity ≤ D) (nf : Nat) {target : Nat} (ht : target ≤ 2 ^ 64) :
    Grows S normal ops nf target (randomExprAppendLoop normal (Operators.of D ops) nf target) := by
  intro fuel pre post p acc o k ls acc' r hop hp hroom hleaves hr
  obtain ⟨a1, a2⟩ := hops _ hop
  simp only at a1 a2
  rw [randomExprAppendLoop]
  have hlen : (pre ++ [p] ++ post).length = pre.length + 1 + post.length := by simp; omega
  simp only
  rw [if_neg (by simp only [hlen]; omega), if_neg (Nat.pos_iff_ne_zero.mp (totalOps_pos hop a1 a2 (by simp only [hlen]; simp [Operators.of]; omega)))]
  obtain ⟨s1, s2⟩ := sample_reaches (S := S) (F := F) hlen' hop a1 a2 (m := min (target - (pre ++ [p] ++ post).length) (Operators.of D ops).D)
    (by simp only [hlen]; simp [Operators.of]; omega)
  refine Reaches.bind s1 (Reaches.bind s2 ?_)
  have hm := leaf_position pre post hp
  rw [if_neg (show ¬ (positions PNode.isLeafNode (pre ++ [p] ++ post)).isEmpty = true by
    intro h; rw [List.isEmpty_iff.mp h] at hm; cases hm)]
  refine Reaches.bind (Reaches.pick hm (positions_room pre post p (by omega))) ?_
  refine Reaches.bind hleaves ?_
  exact Reaches.bind (Reaches.lift (splice_leaf pre post p _)) hr

theorem forall2_flatten {R : PNode → PNode → Prop} (P : Tree → Prop) (ts : List Tree)
    (ih : ∀ t ∈ ts, ∀ n, List.Forall₂ R n t.toPostfix → ∃ u : Tree, n = u.toPostfix ∧ P u) : ∀ n,
    List.Forall₂ R n (ts.map Tree.toPostfix).flatten → ∃ us : List Tree, us.length = ts.length ∧
      n = (us.map Tree.toPostfix).flatten ∧ ∀ u ∈ us, P u := by
  induction ts with
  | nil => intro n h; cases h; exact ⟨[], rfl, rfl, by simp⟩
  | cons t ts iht =>
    intro n h
    rw [List.map_cons, List.flatten_cons] at h
    have h1 := List.forall₂_take_append _ _ _ h
    have h2 := List.forall₂_drop_append _ _ _ h
    obtain ⟨u, e, pu⟩ := ih t (by simp) _ h1
    obtain ⟨us, l, e', pus⟩ := iht (fun t ht => ih t (by simp [ht])) _ h2
    refine ⟨u :: us, by simp [l], ?_, ?_⟩
    · rw [List.map_cons, List.flatten_cons, ← e, ← e', List.take_append_drop]
    · intro v hv
      rcases List.mem_cons.mp hv with rfl | hv
      · exact pu
      · exact pus v hv

/-- A sequence that is node by node a tree is a tree. -/
theorem Writes.tree {acc cs : List T} (t : Tree) : ∀ n : List PNode, List.Forall₂ (SameNode acc cs) n t.toPostfix →
    ∃ u : Tree, n = u.toPostfix ∧ ∀ c ∈ u.constIdxs, c < acc.length := by
  induction t using Tree.ind with
  | hv f =>
    intro n h
    rw [Tree.toPostfix_var] at h
    cases h with
    | cons h1 h2 => cases h1; cases h2; exact ⟨.var f, rfl, by simp [Tree.constIdxs]⟩
  | hc c =>
    intro n h
    rw [Tree.toPostfix_const] at h
    cases h with
    | cons h1 h2 =>
      cases h2
      cases h1 with
      | @const c' _ v h1 _ => exact ⟨.const c', rfl, by simpa [Tree.constIdxs] using (List.getElem?_eq_some_iff.mp h1).1⟩
  | ho o ts ih =>
    intro n h
    rw [Tree.toPostfix_op] at h
    have h1 := List.forall₂_take_append _ _ _ h
    have h2 := List.forall₂_drop_append _ _ _ h
    obtain ⟨us, l, e, hus⟩ := forall2_flatten (fun u => ∀ c ∈ u.constIdxs, c < acc.length) ts ih _ h1
    refine ⟨.op o us, ?_, ?_⟩
    · rw [Tree.toPostfix_op, ← e]
      generalize hd : n.drop (ts.map Tree.toPostfix).flatten.length = w at h2
      cases h2 with
      | cons h3 h4 =>
        cases h4; cases h3
        rw [l, ← hd, List.take_append_drop]
    · intro c hc
      simp only [Tree.constIdxs, Tree.fold_op, List.mem_flatten, List.mem_map] at hc
      obtain ⟨_, ⟨u, hu, rfl⟩, hc⟩ := hc
      exact hus u hu c hc

theorem compress_writes [Scalar T] (t : Tree) (cs acc : List T) (u : Tree)
    (h : List.Forall₂ (SameNode acc cs) u.toPostfix t.toPostfix) (hu : ∀ c ∈ u.constIdxs, c < acc.length) :
    Writes ⟨(u.mapConst fun c => (firstUses u.constIdxs).idxOf c).toPostfix, (firstUses u.constIdxs).map (constAt acc)⟩ t cs := by
  show List.Forall₂ _ (Tree.toPostfix _) _
  rw [toPostfix_mapConst, List.forall₂_map_left_iff]
  rw [List.forall₂_iff_get] at h ⊢
  refine ⟨h.1, fun i h1 h2 => ?_⟩
  have hn := h.2 i h1 h2
  have hmem := List.get_mem u.toPostfix ⟨i, h1⟩
  generalize u.toPostfix.get ⟨i, h1⟩ = a at hn hmem
  generalize t.toPostfix.get ⟨i, h2⟩ = b at hn
  cases hn with
  | var => exact .var
  | op => exact .op
  | @const c c' v e1 e2 =>
    have hc : c ∈ u.constIdxs := by
      rw [← constIdxs_toPostfix, List.mem_filterMap]
      exact ⟨_, hmem, rfl⟩
    have hm := (mem_firstUses u.constIdxs c).mpr hc
    refine .const (v := v) ?_ e2
    rw [← e1]
    simp [List.getElem?_idxOf hm, constAt, List.getElem?_eq_getElem (hu c hc)]
theorem compress_reaches [Scalar T] (t : Tree) (cs acc : List T) (hacc : acc.length ≤ 65535) (n : List PNode)
    (h : List.Forall₂ (SameNode acc cs) n t.toPostfix) :
    ∃ e, Writes e t cs ∧ Reaches S (compressR ⟨n, acc⟩ : Rand F (PostfixExpr T)) e := by
  obtain ⟨u, rfl, hu⟩ := Writes.tree t n h
  have hsub : (firstUses u.constIdxs).Subperm (List.range acc.length) :=
    (firstUses_nodup _).subperm fun c hcm => List.mem_range.mpr (hu c ((mem_firstUses _ _).mp hcm))
  have hle : (firstUses u.constIdxs).length ≤ acc.length := by simpa using hsub.length_le
  have key := compressConstants_eq u acc hu (Nat.le_trans hle hacc)
  exact ⟨_, compress_writes t cs acc u h hu, Reaches.lift (by rw [key]; rfl)⟩

theorem total_mapConst (W : Weights) (ρ : Nat → Nat) (t : Tree) : W.total (t.mapConst ρ) = W.total t := by
  unfold Weights.total
  rw [toPostfix_mapConst, List.map_map]
  congr 1
  apply List.map_congr_left
  intro n _
  cases n <;> rfl

theorem Tree.Sub.mapConst (ρ : Nat → Nat) {s t : Tree} (h : Tree.Sub s t) : Tree.Sub (s.mapConst ρ) (t.mapConst ρ) := by
  induction h with
  | refl => exact .refl
  | child hm _ ih => rw [Tree.mapConst_op]; exact .child (List.mem_map_of_mem hm) ih

theorem Tree.Sub.of_mapConst (ρ : Nat → Nat) {s t : Tree} (h : Tree.Sub s (t.mapConst ρ)) : ∃ s', Tree.Sub s' t ∧ s = s'.mapConst ρ := by
  induction t using Tree.ind with
  | hv f => rw [Tree.mapConst_var] at h; cases h; exact ⟨.var f, .refl, by simp⟩
  | hc c => rw [Tree.mapConst_const] at h; cases h; exact ⟨.const c, .refl, by simp⟩
  | ho o ts ih =>
    rw [Tree.mapConst_op] at h
    cases h with
    | refl => exact ⟨.op o ts, .refl, by simp⟩
    | child hm hs =>
      obtain ⟨u, hu, rfl⟩ := List.mem_map.mp hm
      obtain ⟨s', h1, h2⟩ := ih u hu hs
      exact ⟨s', .child hu h1, h2⟩

theorem paths_mapConst (ρ : Nat → Nat) (t : Tree) : (t.mapConst ρ).paths = t.paths.map (List.map (PNode.mapConst ρ)) := by
  induction t using Tree.ind with
  | hv f => simp [Tree.paths, PNode.mapConst]
  | hc c => simp [Tree.paths, PNode.mapConst]
  | ho o ts ih =>
    have e : ∀ o ts, (Tree.op o ts).paths = (ts.map Tree.paths).flatten.map (PNode.op ts.length o :: ·) := by
      intro o ts; simp [Tree.paths]
    rw [Tree.mapConst_op, e, e, List.map_map, List.map_congr_left (f := Tree.paths ∘ Tree.mapConst ρ)
      (g := List.map (List.map (PNode.mapConst ρ)) ∘ Tree.paths) (fun t ht => ih t ht)]
    rw [← List.map_map, ← List.map_flatten, List.map_map, List.map_map]
    simp [Function.comp_def, PNode.mapConst]

theorem count_mapConst (ρ : Nat → Nat) (a o : Nat) (p : List PNode) : (p.map (PNode.mapConst ρ)).count (.op a o) = p.count (.op a o) := by
  induction p with
  | nil => rfl
  | cons n p ih =>
    rw [List.map_cons, List.count_cons, List.count_cons, ih]
    cases n <;> rfl

/-- The constraints do not look at which constant a leaf is. -/
theorem allows_mapConst (L : Limits) (ρ : Nat → Nat) (t : Tree) : L.Allows (t.mapConst ρ) ↔ L.Allows t := by
  constructor
  · rintro ⟨h1, h2, h3, h4⟩
    refine ⟨by rwa [total_mapConst] at h1, by rwa [Tree.depth_mapConst] at h2, ?_, ?_⟩
    · intro o ts hs j lim u hu hl
      have hs' := hs.mapConst ρ
      rw [Tree.mapConst_op] at hs'
      have := h3 o _ hs' j lim (u.mapConst ρ) (by rw [List.getElem?_map, hu]; rfl) (by rw [List.length_map]; exact hl)
      rwa [total_mapConst] at this
    · intro o ts hs q m hn u hu p hp
      have hs' := hs.mapConst ρ
      rw [Tree.mapConst_op] at hs'
      have := h4 o _ hs' q m (by rw [List.length_map]; exact hn) (u.mapConst ρ) (List.mem_map_of_mem hu) (p.map (PNode.mapConst ρ))
        (by rw [paths_mapConst]; exact List.mem_map_of_mem hp)
      rwa [count_mapConst] at this
  · rintro ⟨h1, h2, h3, h4⟩
    have key : ∀ o ts, Tree.Sub (.op o ts) (t.mapConst ρ) → ∃ ts', Tree.Sub (.op o ts') t ∧ ts = ts'.map (Tree.mapConst ρ) := by
      intro o ts hs
      obtain ⟨s', k1, k2⟩ := hs.of_mapConst ρ
      cases s' with
      | var f => rw [Tree.mapConst_var] at k2; cases k2
      | const c => rw [Tree.mapConst_const] at k2; cases k2
      | op o' ts' => rw [Tree.mapConst_op] at k2; cases k2; exact ⟨ts', k1, rfl⟩
    refine ⟨by rwa [total_mapConst], by rwa [Tree.depth_mapConst], ?_, ?_⟩
    · intro o ts hs j lim u hu hl
      obtain ⟨ts', k1, rfl⟩ := key o ts hs
      rw [List.getElem?_map, Option.map_eq_some_iff] at hu
      obtain ⟨u', hu', rfl⟩ := hu
      rw [total_mapConst]
      exact h3 o ts' k1 j lim u' hu' (by rwa [List.length_map] at hl)
    · intro o ts hs q m hn u hu p hp
      obtain ⟨ts', k1, rfl⟩ := key o ts hs
      obtain ⟨u', hu', rfl⟩ := List.mem_map.mp hu
      rw [paths_mapConst] at hp
      obtain ⟨p', hp', rfl⟩ := List.mem_map.mp hp
      rw [count_mapConst]
      exact h4 o ts' k1 q m (by rwa [List.length_map] at hn) u' hu' p' hp'

/-- An expression that writes a tree is that tree up to the numbers of its constants. -/
theorem Writes.shape {e : PostfixExpr T} {t : Tree} {cs : List T} (h : Writes e t cs) :
    ∃ u : Tree, e.nodes = u.toPostfix ∧ u.mapConst (fun _ => 0) = t.mapConst (fun _ => 0) ∧ ∀ c ∈ u.constIdxs, c < e.consts.length := by
  obtain ⟨u, hu, hc⟩ := Writes.tree t e.nodes h
  refine ⟨u, hu, ?_, hc⟩
  apply toPostfix_injective
  rw [toPostfix_mapConst, toPostfix_mapConst, ← hu]
  unfold Writes at h
  generalize t.toPostfix = l at h ⊢
  clear hu hc
  generalize e.nodes = n at h ⊢
  induction h with
  | nil => rfl
  | cons h1 _ ih =>
    rw [List.map_cons, List.map_cons, ih]
    cases h1 <;> rfl

theorem Writes.allows {e : PostfixExpr T} {t : Tree} {cs : List T} (h : Writes e t cs) (L : Limits) (ha : L.Allows t) {u : Tree}
    (hu : e.nodes = u.toPostfix) : L.Allows u := by
  obtain ⟨u', hu', he, _⟩ := h.shape
  obtain rfl := toPostfix_injective (hu ▸ hu')
  rw [← allows_mapConst L (fun _ => 0), he, allows_mapConst]
  exact ha

theorem sum_le_sum_of {l : List Tree} {f g : Tree → Nat} (h : ∀ t ∈ l, f t ≤ g t) : (l.map f).sum ≤ (l.map g).sum := by
  induction l with
  | nil => simp
  | cons t l ih =>
    simp only [List.map_cons, List.sum_cons]
    have := h t (by simp)
    have := ih fun u hu => h u (by simp [hu])
    omega

theorem numConsts_le_size (t : Tree) : t.numConsts ≤ t.size := by
  induction t using Tree.ind with
  | hv f => simp [Tree.numConsts]
  | hc c => simp [Tree.numConsts]
  | ho o ts ih =>
    rw [numConsts_op', Tree.size_op]
    have := sum_le_sum_of ih
    omega

/-- C77: the generator of the initial members can return every expression whose number of operators is the requested
number and that fits in the size limit. -/
theorem C77_initial [Scalar T] (normal : F → F → T) (D : Nat) (ops : List OpId) (hlen : ops.length ≤ 2 ^ 64) (hops : ∀ op ∈ ops, 1 ≤ op.arity ∧ op.arity ≤ D) (nf : Nat)
    (h1 : 1 ≤ nf) (hnf : nf ≤ 65536) (o : Nat) (ts : List Tree) (cs : List T) (hu : (Tree.op o ts).Uses ops nf cs.length)
    (hd : ∀ c ∈ (Tree.op o ts).constIdxs, ∃ u1 u2, S u1 ∧ S u2 ∧ cs[c]? = some (normal u1 u2)) (maxSize : Nat)
    (hsz : (Tree.op o ts).size ≤ maxSize) (hm : maxSize ≤ 65535) :
    ∃ e, Writes e (.op o ts) cs ∧ Reaches S (randomExprAppendOps normal (Operators.of D ops) nf (Tree.op o ts).numOps maxSize) e := by
  have hpos : 1 ≤ (Tree.op o ts).size := by simp
  have hcs : (Tree.op o ts).numConsts + 1 ≤ (Tree.op o ts).size := by
    rw [numConsts_op', Tree.size_op]
    have := sum_le_sum_of (fun t _ => numConsts_le_size t) (l := ts)
    omega
  obtain ⟨n, new', s2, n2, r2⟩ := grow_tree h1 hnf (randomExprAppendLoop_grows (S := S) (target := max maxSize 1) normal hlen hops nf (by omega)) (.op o ts) hu hd
    (.const 0) [] [] [Scalar.zero] 0 rfl (by simp only [List.length_nil]; omega) (by simp [innerConsts]; omega)
  have hin : innerConsts (.op o ts) = (Tree.op o ts).numConsts := rfl
  obtain ⟨e, he, hr⟩ := compress_reaches (S := S) (F := F) (.op o ts) cs ([Scalar.zero] ++ new') (by simp; omega) n s2
  refine ⟨e, he, ?_⟩
  unfold randomExprAppendOps
  have hz := r2 ⟨n, [Scalar.zero] ++ new'⟩ (by rw [List.nil_append, List.append_nil]; exact Reaches.pure _)
  rw [Nat.zero_add] at hz
  exact Reaches.bind hz hr

section
variable {K : Type} [Field K] [LinearOrder K] [E : Env K] {S : Fl K → Prop}

theorem range_reaches {a b i : Nat} (h1 : a ≤ i) (h2 : i ≤ b) (hb : b < 2 ^ 64) : Reaches S (usizeRangeInclusive a b : Rand (Fl K) Nat) i := by
  unfold usizeRangeInclusive
  split
  · obtain rfl : i = a := by omega
    exact Reaches.pure _
  · obtain ⟨d, rfl⟩ : ∃ d, i = a + d := ⟨i - a, by omega⟩
    exact Reaches.bind (Reaches.below (by omega) (by omega)) (Reaches.pure _)

/-- C77: the mutation that replaces the whole expression can return every expression within the current size limit. -/
theorem C77_randomize {o : SOptions K} {d : Dataset K} {cur N : Nat} {ops : List OpId} (hlen : ops.length ≤ 2 ^ 64) (ES : EvolSetting o d cur ops N)
    (temperature : Fl K) (m : Member K) (ev : Evaluator K) (t : Tree) (cs : List (Fl K)) (hu : t.Uses ops d.x.rows cs.length)
    (hd : ∀ c ∈ t.constIdxs, ∃ u1 u2, S u1 ∧ S u2 ∧ cs[c]? = some (normalT u1 u2)) (h1 : t.size ≤ max cur 1)
    (h2 : t.size ≤ max o.maxsize 1) :
    ∃ e, Writes e t cs ∧ Reaches S (Mutation.apply o d cur temperature m ev .randomize) ⟨e, true, 0, false, ev⟩ := by
  have hpos : 1 ≤ t.size := by cases t <;> simp
  have hmx := ES.maxsize_le
  obtain ⟨e, he, hr⟩ := C77_generate (S := S) normalT E.D ops hlen (fun op h => ⟨(ES.ops_ok op h).1, (ES.ops_ok op h).2.1⟩) d.x.rows
    ES.nf_pos (by have := ES.nf_le; omega) t (by omega) cs hu (by have := numConsts_le_size t; omega) hd
  refine ⟨e, he, ?_⟩
  unfold Mutation.apply
  refine Reaches.bind (range_reaches hpos (by omega) (by omega)) ?_
  rw [ES.operators]
  exact Reaches.bind hr (Reaches.pure _)

theorem Writes.compress {t : Tree} {cs : List (Fl K)} {e : PostfixExpr (Fl K)} (h : Writes e t cs) (hs : t.size ≤ 65535) :
    ∃ e' ch, compressConstants e = some (e', ch) ∧ Writes e' t cs := by
  obtain ⟨u, hu, he, hc⟩ := h.shape
  have hus : u.size = t.size := by rw [← Tree.size_mapConst (fun _ => 0) u, he, Tree.size_mapConst]
  obtain ⟨n, acc⟩ := e
  obtain rfl : n = u.toPostfix := hu
  have hle : (firstUses u.constIdxs).length ≤ u16Max := by
    have h1 := (firstUses_nodup u.constIdxs).subperm (fun c hcm => (mem_firstUses _ _).mp hcm)
    have h2 := h1.length_le
    have h3 := u.constIdxs_length_le
    unfold u16Max; omega
  refine ⟨_, _, compressConstants_eq u acc hc hle, ?_⟩
  exact compress_writes t cs acc u h hc

/-- C77: every expression that the constraints allow can be the candidate of a mutation: the attempts of one generation
can end with it, without evaluating anything. -/
theorem C77_candidate {o : SOptions K} {d : Dataset K} {cur N : Nat} {ops : List OpId} (hlen : ops.length ≤ 2 ^ 64) (ES : EvolSetting o d cur ops N)
    (temperature : Fl K) (m : Member K) (ev : Evaluator K) (t : Tree) (cs : List (Fl K)) (hu : t.Uses ops d.x.rows cs.length)
    (hd : ∀ c ∈ t.constIdxs, ∃ u1 u2, S u1 ∧ S u2 ∧ cs[c]? = some (normalT u1 u2)) (h1 : t.size ≤ max cur 1)
    (h2 : t.size ≤ max o.maxsize 1) (ha : (o.cx.limits cur).Allows t) (k evals : Nat) :
    ∃ e, Writes e t cs ∧
      Reaches S (attemptLoop o d cur temperature m .randomize (k + 1) evals ev) ⟨some (e, false), evals, ev⟩ := by
  obtain ⟨e, he, hr⟩ := C77_randomize (S := S) hlen ES temperature m ev t cs hu hd h1 h2
  have hmx := ES.maxsize_le
  obtain ⟨e', ch, hc, he'⟩ := he.compress (by omega)
  refine ⟨e', he', ?_⟩
  unfold attemptLoop
  refine Reaches.bind hr ?_
  simp only [Bool.not_true, Bool.false_eq_true, if_false, Nat.add_zero]
  refine Reaches.bind (Reaches.lift hc) ?_
  obtain ⟨u, hn, hsh, hcu⟩ := he'.shape
  have huu : u.Uses ops d.x.rows e'.consts.length := by
    refine Tree.all_iff.mpr ⟨?_, hcu, ?_⟩
    · rw [← Tree.features_mapConst (fun _ => 0) u, hsh, Tree.features_mapConst]; exact (Tree.all_iff.mp hu).1
    · rw [← Tree.opNodes_mapConst (fun _ => 0) u, hsh, Tree.opNodes_mapConst]; exact (Tree.all_iff.mp hu).2.2
  obtain ⟨b, hb, hiff⟩ := C23_accepts_iff o.cx ES.cx cur ES.cur_lt u (ES.proper huu) (ES.arityLe huu)
  obtain rfl : b = true := hiff.mpr (he'.allows _ ha hn)
  refine Reaches.bind (Reaches.lift (by rw [hn]; exact hb)) ?_
  exact Reaches.pure _

/-- C77: and it can become the child, if it has a finite cost on the data and a draw of the acceptance test lets it pass. -/
theorem C77_child {o : SOptions K} {d : Dataset K} {cur N : Nat} {ops : List OpId} (hlen : ops.length ≤ 2 ^ 64) (ES : EvolSetting o d cur ops N)
    (temperature : Fl K) (s : Stats K) (c : Counters) (m : Member K) (ev : Evaluator K) (t : Tree) (cs : List (Fl K))
    (hu : t.Uses ops d.x.rows cs.length)
    (hd : ∀ c ∈ t.constIdxs, ∃ u1 u2, S u1 ∧ S u2 ∧ cs[c]? = some (normalT u1 u2)) (h1 : t.size ≤ max cur 1)
    (h2 : t.size ≤ max o.maxsize 1) (ha : (o.cx.limits cur).Allows t) :
    ∃ e, Writes e t cs ∧ ∀ (b baby : Member K) (ev' : Evaluator K) (u : Fl K),
      Member.fromExpr c.nextId (some m.id) c.nextBirth e d.x.rows = some b → b.evaluate o d ev = some (baby, true, ev') →
      baby.cost.isFinite = true → S u → (acceptProb o s temperature m baby).lt u = false →
      Reaches S (generationWith o d cur temperature s ev c m .randomize) ⟨baby, true, 1, ev', c.tick⟩ := by
  obtain ⟨e, he, hr⟩ := C77_candidate (S := S) hlen ES temperature m ev t cs hu hd h1 h2 ha 9 0
  refine ⟨e, he, fun b baby ev' u hb hev hfin hs hacc => ?_⟩
  unfold generationWith
  refine Reaches.bind hr ?_
  simp only
  refine Reaches.bind (Reaches.lift hb) (Reaches.bind (Reaches.lift hev) ?_)
  simp only [hfin, Bool.not_true, Bool.or_self, Bool.false_eq_true, if_false]
  refine Reaches.bind (Reaches.float hs) ?_
  rw [hacc]
  exact Reaches.pure _
end

end SR

namespace SR.Demo
open Rand
local instance reachEnv : Env ℚ := env

/-- The expression `op 0 (x0 op1 1/2)` over the demonstration data: the hypotheses hold for draws from `[0, 1)`, so every
member can be replaced by it. -/
def reachTree : Tree := .op 0 [.op 1 [.var 0, .const 0]]

example (m : Member ℚ) (ev : Evaluator ℚ) : ∃ e, Writes e reachTree [.fin (1 / 2 : ℚ)] ∧
    Reaches (fun u : Fl ℚ => ∃ x : ℚ, u = .fin x ∧ 0 ≤ x ∧ x < 1)
      (attemptLoop opts data 7 (.fin 1) m .randomize 10 0 ev) ⟨some (e, false), 0, ev⟩ := by
  refine C77_candidate (by decide) evolSetting (.fin 1) m ev reachTree [.fin (1 / 2 : ℚ)] ?_ ?_ (by decide) (by decide) ?_ 9 0
  · simp only [reachTree, Tree.Uses, data, Tree.all_op, List.length_cons, List.length_nil]
    exact ⟨by decide, by simp [opIds]⟩
  · intro c hc
    simp only [reachTree, Tree.constIdxs_op, Tree.constIdxs_var, Tree.constIdxs_const, List.map_cons, List.map_nil, List.flatten_cons,
      List.flatten_nil, List.append_nil, List.nil_append, List.mem_singleton] at hc
    subst hc
    exact ⟨.fin (1 / 2), .fin (1 / 2), ⟨_, rfl, by decide +kernel, by decide +kernel⟩, ⟨_, rfl, by decide +kernel, by decide +kernel⟩, by decide +kernel⟩
  · obtain ⟨b, hb, hiff⟩ := C23_accepts_iff opts.cx cx_wf 7 (by decide) reachTree (by simp [reachTree, Tree.Proper])
      (by simp [reachTree, Tree.ArityLe, opts, cx])
    apply hiff.mp
    have h : checkConstraints opts.cx 7 reachTree.toPostfix = some true := by decide
    rw [h] at hb
    simpa using hb.symm

end SR.Demo
