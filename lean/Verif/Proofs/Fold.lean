import Verif.Model.Simplify
import Verif.Proofs.Utils
import Verif.Proofs.EvalCorrect
/-
Constant folding: the invariant of the postfix loop.
-/
namespace SR
variable {T : Type} [Scalar T]

/-- Every operator application inside the tree is finite. -/
def OpsFin (ops : OpSet T) (feat const : Nat → T) (t : Tree) : Prop :=
  ∀ o ts, Tree.op o ts ∈ t.subtrees → Scalar.isFinite (Tree.eval ops feat const (.op o ts)) = true

theorem opsFin_op {ops : OpSet T} {feat const : Nat → T} {o : Nat} {ts : List Tree} :
    OpsFin ops feat const (.op o ts) ↔ (∀ t ∈ ts, OpsFin ops feat const t) ∧
      Scalar.isFinite (Tree.eval ops feat const (.op o ts)) = true := by
  simp only [OpsFin, Tree.subtrees_op, List.mem_append, List.mem_flatten, List.mem_map,
    List.mem_singleton]
  constructor
  · intro h
    refine ⟨fun t ht o' ts' hm => h o' ts' (Or.inl ⟨_, ⟨t, ht, rfl⟩, hm⟩), h o ts (Or.inr rfl)⟩
  · rintro ⟨h1, h2⟩ o' ts' (⟨_, ⟨t, ht, rfl⟩, hm⟩ | he)
    · exact h1 t ht o' ts' hm
    · rw [he]; exact h2

theorem opsFin_leaf_var {ops : OpSet T} {feat const : Nat → T} {f : Nat} :
    OpsFin ops feat const (.var f) := by
  intro o ts h; simp at h

theorem opsFin_leaf_const {ops : OpSet T} {feat const : Nat → T} {f : Nat} :
    OpsFin ops feat const (.const f) := by
  intro o ts h; simp at h

theorem eval_congr_const {ops : OpSet T} {feat c1 c2 : Nat → T} {t : Tree}
    (h : ∀ c ∈ t.constIdxs, c1 c = c2 c) : t.eval ops feat c1 = t.eval ops feat c2 := by
  induction t using Tree.ind with
  | hv f => simp
  | hc c => simpa using h c (by simp)
  | ho o ts ih =>
    simp only [Tree.eval_op]
    congr 1
    apply List.map_congr_left
    intro u hu
    exact ih u hu fun c hc => h c (by
      rw [Tree.constIdxs_op]; exact List.mem_flatten.mpr ⟨_, List.mem_map_of_mem hu, hc⟩)

theorem opsFin_congr_const {ops : OpSet T} {feat c1 c2 : Nat → T} {t : Tree}
    (h : ∀ c ∈ t.constIdxs, c1 c = c2 c) : OpsFin ops feat c1 t ↔ OpsFin ops feat c2 t := by
  induction t using Tree.ind with
  | hv f => exact ⟨fun _ => opsFin_leaf_var, fun _ => opsFin_leaf_var⟩
  | hc c => exact ⟨fun _ => opsFin_leaf_const, fun _ => opsFin_leaf_const⟩
  | ho o ts ih =>
    rw [opsFin_op, opsFin_op, eval_congr_const h]
    have : ∀ t ∈ ts, (OpsFin ops feat c1 t ↔ OpsFin ops feat c2 t) := fun t ht =>
      ih t ht fun c hc => h c (by
        rw [Tree.constIdxs_op]; exact List.mem_flatten.mpr ⟨_, List.mem_map_of_mem ht, hc⟩)
    constructor
    · rintro ⟨a, b⟩; exact ⟨fun t ht => (this t ht).mp (a t ht), b⟩
    · rintro ⟨a, b⟩; exact ⟨fun t ht => (this t ht).mpr (a t ht), b⟩

theorem constAt_append {c : List T} (x : List T) {k : Nat} (h : k < c.length) :
    constAt (c ++ x) k = constAt c k := by
  simp [constAt, List.getElem?_append_left h]

theorem maxList_le_of_forall₂ {l l' : List Nat} (h : List.Forall₂ (· ≤ ·) l' l) :
    Tree.maxList l' ≤ Tree.maxList l := by
  induction h with
  | nil => exact Nat.le_refl _
  | cons h _ ih => simp only [Tree.maxList, List.foldr_cons] at ih ⊢; omega

theorem sum_le_of_forall₂ {l l' : List Nat} (h : List.Forall₂ (· ≤ ·) l' l) : l'.sum ≤ l.sum := by
  induction h with
  | nil => exact Nat.le_refl _
  | cons h _ ih => simp only [List.sum_cons]; omega

/-- Relation between an input subtree (constants `c0`), the emitted subtree (constants `c1`) and the
frame describing it. -/
structure FoldRel (ops : OpSet T) (c0 c1 : List T) (t t' : Tree) (fr : Frame T) : Prop where
  eval : ∀ feat, t'.eval ops feat (constAt c1) = t.eval ops feat (constAt c0)
  fin : ∀ feat, OpsFin ops feat (constAt c1) t' ↔ OpsFin ops feat (constAt c0) t
  isConst : fr.isConst = true → ∃ k, t' = .const k ∧ c1[k]? = some fr.value
  feats : ∀ f ∈ t'.features, f ∈ t.features
  opN : ∀ p ∈ t'.opNodes, p ∈ t.opNodes
  idx : ∀ c ∈ t'.constIdxs, c < c1.length
  size : t'.size ≤ t.size
  depth : t'.depth ≤ t.depth

theorem FoldRel.mono {ops : OpSet T} {c0 c1 : List T} {t t' : Tree} {fr : Frame T}
    (h : FoldRel ops c0 c1 t t' fr) (x : List T) : FoldRel ops c0 (c1 ++ x) t t' fr where
  eval feat := by
    rw [← h.eval feat]
    exact eval_congr_const fun c hc => constAt_append x (h.idx c hc)
  fin feat := by
    rw [← h.fin feat]
    exact opsFin_congr_const fun c hc => constAt_append x (h.idx c hc)
  isConst hc := by
    obtain ⟨k, h1, h2⟩ := h.isConst hc
    refine ⟨k, h1, ?_⟩
    rw [List.getElem?_append_left (List.getElem?_eq_some_iff.mp h2).1]; exact h2
  feats := h.feats
  opN := h.opN
  idx c hc := by have := h.idx c hc; simp; omega
  size := h.size
  depth := h.depth

theorem FoldRel.base {ops : OpSet T} {c0 x c1 : List T} {t t' : Tree} {fr : Frame T}
    (hc : ∀ c ∈ t.constIdxs, c < c0.length)
    (h : FoldRel ops (c0 ++ x) c1 t t' fr) : FoldRel ops c0 c1 t t' fr where
  eval feat := by
    rw [h.eval feat]
    exact eval_congr_const fun c hcc => constAt_append x (hc c hcc)
  fin feat := by
    rw [h.fin feat]
    exact opsFin_congr_const fun c hcc => constAt_append x (hc c hcc)
  isConst := h.isConst
  feats := h.feats
  opN := h.opN
  idx := h.idx
  size := h.size
  depth := h.depth

/-- What running the loop over one subtree does. -/
def FoldsTo (ops : OpSet T) (D : Nat) (opts : EvalOptions) (t : Tree) : Prop :=
  ∀ st : FoldState T, t.All (fun _ => True) (· < st.consts.length)
      (fun o a => 1 ≤ a ∧ a ≤ D ∧ ops.known a o = true) →
    ∃ (t' : Tree) (cs : List T) (fr : Frame T) (ch : Bool),
      t.toPostfix.foldlM (foldStep ops D opts) st
        = some ⟨st.nodes ++ t'.toPostfix, st.consts ++ cs, fr :: st.stack, ch⟩ ∧
      fr.start = st.nodes.length ∧
      (∀ v ∈ cs, Scalar.isFinite v = true) ∧
      FoldRel ops st.consts (st.consts ++ cs) t t' fr ∧
      (t' = t ∧ cs = [] ∧ ch = st.changed ∨ ch = true ∧ cs ≠ [] ∧ t' ≠ t)

/-- The relation for the children of a node. -/
inductive FoldRels (ops : OpSet T) (c0 c1 : List T) : List Tree → List Tree → List (Frame T) → Prop
  | nil : FoldRels ops c0 c1 [] [] []
  | cons {t t' fr ts ts' frs} : FoldRel ops c0 c1 t t' fr → FoldRels ops c0 c1 ts ts' frs →
      FoldRels ops c0 c1 (t :: ts) (t' :: ts') (fr :: frs)

namespace FoldRels
variable {ops : OpSet T} {c0 c1 : List T} {ts ts' : List Tree} {frs : List (Frame T)}

theorem lengths (h : FoldRels ops c0 c1 ts ts' frs) :
    ts'.length = ts.length ∧ frs.length = ts.length := by
  induction h with
  | nil => exact ⟨rfl, rfl⟩
  | cons _ _ ih => simp [ih]

theorem base {x : List T} (hc : ∀ t ∈ ts, ∀ c ∈ t.constIdxs, c < c0.length)
    (h : FoldRels ops (c0 ++ x) c1 ts ts' frs) : FoldRels ops c0 c1 ts ts' frs := by
  induction h with
  | nil => exact .nil
  | cons h1 _ ih =>
    exact .cons (h1.base (hc _ (by simp))) (ih fun t ht => hc t (by simp [ht]))

theorem mono {x : List T} (h : FoldRels ops c0 c1 ts ts' frs) :
    FoldRels ops c0 (c1 ++ x) ts ts' frs := by
  induction h with
  | nil => exact .nil
  | cons h1 _ ih => exact .cons (h1.mono x) ih

theorem map_eval (h : FoldRels ops c0 c1 ts ts' frs) (feat : Nat → T) :
    ts'.map (Tree.eval ops feat (constAt c1)) = ts.map (Tree.eval ops feat (constAt c0)) := by
  induction h with
  | nil => rfl
  | cons h1 _ ih => simp [h1.eval, ih]

theorem fin_all (h : FoldRels ops c0 c1 ts ts' frs) (feat : Nat → T) :
    (∀ t ∈ ts', OpsFin ops feat (constAt c1) t) ↔ (∀ t ∈ ts, OpsFin ops feat (constAt c0) t) := by
  induction h with
  | nil => simp
  | cons h1 _ ih => simp [h1.fin, ih]

theorem sizes (h : FoldRels ops c0 c1 ts ts' frs) :
    List.Forall₂ (· ≤ ·) (ts'.map Tree.size) (ts.map Tree.size) := by
  induction h with
  | nil => exact .nil
  | cons h1 _ ih => exact .cons h1.size ih

theorem depths (h : FoldRels ops c0 c1 ts ts' frs) :
    List.Forall₂ (· ≤ ·) (ts'.map Tree.depth) (ts.map Tree.depth) := by
  induction h with
  | nil => exact .nil
  | cons h1 _ ih => exact .cons h1.depth ih

theorem feats (h : FoldRels ops c0 c1 ts ts' frs) :
    ∀ f ∈ (ts'.map Tree.features).flatten, f ∈ (ts.map Tree.features).flatten := by
  induction h with
  | nil => simp
  | cons h1 _ ih =>
    intro f hf
    simp only [List.map_cons, List.flatten_cons, List.mem_append] at hf ⊢
    exact hf.imp (h1.feats f) (ih f)

theorem opN (h : FoldRels ops c0 c1 ts ts' frs) :
    ∀ f ∈ (ts'.map Tree.opNodes).flatten, f ∈ (ts.map Tree.opNodes).flatten := by
  induction h with
  | nil => simp
  | cons h1 _ ih =>
    intro f hf
    simp only [List.map_cons, List.flatten_cons, List.mem_append] at hf ⊢
    exact hf.imp (h1.opN f) (ih f)

theorem idx (h : FoldRels ops c0 c1 ts ts' frs) :
    ∀ f ∈ (ts'.map Tree.constIdxs).flatten, f < c1.length := by
  induction h with
  | nil => simp
  | cons h1 _ ih =>
    intro f hf
    simp only [List.map_cons, List.flatten_cons, List.mem_append] at hf
    exact hf.elim (h1.idx f) (ih f)

/-- If all frames are constant, the children are constant leaves with the frames' values. -/
theorem vals (h : FoldRels ops c0 c1 ts ts' frs) (hall : frs.all Frame.isConst = true)
    (feat : Nat → T) :
    ts'.map (Tree.eval ops feat (constAt c1)) = frs.map Frame.value ∧
      ∀ t ∈ ts', OpsFin ops feat (constAt c1) t := by
  induction h with
  | nil => simp
  | cons h1 _ ih =>
    simp only [List.all_cons, Bool.and_eq_true] at hall
    obtain ⟨k, rfl, hk⟩ := h1.isConst hall.1
    obtain ⟨e1, e2⟩ := ih hall.2
    refine ⟨by simp [constAt, hk, e1], ?_⟩
    intro t ht
    rcases List.mem_cons.mp ht with rfl | ht
    · exact opsFin_leaf_const
    · exact e2 t ht

theorem op {o : Nat} (h : FoldRels ops c0 c1 ts ts' frs) (s : Nat) (z : T) :
    FoldRel ops c0 c1 (.op o ts) (.op o ts') ⟨s, false, z⟩ where
  eval feat := by simp [h.map_eval, h.lengths.1]
  fin feat := by
    rw [opsFin_op, opsFin_op, h.fin_all]
    simp [h.map_eval, h.lengths.1]
  isConst hc := by simp at hc
  feats := by simpa using h.feats
  opN := by
    intro p hp
    simp only [Tree.opNodes_op, List.mem_append, List.mem_singleton, h.lengths.1] at hp ⊢
    exact hp.imp (h.opN p) id
  idx := by simpa using h.idx
  size := by simpa using sum_le_of_forall₂ h.sizes
  depth := by simpa using maxList_le_of_forall₂ h.depths

end FoldRels

theorem folds_list (ops : OpSet T) (D : Nat) (opts : EvalOptions) {ts : List Tree}
    (ih : ∀ t ∈ ts, FoldsTo ops D opts t) : ∀ st : FoldState T,
    (∀ t ∈ ts, t.All (fun _ => True) (· < st.consts.length)
      (fun o a => 1 ≤ a ∧ a ≤ D ∧ ops.known a o = true)) →
    ∃ (ts' : List Tree) (cs : List T) (frs : List (Frame T)) (ch : Bool),
      (ts.map Tree.toPostfix).flatten.foldlM (foldStep ops D opts) st
        = some ⟨st.nodes ++ (ts'.map Tree.toPostfix).flatten, st.consts ++ cs,
            frs.reverse ++ st.stack, ch⟩ ∧
      (∀ fr ∈ frs.head?, fr.start = st.nodes.length) ∧
      (∀ v ∈ cs, Scalar.isFinite v = true) ∧
      FoldRels ops st.consts (st.consts ++ cs) ts ts' frs ∧
      (ts' = ts ∧ cs = [] ∧ ch = st.changed ∨ ch = true ∧ cs ≠ [] ∧ ts' ≠ ts) := by
  induction ts with
  | nil =>
    intro st _
    exact ⟨[], [], [], st.changed, by simp, by simp, by simp, by simpa using FoldRels.nil,
      Or.inl ⟨rfl, rfl, rfl⟩⟩
  | cons t ts ihl =>
    intro st hall
    obtain ⟨t', cs1, fr, ch1, e1, h1, h2, h3, h4⟩ := ih t (by simp) st (hall t (by simp))
    have hall2 : ∀ u ∈ ts, u.All (fun _ => True) (· < (st.consts ++ cs1).length)
        (fun o a => 1 ≤ a ∧ a ≤ D ∧ ops.known a o = true) := fun u hu =>
      (hall u (by simp [hu])).mono (fun _ h => h) (fun c h => by simp; omega) (fun _ _ h => h)
    obtain ⟨ts', cs2, frs, ch2, e2, g1, g2, g3, g4⟩ := ihl (fun u hu => ih u (by simp [hu]))
      ⟨st.nodes ++ t'.toPostfix, st.consts ++ cs1, fr :: st.stack, ch1⟩ hall2
    refine ⟨t' :: ts', cs1 ++ cs2, fr :: frs, ch2, ?_, ?_, ?_, ?_, ?_⟩
    · simp only [List.map_cons, List.flatten_cons, List.foldlM_append, e1]
      simpa [List.append_assoc] using e2
    · simpa using h1
    · intro v hv
      rcases List.mem_append.mp hv with hv | hv
      · exact h2 v hv
      · exact g2 v hv
    · rw [← List.append_assoc]
      refine .cons (h3.mono cs2) (FoldRels.base ?_ g3)
      intro u hu c hc
      exact (Tree.all_iff.mp (hall u (by simp [hu]))).2.1 c hc
    · rcases h4 with ⟨rfl, rfl, rfl⟩ | ⟨rfl, h4, h5⟩
      · rcases g4 with ⟨rfl, rfl, rfl⟩ | ⟨rfl, g4, g5⟩
        · exact Or.inl ⟨rfl, rfl, rfl⟩
        · exact Or.inr ⟨rfl, by simpa using g4, by simpa using g5⟩
      · rcases g4 with ⟨rfl, rfl, rfl⟩ | ⟨rfl, g4, g5⟩
        · exact Or.inr ⟨rfl, by simpa using h4, by simpa using h5⟩
        · exact Or.inr ⟨rfl, by simp [h4], by simp [h5]⟩

theorem evalNary_consts (eval : List T → T) (vals : List T) (opts : EvalOptions) :
    ∃ out ok, evalNary eval 1 (vals.map SrcRef.const) opts = some ([out], ok) ∧
      (ok = true → Scalar.isFinite out = true → out = eval vals) := by
  have h1 : (vals.map SrcRef.const).all SrcRef.isConst = true := by
    simp [List.all_eq_true, SrcRef.isConst]
  have h2 : (vals.map SrcRef.const).mapM (fun a => a.get? 0) = some vals := by
    have := mapM_get?_const h1 0
    rw [this]; simp [SrcRef.val, Function.comp_def]
  simp only [evalNary, h1, if_true, h2]
  split
  · exact ⟨_, _, rfl, fun _ _ => rfl⟩
  · split
    · next hh =>
      refine ⟨_, _, rfl, ?_⟩
      intro h; simp [h] at hh
    · exact ⟨_, _, rfl, fun _ _ => rfl⟩

theorem foldsTo (ops : OpSet T) (D : Nat) (opts : EvalOptions) (t : Tree) :
    FoldsTo ops D opts t := by
  induction t using Tree.ind with
  | hv f =>
    intro st _
    refine ⟨.var f, [], ⟨st.nodes.length, false, Scalar.zero⟩, st.changed, ?_, rfl, by simp, ?_,
      Or.inl ⟨rfl, rfl, rfl⟩⟩
    · simp [foldStep, FoldState.keep]
    · constructor <;> simp
  | hc c =>
    intro st h
    simp only [Tree.all_const] at h
    refine ⟨.const c, [], ⟨st.nodes.length, true, st.consts[c]⟩, st.changed, ?_, rfl, by simp, ?_,
      Or.inl ⟨rfl, rfl, rfl⟩⟩
    · simp [foldStep, List.getElem?_eq_getElem h]
    · constructor <;> simp [h]
  | ho o ts ih =>
    intro st hall
    rw [Tree.all_op] at hall
    obtain ⟨⟨ha1, haD, hkn⟩, hall⟩ := hall
    obtain ⟨ts', cs, frs, ch, e, g1, g2, g3, g4⟩ := folds_list ops D opts ih st hall
    have hlen := g3.lengths
    have hne : frs ≠ [] := by
      intro h; rw [h] at hlen; simp at hlen; omega
    obtain ⟨f0, frs', rfl⟩ := List.exists_cons_of_ne_nil hne
    have hf0 : f0.start = st.nodes.length := g1 f0 (by simp)
    have hstep0 : ∀ st', foldStep ops D opts ⟨st.nodes ++ (ts'.map Tree.toPostfix).flatten,
        st.consts ++ cs, (f0 :: frs').reverse ++ st.stack, ch⟩ (.op ts.length o) = some st' →
        (Tree.op o ts).toPostfix.foldlM (foldStep ops D opts) st = some st' := by
      intro st' h
      simp only [Tree.toPostfix_op, List.foldlM_append, e, Option.bind_eq_bind, Option.bind_some]
      simpa using h
    have htake : ((f0 :: frs').reverse ++ st.stack).take ts.length = (f0 :: frs').reverse := by
      rw [List.take_append_of_le_length (by simp at hlen ⊢; omega), List.take_of_length_le]
      simp at hlen ⊢; omega
    have hdrop : ((f0 :: frs').reverse ++ st.stack).drop ts.length = st.stack := by
      have : ts.length = (f0 :: frs').reverse.length := by simp at hlen ⊢; omega
      rw [this, List.drop_left]
    have hkeepRel := g3.op (o := o) st.nodes.length Scalar.zero
    have hkeepFlag : (Tree.op o ts' = Tree.op o ts ∧ cs = [] ∧ ch = st.changed ∨
        ch = true ∧ cs ≠ [] ∧ Tree.op o ts' ≠ Tree.op o ts) := by
      rcases g4 with ⟨rfl, rfl, rfl⟩ | ⟨rfl, g4, g5⟩
      · exact Or.inl ⟨rfl, rfl, rfl⟩
      · exact Or.inr ⟨rfl, g4, by simpa using g5⟩
    have hkeep : (Tree.op o ts').toPostfix
        = (ts'.map Tree.toPostfix).flatten ++ [.op ts.length o] := by
      simp [hlen.1]
    have hlenStk : ¬ ((f0 :: frs').reverse ++ st.stack).length < ts.length := by
      simp at hlen ⊢; omega
    -- all the "keep" exits
    have keepCase : foldStep ops D opts ⟨st.nodes ++ (ts'.map Tree.toPostfix).flatten,
        st.consts ++ cs, (f0 :: frs').reverse ++ st.stack, ch⟩ (.op ts.length o)
        = some (FoldState.keep ⟨st.nodes ++ (ts'.map Tree.toPostfix).flatten,
        st.consts ++ cs, (f0 :: frs').reverse ++ st.stack, ch⟩ (.op ts.length o) st.stack f0.start) →
        ∃ (t' : Tree) (cs : List T) (fr : Frame T) (ch : Bool),
        (Tree.op o ts).toPostfix.foldlM (foldStep ops D opts) st
          = some ⟨st.nodes ++ t'.toPostfix, st.consts ++ cs, fr :: st.stack, ch⟩ ∧
        fr.start = st.nodes.length ∧ (∀ v ∈ cs, Scalar.isFinite v = true) ∧
        FoldRel ops st.consts (st.consts ++ cs) (.op o ts) t' fr ∧
        (t' = .op o ts ∧ cs = [] ∧ ch = st.changed ∨ ch = true ∧ cs ≠ [] ∧ t' ≠ .op o ts) := by
      intro h
      refine ⟨.op o ts', cs, ⟨st.nodes.length, false, Scalar.zero⟩, ch, ?_, rfl, g2, hkeepRel,
        hkeepFlag⟩
      rw [hstep0 _ h, hkeep]
      simp [FoldState.keep, hf0]
    -- unfold the step
    have hs : foldStep ops D opts ⟨st.nodes ++ (ts'.map Tree.toPostfix).flatten,
        st.consts ++ cs, (f0 :: frs').reverse ++ st.stack, ch⟩ (.op ts.length o) =
        (if !((f0 :: frs').all Frame.isConst) then some (FoldState.keep
          ⟨st.nodes ++ (ts'.map Tree.toPostfix).flatten,
            st.consts ++ cs, (f0 :: frs').reverse ++ st.stack, ch⟩ (.op ts.length o) st.stack f0.start)
        else
          let vals := (f0 :: frs').map Frame.value
          if vals.any (fun v => !(Scalar.isFinite v)) then some (FoldState.keep
            ⟨st.nodes ++ (ts'.map Tree.toPostfix).flatten,
            st.consts ++ cs, (f0 :: frs').reverse ++ st.stack, ch⟩ (.op ts.length o) st.stack f0.start)
          else if !(ops.known ts.length o) then none
          else
            match evalNary (ops.eval ts.length o) 1 (vals.map SrcRef.const) opts with
            | some ([out], ok) =>
              if !(ok && Scalar.isFinite out) then some (FoldState.keep
                ⟨st.nodes ++ (ts'.map Tree.toPostfix).flatten,
                st.consts ++ cs, (f0 :: frs').reverse ++ st.stack, ch⟩ (.op ts.length o) st.stack
                f0.start)
              else if u16Max < (st.consts ++ cs).length then some (FoldState.keep
                ⟨st.nodes ++ (ts'.map Tree.toPostfix).flatten,
                st.consts ++ cs, (f0 :: frs').reverse ++ st.stack, ch⟩ (.op ts.length o) st.stack
                f0.start)
              else some { nodes := (st.nodes ++ (ts'.map Tree.toPostfix).flatten).take f0.start
                            ++ [.const (st.consts ++ cs).length]
                          consts := (st.consts ++ cs) ++ [out]
                          stack := ⟨f0.start, true, out⟩ :: st.stack
                          changed := true }
            | _ => none) := by
      simp only [foldStep, if_neg (Nat.not_lt.mpr haD), if_neg hlenStk, htake, hdrop,
        List.reverse_reverse]
      rfl
    by_cases hconst : (f0 :: frs').all Frame.isConst = true
    · rw [hconst] at hs
      simp only [Bool.not_true, Bool.false_eq_true, if_false, hkn] at hs
      by_cases hfin : (((f0 :: frs').map Frame.value).any fun v => !(Scalar.isFinite v)) = true
      · rw [if_pos hfin] at hs
        exact keepCase hs
      · rw [if_neg hfin] at hs
        obtain ⟨out, ok, hev, hout⟩ := evalNary_consts (ops.eval ts.length o)
          ((f0 :: frs').map Frame.value) opts
        rw [hev] at hs
        simp only at hs
        by_cases hok : (!(ok && Scalar.isFinite out)) = true
        · rw [if_pos hok] at hs; exact keepCase hs
        · rw [if_neg hok] at hs
          by_cases hbig : u16Max < (st.consts ++ cs).length
          · rw [if_pos hbig] at hs; exact keepCase hs
          · rw [if_neg hbig] at hs
            simp only [Bool.not_eq_true', Bool.and_eq_false_iff, not_or, Bool.not_eq_false] at hok
            have hout' := hout hok.1 hok.2
            have hvals := g3.vals hconst
            refine ⟨.const (st.consts ++ cs).length, cs ++ [out], ⟨st.nodes.length, true, out⟩, true,
              ?_, rfl, ?_, ?_, Or.inr ⟨rfl, by simp, by simp⟩⟩
            · rw [hstep0 _ hs, hf0]
              simp
            · intro v hv
              rcases List.mem_append.mp hv with hv | hv
              · exact g2 v hv
              · simp only [List.mem_singleton] at hv; subst hv; exact hok.2
            · have hval : ∀ feat, Tree.eval ops feat (constAt st.consts) (.op o ts) = out := by
                intro feat
                rw [Tree.eval_op, ← g3.map_eval feat, (hvals feat).1, hout']
              constructor
              · intro feat
                rw [hval]
                simp only [Tree.eval_const, constAt, ← List.append_assoc]
                simp
              · intro feat
                refine ⟨fun _ => ?_, fun _ => opsFin_leaf_const⟩
                rw [opsFin_op, hval]
                exact ⟨(g3.fin_all feat).mp (hvals feat).2, hok.2⟩
              · intro _
                refine ⟨_, rfl, ?_⟩
                rw [← List.append_assoc]; simp
              · simp
              · simp
              · simp
              · simp
              · simp
    · rw [Bool.not_eq_true] at hconst
      rw [if_pos (by rw [hconst]; rfl)] at hs
      exact keepCase hs

/-- The whole pass. -/
theorem simplifyTree_run (ops : OpSet T) (D : Nat) (opts : EvalOptions) (t : Tree) (consts : List T)
    (h : t.All (fun _ => True) (· < consts.length)
      (fun o a => 1 ≤ a ∧ a ≤ D ∧ ops.known a o = true)) :
    ∃ (t' : Tree) (cs : List T) (ch : Bool) (fr : Frame T),
      simplifyTree ops D opts ⟨t.toPostfix, consts⟩ = some (⟨t'.toPostfix, consts ++ cs⟩, ch) ∧
      (∀ v ∈ cs, Scalar.isFinite v = true) ∧ FoldRel ops consts (consts ++ cs) t t' fr ∧
      (t' = t ∧ cs = [] ∧ ch = false ∨ ch = true ∧ cs ≠ [] ∧ t' ≠ t) := by
  obtain ⟨t', cs, fr, ch, e, _, h2, h3, h4⟩ := foldsTo ops D opts t ⟨[], consts, [], false⟩ h
  refine ⟨t', cs, ch, fr, ?_, h2, h3, ?_⟩
  · simp only [simplifyTree, e, Option.map_some]
    rcases h4 with ⟨rfl, rfl, rfl⟩ | ⟨rfl, _⟩ <;> simp
  · rcases h4 with ⟨rfl, rfl, rfl⟩ | ⟨rfl, h⟩
    · exact Or.inl ⟨rfl, rfl, rfl⟩
    · exact Or.inr ⟨rfl, h⟩

end SR
