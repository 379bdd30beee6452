import Verif.Proofs.GradTop
import Mathlib.Data.List.Forall2
/-
The values and the flag of the gradient evaluator do not depend on scalar arithmetic at all: replacing the
scalar `add`, `mul` and zero test changes gradient contents only.  Hence the value and flag part of
`evalGradTreeArray_correct` holds without `ZeroLaws`, in particular for floating point scalars.
-/
namespace SR
variable {T : Type}

/-- The same scalars with degenerate arithmetic: no zero test, products vanish, sums keep the last summand. -/
@[reducible] def erased (S : Scalar T) : Scalar T :=
  { S with add := fun _ y => y, mul := fun _ _ => S.zero, isZero := fun _ => false }

theorem erased_zeroLaws (S : Scalar T) : @ZeroLaws T (erased S) :=
  @ZeroLaws.mk T (erased S) (fun _ => rfl) (fun _ => rfl) (fun _ h => by cases h)

/-- Both panic, or both return related results. -/
def ORel {α β : Type} (R : α → β → Prop) : Option α → Option β → Prop
  | none, none => True
  | some a, some b => R a b
  | _, _ => False

theorem ORel.mapM {α β γ : Type} {R : β → γ → Prop} {f : α → Option β} {g : α → Option γ} {l : List α}
    (h : ∀ x ∈ l, ORel R (f x) (g x)) : ORel (List.Forall₂ R) (l.mapM f) (l.mapM g) := by
  induction l with
  | nil => exact .nil
  | cons a l ih =>
    have h1 := h a (by simp)
    have h2 := ih fun x hx => h x (by simp [hx])
    rw [List.mapM_cons, List.mapM_cons]
    revert h1 h2
    cases f a <;> cases g a <;> cases l.mapM f <;> cases l.mapM g <;> intro h1 h2 <;>
      first | trivial | exact h1.elim | exact h2.elim | exact .cons h1 h2

/-- Equal lengths. -/
def SameLen (a b : List T) : Prop := a.length = b.length

theorem flatten_sameLen {a b : List (List T)} (h : List.Forall₂ SameLen a b) :
    a.flatten.length = b.flatten.length := by
  induction h with
  | nil => rfl
  | cons h _ ih => simp only [List.flatten_cons, List.length_append, ih]; rw [h]

/-- The same class and size of derivative argument. -/
def SrcShape : SrcRef T → SrcRef T → Prop
  | .slice a, .slice b => a.length = b.length
  | .const _, .const _ => True
  | _, _ => False

/-- The same class and size of gradient argument. -/
def GradShape : GradRef T → GradRef T → Prop
  | .slice a, .slice b => a.length = b.length
  | .basis j, .basis k => j = k
  | .zero, .zero => True
  | _, _ => False

section
variable (S : Scalar T)

theorem gradUnaryLoop_erase {n : Nat} {x dx dx' : SrcRef T} (hx : x.Good n) (h : SrcShape dx dx')
    (p : List T → Nat → T) :
    ORel SameLen (@gradUnaryLoop T S n x dx p) (@gradUnaryLoop T (erased S) n x dx' p) := by
  cases x <;> cases dx <;> cases dx' <;> simp_all only [SrcShape, SrcRef.Good, gradUnaryLoop]
  all_goals first
    | trivial
    | (simp only [ORel, SameLen, List.length_zipWith]; omega)
    | (split <;> simp_all [ORel, SameLen])

theorem gradBinaryLoop_erase {n : Nat} {x y dx dx' dy dy' : SrcRef T}
    (h : SrcShape dx dx') (h' : SrcShape dy dy') (p : List T → Nat → T) :
    ORel SameLen (@gradBinaryLoop T S n x y dx dy p) (@gradBinaryLoop T (erased S) n x y dx' dy' p) := by
  cases x <;> cases y <;> cases dx <;> cases dx' <;> cases dy <;> cases dy' <;>
    simp_all only [SrcShape, gradBinaryLoop]
  all_goals first
    | trivial
    | (simp only [ORel, SameLen, List.length_zipWith, List.length_zip, List.length_map,
        List.length_replicate]; try omega)

theorem gradDirView_erase {g g' : GradRef T} (h : GradShape g g') (dir n : Nat) :
    ORel SrcShape (@gradDirView T S g dir n) (@gradDirView T (erased S) g' dir n) := by
  cases g <;> cases g' <;> simp_all only [GradShape, gradDirView]
  · next a b =>
    unfold slice?
    rw [h]
    split
    · simp only [Option.map_some, ORel, SrcShape, List.length_take, List.length_drop, h]
    · trivial
  · trivial
  · trivial

theorem gradAt_erase {g g' : GradRef T} (h : GradShape g g') (dir r n : Nat) :
    ORel (fun _ _ => True) (@gradAt T S g dir r n) (@gradAt T (erased S) g' dir r n) := by
  cases g <;> cases g' <;> simp_all only [GradShape, gradAt]
  · next a b =>
    by_cases hr : dir * n + r < b.length
    · rw [List.getElem?_eq_getElem (by omega), List.getElem?_eq_getElem hr]; trivial
    · rw [List.getElem?_eq_none (by omega), List.getElem?_eq_none (by omega)]; trivial
  · trivial
  · trivial

theorem ORel.bind {α β γ δ : Type} {R : α → β → Prop} {Q : γ → δ → Prop} {a : Option α} {b : Option β}
    {f : α → Option γ} {g : β → Option δ} (h : ORel R a b)
    (h' : ∀ x y, a = some x → b = some y → R x y → ORel Q (f x) (g y)) : ORel Q (a.bind f) (b.bind g) := by
  cases a <;> cases b <;> simp_all [ORel]

theorem ORel.map {α β γ δ : Type} {R : α → β → Prop} {Q : γ → δ → Prop} {a : Option α} {b : Option β}
    {f : α → γ} {g : β → δ} (h : ORel R a b)
    (h' : ∀ x y, R x y → Q (f x) (g y)) : ORel Q (a.map f) (b.map g) := by
  cases a <;> cases b <;> simp_all [ORel]

/-- Same value column and flag, gradient slabs of the same length. -/
def KRel (a b : List T × List T × Bool) : Prop := a.1 = b.1 ∧ a.2.1.length = b.2.1.length ∧ a.2.2 = b.2.2

theorem finishDiff_erase (opts : EvalOptions) (n m : Nat) (out : List T) {der der' : List T} (c : Bool)
    (h : der.length = der'.length) :
    KRel (@finishDiff T S opts n m out der c) (@finishDiff T (erased S) opts n m out der' c) := by
  have e : @allFinite T (erased S) out = @allFinite T S out := rfl
  simp only [finishDiff, e]
  split
  · split
    · exact ⟨rfl, rfl, rfl⟩
    · exact ⟨rfl, h, rfl⟩
  · exact ⟨rfl, h, rfl⟩

theorem replicate_good {n : Nat} {l : List T} (h : l.length = n) (z : T) :
    (List.replicate n z).length = l.length := by simp [h]

theorem gradBinaryLoop_const_length {n : Nat} {x y : SrcRef T} (hx : x.Good n) (hy : y.Good n) (d e : T)
    (p : List T → Nat → T) (S : Scalar T) :
    ∃ l, @gradBinaryLoop T S n x y (.const d) (.const e) p = some l ∧ l.length = n := by
  cases x <;> cases y <;> simp_all [SrcRef.Good, gradBinaryLoop]

theorem gradNary_erase {n nDir : Nat} (eval : List T → T) (p : List T → Nat → T) {args : List (SrcRef T)}
    {gs gs' : List (GradRef T)} (hargs : ∀ a ∈ args, a.Good n) (hg : List.Forall₂ GradShape gs gs')
    (opts : EvalOptions) :
    ORel KRel (@gradNary T S eval p n nDir args gs opts) (@gradNary T (erased S) eval p n nDir args gs' opts) := by
  have big : ∀ (args : List (SrcRef T)) (gs gs' : List (GradRef T)), List.Forall₂ GradShape gs gs' →
      ORel KRel
      (if n = 0 then none else
        match (List.range n).mapM (fun row => (args.mapM (fun a : SrcRef T => a.get? row)).map eval),
          (List.range nDir).mapM (fun dir => (List.range n).mapM fun row =>
            (args.mapM (fun a : SrcRef T => a.get? row)).bind fun vals =>
              (gs.mapM (fun g => @gradAt T S g dir row n)).map fun ds =>
                @accumPartials T S (p vals) ds 0 S.zero) with
        | some out, some slabs => some (@finishDiff T S opts n (nDir * n) out slabs.flatten true)
        | _, _ => none)
      (if n = 0 then none else
        match (List.range n).mapM (fun row => (args.mapM (fun a : SrcRef T => a.get? row)).map eval),
          (List.range nDir).mapM (fun dir => (List.range n).mapM fun row =>
            (args.mapM (fun a : SrcRef T => a.get? row)).bind fun vals =>
              (gs'.mapM (fun g => @gradAt T (erased S) g dir row n)).map fun ds =>
                @accumPartials T (erased S) (p vals) ds 0 S.zero) with
        | some out, some slabs => some (@finishDiff T (erased S) opts n (nDir * n) out slabs.flatten true)
        | _, _ => none) := by
    intro args gs gs' hg
    have hslab : ORel (List.Forall₂ SameLen)
        ((List.range nDir).mapM (fun dir => (List.range n).mapM fun row =>
            (args.mapM (fun a : SrcRef T => a.get? row)).bind fun vals =>
              (gs.mapM (fun g => @gradAt T S g dir row n)).map fun ds =>
                @accumPartials T S (p vals) ds 0 S.zero))
        ((List.range nDir).mapM (fun dir => (List.range n).mapM fun row =>
            (args.mapM (fun a : SrcRef T => a.get? row)).bind fun vals =>
              (gs'.mapM (fun g => @gradAt T (erased S) g dir row n)).map fun ds =>
                @accumPartials T (erased S) (p vals) ds 0 S.zero)) := by
      apply ORel.mapM
      intro dir _
      have h1 : ORel (List.Forall₂ fun _ _ : T => True)
          ((List.range n).mapM fun row =>
            (args.mapM (fun a : SrcRef T => a.get? row)).bind fun vals =>
              (gs.mapM (fun g => @gradAt T S g dir row n)).map fun ds =>
                @accumPartials T S (p vals) ds 0 S.zero)
          ((List.range n).mapM fun row =>
            (args.mapM (fun a : SrcRef T => a.get? row)).bind fun vals =>
              (gs'.mapM (fun g => @gradAt T (erased S) g dir row n)).map fun ds =>
                @accumPartials T (erased S) (p vals) ds 0 S.zero) := by
        apply ORel.mapM
        intro row _
        cases args.mapM (fun a : SrcRef T => a.get? row) with
        | none => trivial
        | some vals =>
          simp only [Option.bind_some]
          refine ORel.map (R := fun _ _ => True) ?_ (fun _ _ _ => trivial)
          induction hg with
          | nil => trivial
          | cons h _ ih =>
            rw [List.mapM_cons, List.mapM_cons]
            have := gradAt_erase S h dir row n
            revert this ih
            rename_i g g' l l' _
            cases @gradAt T S g dir row n <;> cases @gradAt T (erased S) g' dir row n <;>
              cases List.mapM (fun g => @gradAt T S g dir row n) l <;>
              cases List.mapM (fun g => @gradAt T (erased S) g dir row n) l' <;> simp [ORel]
      revert h1
      cases (List.range n).mapM fun row =>
            (args.mapM (fun a : SrcRef T => a.get? row)).bind fun vals =>
              (gs.mapM (fun g => @gradAt T S g dir row n)).map fun ds =>
                @accumPartials T S (p vals) ds 0 S.zero <;>
      cases (List.range n).mapM fun row =>
            (args.mapM (fun a : SrcRef T => a.get? row)).bind fun vals =>
              (gs'.mapM (fun g => @gradAt T (erased S) g dir row n)).map fun ds =>
                @accumPartials T (erased S) (p vals) ds 0 S.zero <;>
        simp only [ORel, imp_self, SameLen]
      exact fun h => h.length_eq
    split
    · trivial
    · revert hslab
      cases (List.range n).mapM (fun row => (args.mapM (fun a : SrcRef T => a.get? row)).map eval) with
      | none => intro; trivial
      | some out =>
        generalize (List.range nDir).mapM (fun dir => (List.range n).mapM fun row =>
            (args.mapM (fun a : SrcRef T => a.get? row)).bind fun vals =>
              (gs.mapM (fun g => @gradAt T S g dir row n)).map fun ds =>
                @accumPartials T S (p vals) ds 0 S.zero) = A
        generalize (List.range nDir).mapM (fun dir => (List.range n).mapM fun row =>
            (args.mapM (fun a : SrcRef T => a.get? row)).bind fun vals =>
              (gs'.mapM (fun g => @gradAt T (erased S) g dir row n)).map fun ds =>
                @accumPartials T (erased S) (p vals) ds 0 S.zero) = B
        cases A <;> cases B <;> intro h
        · trivial
        · exact h.elim
        · exact h.elim
        · exact finishDiff_erase S opts n _ out true (flatten_sameLen h)
  match args, gs, gs', hg with
  | [x], [g], [g'], .cons h .nil =>
    simp only [gradNary]
    refine ORel.map (R := List.Forall₂ SameLen) ?_ (fun a b hab =>
      finishDiff_erase S opts n _ _ true (flatten_sameLen hab))
    apply ORel.mapM
    intro dir _
    exact ORel.bind (gradDirView_erase S h dir n) fun a b _ _ hab =>
      gradUnaryLoop_erase S (hargs x (by simp)) hab p
  | [x, y], [g, k], [g', k'], .cons h (.cons h' .nil) =>
    simp only [gradNary]
    refine ORel.map (R := List.Forall₂ SameLen) ?_ (fun a b hab =>
      finishDiff_erase S opts n _ _ true (flatten_sameLen hab))
    apply ORel.mapM
    intro dir _
    refine ORel.bind (gradDirView_erase S h dir n) fun a b _ _ hab => ?_
    refine ORel.bind (gradDirView_erase S h' dir n) fun c d _ _ hcd => ?_
    have hb := gradBinaryLoop_erase S (n := n) (x := x) (y := y) hab hcd p
    cases a with
    | slice a =>
      cases b with
      | const _ => exact hab.elim
      | slice b => exact hb
    | const a =>
      cases b with
      | slice _ => exact hab.elim
      | const b =>
        cases c with
        | slice c =>
          cases d with
          | const _ => exact hcd.elim
          | slice d => exact hb
        | const c =>
          cases d with
          | slice _ => exact hcd.elim
          | const d =>
            simp only [Bool.false_and, Bool.false_eq_true, if_false]
            split
            · obtain ⟨l, h1, h2⟩ := gradBinaryLoop_const_length (hargs x (by simp)) (hargs y (by simp)) b d p (erased S)
              rw [h1]; simp [ORel, SameLen, h2]
            · exact hb
  | [], gs, gs', hg => exact big [] gs gs' hg
  | [x], [], [], hg => exact big _ _ _ hg
  | [x], _ :: _ :: _, _ :: _ :: _, hg => exact big _ _ _ hg
  | [x, y], [], [], hg => exact big _ _ _ hg
  | [x, y], [_], [_], hg => exact big _ _ _ hg
  | [x, y], _ :: _ :: _ :: _, _ :: _ :: _ :: _, hg => exact big _ _ _ hg
  | _ :: _ :: _ :: _, gs, gs', hg => exact big _ _ _ hg

/-- States with the same value buffer and gradient buffers of the same length. -/
def StRel (a b : List T × List T) : Prop := a.1 = b.1 ∧ a.2.length = b.2.length

theorem resolveValSrc_good {a : Src} {xd : List T} {n : Nat} {cs : List T} {d : Nat} {b c : List T}
    {r : SrcRef T} (h : resolveValSrc a xd n cs d b c = some r) : r.Good n := by
  cases a with
  | var f =>
    simp only [resolveValSrc, Option.map_eq_some_iff] at h
    obtain ⟨v, hv, rfl⟩ := h; exact slice?_length hv
  | const k =>
    simp only [resolveValSrc, Option.map_eq_some_iff] at h
    obtain ⟨v, hv, rfl⟩ := h; trivial
  | slot k =>
    simp only [resolveValSrc] at h
    split at h
    · simp only [Option.map_eq_some_iff] at h
      obtain ⟨v, hv, rfl⟩ := h; exact slice?_length hv
    · split at h
      · simp only [Option.map_eq_some_iff] at h
        obtain ⟨v, hv, rfl⟩ := h; exact slice?_length hv
      · cases h

theorem slice?_erase {a b : List T} (h : a.length = b.length) (i n : Nat) :
    ORel SameLen (slice? a i n) (slice? b i n) := by
  unfold slice?
  rw [h]
  split
  · simp [ORel, SameLen, h]
  · trivial

theorem resolveGradSrc_erase (a : Src) (vr : Bool) (d : Nat) {b b' c c' : List T} (hb : b.length = b'.length)
    (hc : c.length = c'.length) (st : Nat) :
    ORel GradShape (resolveGradSrc a vr d b c st) (resolveGradSrc a vr d b' c' st) := by
  cases a with
  | var f => cases vr <;> simp [resolveGradSrc, ORel, GradShape]
  | const k => cases vr <;> simp [resolveGradSrc, ORel, GradShape]
  | slot k =>
    simp only [resolveGradSrc]
    split
    · exact ORel.map (slice?_erase hb _ _) fun _ _ h => h
    · split
      · exact ORel.map (slice?_erase hc _ _) fun _ _ h => h
      · trivial

theorem forall2_fst {R : SrcRef T × GradRef T → SrcRef T × GradRef T → Prop}
    (hR : ∀ a b, R a b → a.1 = b.1 ∧ GradShape a.2 b.2 ∧ a.1.Good n) {l l' : List (SrcRef T × GradRef T)}
    (h : List.Forall₂ R l l') : l.map Prod.fst = l'.map Prod.fst ∧
      List.Forall₂ GradShape (l.map Prod.snd) (l'.map Prod.snd) ∧ ∀ a ∈ l.map Prod.fst, a.Good n := by
  induction h with
  | nil => exact ⟨rfl, .nil, by simp⟩
  | cons h _ ih =>
    obtain ⟨h1, h2, h3⟩ := hR _ _ h
    obtain ⟨i1, i2, i3⟩ := ih
    refine ⟨by simp [h1, i1], .cons h2 i2, ?_⟩
    intro a ha
    simp only [List.map_cons, List.mem_cons] at ha
    rcases ha with rfl | ha
    · exact h3
    · exact i3 a ha

theorem gradInstr_erase (ops : OpSet T) (xd cs : List T) (n nDir : Nat) (vr : Bool) (opts : EvalOptions)
    {s s' : List T × List T} (hs : StRel s s') (i : Instr) :
    ORel (fun a b => StRel a.1 b.1 ∧ a.2 = b.2) (@gradInstr T S ops xd cs n nDir vr opts s i)
      (@gradInstr T (erased S) ops xd cs n nDir vr opts s' i) := by
  obtain ⟨v, g⟩ := s
  obtain ⟨v', g'⟩ := s'
  obtain ⟨rfl, hg⟩ := hs
  simp only at hg
  simp only [gradInstr]
  rw [hg]
  split
  · have hm : ORel (List.Forall₂ fun a b : SrcRef T × GradRef T => a.1 = b.1 ∧ GradShape a.2 b.2 ∧ a.1.Good n)
        (i.args.mapM (fun a => (resolveValSrc a xd n cs i.dst (v.take (i.dst * n)) (v.drop (i.dst * n + n))).bind fun w =>
          (resolveGradSrc a vr i.dst (g.take (i.dst * (n * nDir))) (g.drop (i.dst * (n * nDir) + n * nDir)) (n * nDir)).map
            fun d => (w, d)))
        (i.args.mapM (fun a => (resolveValSrc a xd n cs i.dst (v.take (i.dst * n)) (v.drop (i.dst * n + n))).bind fun w =>
          (resolveGradSrc a vr i.dst (g'.take (i.dst * (n * nDir))) (g'.drop (i.dst * (n * nDir) + n * nDir)) (n * nDir)).map
            fun d => (w, d))) := by
      apply ORel.mapM
      intro a _
      cases hv : resolveValSrc a xd n cs i.dst (v.take (i.dst * n)) (v.drop (i.dst * n + n)) with
      | none => trivial
      | some w =>
        simp only [Option.bind_some]
        exact ORel.map (resolveGradSrc_erase a vr i.dst (by simp [hg]) (by simp [hg]) _)
          fun x y h => ⟨rfl, h, resolveValSrc_good hv⟩
    revert hm
    generalize (i.args.mapM (fun a => (resolveValSrc a xd n cs i.dst (v.take (i.dst * n)) (v.drop (i.dst * n + n))).bind fun w =>
          (resolveGradSrc a vr i.dst (g.take (i.dst * (n * nDir))) (g.drop (i.dst * (n * nDir) + n * nDir)) (n * nDir)).map
            fun d => (w, d))) = A
    generalize (i.args.mapM (fun a => (resolveValSrc a xd n cs i.dst (v.take (i.dst * n)) (v.drop (i.dst * n + n))).bind fun w =>
          (resolveGradSrc a vr i.dst (g'.take (i.dst * (n * nDir))) (g'.drop (i.dst * (n * nDir) + n * nDir)) (n * nDir)).map
            fun d => (w, d))) = B
    cases A <;> cases B <;> intro hm
    · trivial
    · exact hm.elim
    · exact hm.elim
    · next a b =>
      obtain ⟨h1, h2, h3⟩ := forall2_fst (n := n) (fun _ _ h => h) hm
      simp only
      split
      · have hk := gradNary_erase S (n := n) (nDir := nDir) (ops.eval i.arity i.op) (ops.partial_ i.arity i.op) h3 h2 opts
        rw [← h1]
        revert hk
        generalize @gradNary T S (ops.eval i.arity i.op) (ops.partial_ i.arity i.op) n nDir (a.map Prod.fst) (a.map Prod.snd) opts = A
        generalize @gradNary T (erased S) (ops.eval i.arity i.op) (ops.partial_ i.arity i.op) n nDir (a.map Prod.fst) (b.map Prod.snd) opts = B
        cases A <;> cases B <;> intro hk
        · trivial
        · exact hk.elim
        · exact hk.elim
        · next x y =>
          obtain ⟨x1, x2, x3⟩ := x
          obtain ⟨y1, y2, y3⟩ := y
          obtain ⟨k1, k2, k3⟩ := hk
          simp only at k1 k2 k3
          subst k1; subst k3
          refine ⟨⟨rfl, ?_⟩, rfl⟩
          simp [hg, k2]
      · trivial
  · trivial

/-- Related outcomes of the instruction loop. -/
def ExRel {σ : Type} (R : σ → σ → Prop) : ExecRes σ → ExecRes σ → Prop
  | .exited a, .exited b => R a b
  | .done a c, .done b d => R a b ∧ c = d
  | _, _ => False

theorem instrLoop_erase {σ : Type} {R : σ → σ → Prop} (early : Bool)
    {f g : σ → Instr → Option (σ × Bool)}
    (h : ∀ s s' i, R s s' → ORel (fun a b => R a.1 b.1 ∧ a.2 = b.2) (f s i) (g s' i)) (is : List Instr) :
    ∀ s s' c, R s s' → ORel (ExRel R) (instrLoop early f is s c) (instrLoop early g is s' c) := by
  induction is with
  | nil => intro s s' c hs; exact ⟨hs, rfl⟩
  | cons i is ih =>
    intro s s' c hs
    have := h s s' i hs
    simp only [instrLoop]
    revert this
    cases f s i <;> cases g s' i <;> intro h1
    · trivial
    · exact h1.elim
    · exact h1.elim
    · next a b =>
      obtain ⟨a1, a2⟩ := a
      obtain ⟨b1, b2⟩ := b
      obtain ⟨h2, h3⟩ := h1
      simp only at h2 h3
      subst h3
      simp only
      split
      · exact h2
      · exact ih _ _ _ h2

/-- Contexts equal up to the contents of the gradient buffer. -/
structure CtxRel (a b : DContext T) : Prop where
  val : a.val = b.val
  nr : a.der.nrows = b.der.nrows
  nc : a.der.ncols = b.der.ncols
  len : a.der.data.length = b.der.data.length
  rows : a.nRows = b.nRows
  plan : a.plan = b.plan
  nodes : a.planNodesLen = b.planNodesLen
  cons : a.planNConsts = b.planNConsts
  feats : a.planNFeatures = b.planNFeatures

theorem evalGradTreeArray_erase (ops : OpSet T) (hash : List PNode → UInt64) (D : Nat) (e : PostfixExpr T)
    (X : Mat T) (vr : Bool) (ctx : DContext T) (opts : EvalOptions) :
    ORel (fun a b => a.1 = b.1 ∧ a.2.1.length = b.2.1.length ∧ a.2.2.1 = b.2.2.1 ∧ CtxRel a.2.2.2 b.2.2.2)
      (@evalGradTreeArray T S ops hash D e X vr ctx opts)
      (@evalGradTreeArray T (erased S) ops hash D e X vr ctx opts) := by
  simp only [evalGradTreeArray]
  split
  · have hset : ∀ m, @DContext.setup T (erased S) hash D ctx e X m = @DContext.setup T S hash D ctx e X m := fun _ => rfl
    rw [hset]
    split
    · trivial
    · next p plan ctx1 _ =>
      generalize hND : (if vr = true then X.rows else e.consts.length) = nDir
      have hl := instrLoop_erase (R := StRel) opts.earlyExit
        (f := @gradInstr T S ops X.data e.consts X.cols nDir vr opts)
        (g := @gradInstr T (erased S) ops X.data e.consts X.cols nDir vr opts)
        (fun s s' i hs => gradInstr_erase S ops _ _ _ _ _ _ hs i) plan.instrs
        (ctx1.val.data, ctx1.der.data) (ctx1.val.data, ctx1.der.data) true ⟨rfl, rfl⟩
      revert hl
      generalize instrLoop opts.earlyExit (@gradInstr T S ops X.data e.consts X.cols nDir vr opts) plan.instrs
        (ctx1.val.data, ctx1.der.data) true = A
      generalize instrLoop opts.earlyExit (@gradInstr T (erased S) ops X.data e.consts X.cols nDir vr opts) plan.instrs
        (ctx1.val.data, ctx1.der.data) true = B
      cases A <;> cases B <;> intro hl
      · trivial
      · exact hl.elim
      · exact hl.elim
      · next a b =>
        cases a <;> cases b
        · next s s' =>
          have hl : StRel s s' := hl
          exact ⟨rfl, rfl, rfl, ⟨by simp [hl.1], rfl, rfl, hl.2, rfl, rfl, rfl, rfl, rfl⟩⟩
        · exact hl.elim
        · exact hl.elim
        · next s c s' c' =>
          obtain ⟨hl, rfl⟩ := hl
          obtain ⟨v, g⟩ := s
          obtain ⟨v', g'⟩ := s'
          obtain ⟨rfl, hg⟩ := hl
          simp only at hg
          have hc : CtxRel ({ ctx1 with val := { ctx1.val with data := v }, der := { ctx1.der with data := g } } : DContext T)
            { ctx1 with val := { ctx1.val with data := v }, der := { ctx1.der with data := g' } } :=
            ⟨rfl, rfl, rfl, hg, rfl, rfl, rfl, rfl, rfl⟩
          cases hr : plan.root with
          | var f =>
            simp only
            cases slice? X.data (f * X.cols) X.cols with
            | none => trivial
            | some o =>
              simp only [Option.bind_some]
              refine ORel.map (R := fun a b => a = b) ?_ (fun a b h => ⟨rfl, by rw [h], rfl, hc⟩)
              cases vr
              · rfl
              · simp only [if_true]; split
                · trivial
                · rfl
          | const k =>
            simp only
            split
            · trivial
            · next w _ =>
              have e1 : (@Scalar.isFinite T (erased S) w) = @Scalar.isFinite T S w := rfl
              rw [e1]
              split
              · exact ⟨rfl, rfl, rfl, hc⟩
              · refine ORel.map (R := fun a b => a = b) ?_ (fun a b h => ⟨rfl, by rw [h], rfl, hc⟩)
                cases vr
                · simp only [Bool.false_eq_true, if_false]; split
                  · trivial
                  · rfl
                · rfl
          | slot k =>
            simp only
            cases slice? v (k * X.cols) X.cols with
            | none => trivial
            | some o =>
              simp only [Option.bind_some]
              exact ORel.map (slice?_erase hg _ _) fun a b h => ⟨rfl, h, rfl, hc⟩
  · trivial

end

/-- The value and flag part of the gradient evaluator's correctness, with no law assumed of the scalars: it returns
(no panic) the same values and flag a row by row evaluation would, a gradient block of the right size, and leaves the
context coherent for the next call. -/
theorem evalGradTreeArray_values [S : Scalar T] (ops : OpSet T) (hash : List PNode → UInt64) {D : Nat}
    {t : Tree} (X : Mat T) (e : PostfixExpr T) (vr : Bool) (opts : EvalOptions) (ctx : DContext T)
    (hnodes : e.nodes = t.toPostfix) (hwf : t.WF ops D X.rows e.consts.length)
    (hnf : X.rows ≤ u16Max) (hnc : e.consts.length ≤ u16Max) (hops : t.numOps ≤ u16Max)
    (hn : X.cols ≠ 0) (hrows : ctx.nRows = X.cols) (hscr : ctx.ScratchWF)
    (hcoh : ctx.Coherent hash D e X) :
    ∃ g ctx', evalGradTreeArray ops hash D e X vr ctx opts
      = some (if opts.earlyExit && !gflagSpec ops X e.consts opts t then
            List.replicate X.cols Scalar.nan
          else colSpec ops X e.consts t, g, gflagSpec ops X e.consts opts t, ctx') ∧
      g.length = nDirOf X e.consts vr * X.cols ∧
      ctx'.ScratchWF ∧ ctx'.nRows = X.cols ∧
      ctx'.plan = compilePlan hash D e.nodes X.rows e.consts.length ∧
      (ctx.needsRecompile hash e X = true →
        ctx'.planNodesLen = e.nodes.length ∧ ctx'.planNConsts = e.consts.length ∧
        ctx'.planNFeatures = X.rows) ∧
      (ctx.needsRecompile hash e X = false →
        ctx'.planNodesLen = ctx.planNodesLen ∧ ctx'.planNConsts = ctx.planNConsts ∧
        ctx'.planNFeatures = ctx.planNFeatures) := by
  obtain ⟨c2, h, h1, h2, h3, h4, h5, h6⟩ := @evalGradTreeArray_correct T (erased S) (erased_zeroLaws S) ops hash D t X e vr opts ctx
    hnodes hwf hnf hnc hops hn hrows hscr hcoh
  have her := evalGradTreeArray_erase S ops hash D e X vr ctx opts
  rw [h] at her
  revert her
  cases hA : evalGradTreeArray ops hash D e X vr ctx opts with
  | none => intro h; exact h.elim
  | some r =>
    obtain ⟨r1, r2, r3, r4⟩ := r
    rintro ⟨k1, k2, k3, k4⟩
    refine ⟨r2, r4, ?_, ?_, ⟨?_, ?_⟩, ?_, ?_, ?_, ?_⟩
    · simp only at k1 k3; rw [k1, k3]; rfl
    · simp only at k2; rw [k2]; split
      · simp
      · simp [gradSpec, List.length_flatMap, List.map_const']
    · have := k4.val; simp only at this; rw [this]; exact h1.1
    · have a := k4.nr; have b := k4.nc; have c := k4.len; simp only at a b c; unfold Buf.WF; rw [a, b, c]; exact h1.2
    · rw [k4.rows, h2]
    · rw [k4.plan, h3]
    · rw [k4.nodes, k4.cons, k4.feats]; exact h5
    · rw [k4.nodes, k4.cons, k4.feats]; exact h6

/-! ### the result does not depend on what the buffers contained -/
section Free
variable [S : Scalar T] (ops : OpSet T) (X : Mat T) (consts : List T) (vr : Bool) (opts : EvalOptions)

theorem GradShape.refl (g : GradRef T) : GradShape g g := by cases g <;> simp [GradShape]

theorem gradKern_some (hn : X.cols ≠ 0) (nDir : Nat) {a o : Nat}
    {args : List (SrcRef T × GradRef T)} (hne : args ≠ [])
    (hk : ops.known a o = true) (h : ∀ x ∈ args, GGood X.cols nDir x) :
    ∃ r, gradKern ops X opts nDir a o args = some r ∧ r.1.1.length = X.cols ∧ r.1.2.length = X.cols * nDir := by
  have h1 := @gradKern_eq T (erased S) ops X opts (erased_zeroLaws S) hn nDir a o args hne hk h
  have hl := @gradK_length T (erased S) ops X opts nDir a o args
  have her := gradNary_erase S (n := X.cols) (nDir := nDir) (ops.eval a o) (ops.partial_ a o)
    (args := args.map Prod.fst) (gs := args.map Prod.snd) (gs' := args.map Prod.snd)
    (by intro x hx; obtain ⟨y, hy, rfl⟩ := List.mem_map.mp hx; exact (h y hy).1)
    (List.forall₂_same.mpr fun g _ => GradShape.refl g) opts
  simp only [gradKern, hk, if_true] at h1 ⊢
  revert her h1
  cases hA : gradNary (ops.eval a o) (ops.partial_ a o) X.cols nDir (args.map Prod.fst) (args.map Prod.snd) opts with
  | none =>
    cases @gradNary T (erased S) (ops.eval a o) (ops.partial_ a o) X.cols nDir (args.map Prod.fst) (args.map Prod.snd) opts with
    | none => intro _ h1; cases h1
    | some _ => intro h; exact h.elim
  | some r =>
    cases @gradNary T (erased S) (ops.eval a o) (ops.partial_ a o) X.cols nDir (args.map Prod.fst) (args.map Prod.snd) opts with
    | none => intro h; exact h.elim
    | some q =>
      rintro ⟨k1, k2, k3⟩ h1
      simp only [Option.map_some, Option.some.injEq] at h1
      rw [← h1] at hl
      exact ⟨_, rfl, by simp only [k1]; exact hl.1, by simp only [k2]; exact hl.2⟩

/-- What the kernel computes. -/
def gradKC (nDir a o : Nat) (args : List (SrcRef T × GradRef T)) : (List T × List T) × Bool :=
  (gradKern ops X opts nDir a o args).getD (([], []), false)

def gradLawfulC (hn : X.cols ≠ 0) (nDir N : Nat) :
    (pairMachine GradRef.slice X.cols (X.cols * nDir) N (gradAVar X vr) (gradAConst consts vr)
      (gradKern ops X opts nDir) opts.earlyExit).Lawful X.rows consts.length ops.known :=
  pairLawful GradRef.slice X.cols (X.cols * nDir) N (gradAVar X vr)
    (gradAConst consts vr) (gradKern ops X opts nDir) opts.earlyExit X.rows consts.length ops.known
    (GGood X.cols nDir)
    (fun v d hv hd => ⟨hv, by rw [GradRef.Good, hd, Nat.mul_comm], by simp [GCompat, SrcRef.isConst]⟩)
    (fun f => (.slice ((List.range X.cols).map (X.at' f)), if vr then .basis f else .zero))
    (fun c => (.const (constAt consts c), if vr then .zero else .basis c))
    (gradKC ops X opts nDir)
    (fun f hf => ⟨by simp [gradAVar, Mat.data_slice X f hf],
      by cases vr <;> simp [GGood, SrcRef.Good, GCompat, SrcRef.isConst, GradRef.Good]⟩)
    (fun c hc => ⟨by simp [gradAConst, constAt, hc],
      by cases vr <;> simp [GGood, SrcRef.Good, GCompat, SrcRef.isConst, GradRef.Good, GradRef.isConst]⟩)
    (fun a o args hl ha hk hg => by
      obtain ⟨r, h1, h2, h3⟩ := gradKern_some ops X opts hn nDir
        (by intro h; subst h; simp at hl; omega) hk hg
      unfold gradKC
      rw [h1]; exact ⟨rfl, h2, h3⟩)

theorem gradLoop_runC (hn : X.cols ≠ 0) (nDir : Nat) {N : Nat} {is : List Instr}
    (hne : ∀ i ∈ is, i.args ≠ [])
    {s : List T × List T} (c : Bool)
    (hs : s.1.length = N * X.cols ∧ s.2.length = N * (X.cols * nDir)) (r)
    (h : (pairMachine GradRef.slice X.cols (X.cols * nDir) N (gradAVar X vr) (gradAConst consts vr)
      (gradKern ops X opts nDir) opts.earlyExit).exec is s c = some r) :
    instrLoop opts.earlyExit (gradInstr ops X.data consts X.cols nDir vr opts) is s c = some r := by
  refine instrLoop_of_exec (gradLawfulC ops X consts vr opts hn nDir N) _ ?_ ?_ ?_ is hne s c hs r h
  · intro s i hs hd _
    exact gradInstr_eq ops X consts vr opts nDir hs i hd
  · intro s d a x hs hx
    cases a with
    | var f =>
      simp only [Machine.resolve, pairMachine, gradAVar, Option.map_eq_some_iff] at hx
      obtain ⟨v, hv, rfl⟩ := hx
      exact ⟨slice?_length hv, by cases vr <;> trivial, by simp [GCompat, SrcRef.isConst]⟩
    | const c =>
      simp only [Machine.resolve, pairMachine, gradAConst, Option.map_eq_some_iff] at hx
      obtain ⟨v, hv, rfl⟩ := hx
      exact ⟨trivial, by cases vr <;> trivial, by cases vr <;> simp [GCompat, GradRef.isConst]⟩
    | slot k =>
      simp only [Machine.resolve, pairMachine] at hx
      split at hx
      · simp at hx
      · simp only [Option.bind_eq_some_iff, Option.map_eq_some_iff] at hx
        obtain ⟨v, hv, d, hd, rfl⟩ := hx
        exact ⟨slice?_length hv, by rw [GradRef.Good, slice?_length hd, Nat.mul_comm],
          by simp [GCompat, SrcRef.isConst]⟩
  · intro a o args p ok hne hg hk
    change gradKern ops X opts nDir a o args = some (p, ok) at hk
    by_cases hkn : ops.known a o = true
    · obtain ⟨r, h1, h2, h3⟩ := gradKern_some ops X opts hn nDir hne hkn hg
      rw [hk] at h1
      cases h1
      exact ⟨h2, h3⟩
    · simp [gradKern, hkn] at hk

end Free

/-- With any scalars: the values, the gradient and the flag do not depend on the context (the plan it caches for this
expression, the contents of its buffers). -/
theorem evalGradTreeArray_free [S : Scalar T] (ops : OpSet T) (hash : List PNode → UInt64) {D : Nat}
    {t : Tree} (X : Mat T) (e : PostfixExpr T) (vr : Bool) (opts : EvalOptions)
    (hnodes : e.nodes = t.toPostfix) (hwf : t.WF ops D X.rows e.consts.length)
    (hnf : X.rows ≤ u16Max) (hnc : e.consts.length ≤ u16Max) (hops : t.numOps ≤ u16Max)
    (hn : X.cols ≠ 0) :
    ∃ out : Option (List T × List T × Bool), ∀ ctx : DContext T, ctx.nRows = X.cols → ctx.ScratchWF →
      ctx.Coherent hash D e X →
      (evalGradTreeArray ops hash D e X vr ctx opts).map (fun r => (r.1, r.2.1, r.2.2.1)) = out := by
  generalize hND : nDirOf X e.consts vr = nDir
  obtain ⟨plan, hplan, _⟩ :=
    compilePlan_of_lawful (gradLawfulC ops X e.consts vr opts hn nDir 0) hash hwf hnf hnc hops
  obtain ⟨plan', hplan', _, _, _, hrv, hrc, hexec⟩ :=
    compilePlan_of_lawful (gradLawfulC ops X e.consts vr opts hn nDir plan.nSlots) hash hwf hnf hnc hops
  rw [hplan] at hplan'
  simp only [Option.some.injEq] at hplan'
  subst hplan'
  rw [← hnodes] at hplan
  have hargs := compilePlan_args hplan
  have main : ∀ c1 c2 : DContext T, c1.nRows = X.cols → c1.ScratchWF → c1.Coherent hash D e X →
      c2.nRows = X.cols → c2.ScratchWF → c2.Coherent hash D e X →
      (evalGradTreeArray ops hash D e X vr c1 opts).map (fun r => (r.1, r.2.1, r.2.2.1))
       = (evalGradTreeArray ops hash D e X vr c2 opts).map (fun r => (r.1, r.2.1, r.2.2.1)) := by
    have one : ∀ ctx : DContext T, ctx.nRows = X.cols → ctx.ScratchWF → ctx.Coherent hash D e X →
        ∃ ctx1 : DContext T, ctx.setup hash D e X (nDir * X.cols) = some (plan, ctx1) ∧
          (ctx1.val.data.length = plan.nSlots * X.cols ∧ ctx1.der.data.length = plan.nSlots * (X.cols * nDir)) := by
      intro ctx hrows hscr hcoh
      obtain ⟨ctx1, hset, hpl1, hnr1, ⟨hv1, hv2, hv3⟩, ⟨hd1, hd2, hd3⟩, hl1, hl2⟩ :=
        DContext.setup_ok (nDir * X.cols) hplan hcoh hscr
      rw [hrows] at hv3
      exact ⟨ctx1, hset, hv3, by rw [hd3, Nat.mul_comm X.cols]⟩
    intro c1 c2 r1 s1 k1 r2 s2 k2
    obtain ⟨d1, e1, l1⟩ := one c1 r1 s1 k1
    obtain ⟨d2, e2, l2⟩ := one c2 r2 s2 k2
    have hND' : (if vr = true then X.rows else e.consts.length) = nDir := hND
    simp only [evalGradTreeArray]
    rw [if_pos r1, if_pos r2, r1, r2, hND', e1, e2]
    simp only
    have x1 := hexec (d1.val.data, d1.der.data) (Nat.le_refl _) l1
    have x2 := hexec (d2.val.data, d2.der.data) (Nat.le_refl _) l2
    by_cases hex : (opts.earlyExit &&
        !(gradLawfulC ops X e.consts vr opts hn nDir plan.nSlots).okAll t) = true
    · have hex' : ((pairMachine GradRef.slice X.cols (X.cols * nDir) plan.nSlots (gradAVar X vr)
        (gradAConst e.consts vr) (gradKern ops X opts nDir) opts.earlyExit).early &&
        !(gradLawfulC ops X e.consts vr opts hn nDir plan.nSlots).okAll t) = true := hex
      rw [if_pos hex'] at x1 x2
      obtain ⟨t1, -, x1⟩ := x1
      obtain ⟨t2, -, x2⟩ := x2
      rw [gradLoop_runC ops X e.consts vr opts hn nDir hargs true l1 _ x1,
        gradLoop_runC ops X e.consts vr opts hn nDir hargs true l2 _ x2]
      rfl
    · have hex' : ¬ ((pairMachine GradRef.slice X.cols (X.cols * nDir) plan.nSlots (gradAVar X vr)
        (gradAConst e.consts vr) (gradKern ops X opts nDir) opts.earlyExit).early &&
        !(gradLawfulC ops X e.consts vr opts hn nDir plan.nSlots).okAll t) = true := hex
      rw [if_neg hex'] at x1 x2
      obtain ⟨t1, -, x1, y1⟩ := x1
      obtain ⟨t2, -, x2, y2⟩ := x2
      rw [gradLoop_runC ops X e.consts vr opts hn nDir hargs true l1 _ x1,
        gradLoop_runC ops X e.consts vr opts hn nDir hargs true l2 _ x2]
      simp only
      cases hrt : plan.root with
      | var f =>
        simp only
        cases slice? X.data (f * X.cols) X.cols with
        | none => rfl
        | some o => simp [Option.map_map, Function.comp_def]
      | const c =>
        simp only
        cases e.consts[c]? with
        | none => rfl
        | some v =>
          simp only
          split
          · rfl
          · simp [Option.map_map, Function.comp_def]
      | slot k =>
        rw [hrt] at y1 y2
        simp only [Machine.srcVal, pairMachine, Option.bind_eq_some_iff, Option.map_eq_some_iff] at y1 y2
        obtain ⟨v1, hv1, g1, hg1, z1⟩ := y1
        obtain ⟨v2, hv2, g2, hg2, z2⟩ := y2
        rw [← z2] at z1
        simp only [Prod.mk.injEq, SrcRef.slice.injEq, GradRef.slice.injEq] at z1
        simp [hv1, hv2, hg1, hg2, z1.1, z1.2]
  by_cases hex : ∃ ctx : DContext T, ctx.nRows = X.cols ∧ ctx.ScratchWF ∧ ctx.Coherent hash D e X
  · obtain ⟨c, h1, h2, h3⟩ := hex
    exact ⟨_, fun ctx k1 k2 k3 => main ctx c k1 k2 k3 h1 h2 h3⟩
  · exact ⟨none, fun ctx k1 k2 k3 => (hex ⟨ctx, k1, k2, k3⟩).elim⟩
end SR
