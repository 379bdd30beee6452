import Verif.Proofs.EvalCorrect
import Verif.Model.Deriv
import Verif.Spec.Deriv
/-
Characterisation of the derivative kernels.
-/
namespace SR
variable {T : Type} [Scalar T]

theorem exists_range_map {s : List T} {n : Nat} (h : s.length = n) :
    ∃ f : Nat → T, s = (List.range n).map f := by
  refine ⟨fun r => s[r]?.getD Scalar.zero, ?_⟩
  apply List.ext_getElem?
  intro r
  by_cases hr : r < n
  · rw [List.getElem?_map, List.getElem?_range hr]
    simp [List.getElem?_eq_getElem (by omega : r < s.length)]
  · rw [List.getElem?_eq_none (by omega), List.getElem?_eq_none (by simpa using hr)]

theorem val_slice_map {n : Nat} {f : Nat → T} {r : Nat} (hr : r < n) :
    (SrcRef.slice ((List.range n).map f)).val r = f r := by
  simp [SrcRef.val, List.getElem?_range hr]

theorem zipWith_range {α β γ : Type} (g : α → β → γ) (n : Nat) (f1 : Nat → α) (f2 : Nat → β) :
    List.zipWith g ((List.range n).map f1) ((List.range n).map f2)
      = (List.range n).map fun r => g (f1 r) (f2 r) := by
  rw [List.zipWith_map]; exact List.zipWith_self ..

theorem zip_range {α β : Type} (n : Nat) (f1 : Nat → α) (f2 : Nat → β) :
    List.zip ((List.range n).map f1) ((List.range n).map f2)
      = (List.range n).map fun r => (f1 r, f2 r) := by
  rw [List.zip, zipWith_range]

theorem replicate_range {α : Type} (n : Nat) (c : α) :
    List.replicate n c = (List.range n).map fun _ => c := by simp [List.map_const']

theorem accumPartials_eq (p : Nat → T) (ds : List T) (j : Nat) (acc : T) :
    accumPartials p ds j acc
      = (ds.zipIdx j).foldl (fun acc dj => Scalar.add acc (Scalar.mul (p dj.2) dj.1)) acc := by
  induction ds generalizing j acc with
  | nil => simp [accumPartials]
  | cons d ds ih => simp [accumPartials, ih]

theorem accumPartials_chain (p : Nat → T) (ds : List T) :
    accumPartials p ds 0 Scalar.zero = chainSum p ds := accumPartials_eq p ds 0 _

/-- Ideal derivative column. -/
def derCol (p : List T → Nat → T) (n : Nat) (args dargs : List (SrcRef T)) : List T :=
  (List.range n).map fun r => chainSum (p (args.map (fun a => a.val r))) (dargs.map (fun a => a.val r))

/-- The argument classes that occur: a constant value has a constant derivative. -/
def Compat (x dx : SrcRef T) : Prop := x.isConst = true → dx.isConst = true

section
variable [ZeroLaws T]

theorem chain1 (p : Nat → T) (d : T) : chainSum p [d] = Scalar.mul (p 0) d := by
  simp [chainSum, ZeroLaws.zero_add]

theorem chain2 (p : Nat → T) (d e : T) :
    chainSum p [d, e] = Scalar.add (Scalar.mul (p 0) d) (Scalar.mul (p 1) e) := by
  simp [chainSum, ZeroLaws.zero_add]

theorem gradUnaryLoop_eq {n : Nat} {x dx : SrcRef T} (hx : x.Good n) (hdx : dx.Good n)
    (hc : Compat x dx) (p : List T → Nat → T) :
    gradUnaryLoop n x dx p = some (derCol p n [x] [dx]) := by
  cases x with
  | slice xs =>
    obtain ⟨f, rfl⟩ := exists_range_map hx
    cases dx with
    | slice dxs =>
      obtain ⟨g, rfl⟩ := exists_range_map hdx
      simp only [gradUnaryLoop, zipWith_range, derCol, List.map_cons, List.map_nil, chain1,
        Option.some.injEq]
      apply List.map_congr_left
      intro r hr
      rw [val_slice_map (by simpa using hr), val_slice_map (by simpa using hr)]
    | const d =>
      simp only [gradUnaryLoop, derCol, List.map_cons, List.map_nil, chain1]
      split
      · next hz =>
        rw [ZeroLaws.isZero_eq d hz, replicate_range]
        simp [SrcRef.val, ZeroLaws.mul_zero]
      · rw [List.map_map, Option.some.injEq]
        apply List.map_congr_left
        intro r hr
        rw [val_slice_map (by simpa using hr)]; rfl
  | const c =>
    cases dx with
    | slice dxs => simp [Compat, SrcRef.isConst] at hc
    | const d =>
      simp only [gradUnaryLoop, derCol, List.map_cons, List.map_nil, chain1]
      split
      · next hz =>
        rw [ZeroLaws.isZero_eq d hz, replicate_range]
        simp [SrcRef.val, ZeroLaws.mul_zero]
      · rw [replicate_range]; rfl

theorem gradBinaryLoop_eq {n : Nat} {x y dx dy : SrcRef T} (hx : x.Good n) (hdx : dx.Good n)
    (hy : y.Good n) (hdy : dy.Good n) (hc : Compat x dx) (hc' : Compat y dy)
    (p : List T → Nat → T) :
    gradBinaryLoop n x y dx dy p = some (derCol p n [x, y] [dx, dy]) := by
  have key : ∀ l, l = (List.range n).map (fun r => pair2 p (x.val r) (y.val r) (dx.val r) (dy.val r)) →
      some l = some (derCol p n [x, y] [dx, dy]) := by
    rintro l rfl
    simp [derCol, chain2, pair2]
  cases x with
  | slice xs =>
    obtain ⟨f, rfl⟩ := exists_range_map hx
    cases y with
    | slice ys =>
      obtain ⟨g, rfl⟩ := exists_range_map hy
      cases dx with
      | slice dxs =>
        obtain ⟨f', rfl⟩ := exists_range_map hdx
        cases dy with
        | slice dys =>
          obtain ⟨g', rfl⟩ := exists_range_map hdy
          simp only [gradBinaryLoop, zip_range, zipWith_range]
          apply key
          apply List.map_congr_left
          intro r hr
          simp only [val_slice_map (List.mem_range.mp hr)]
        | const e =>
          simp only [gradBinaryLoop, zip_range, zipWith_range]
          apply key
          apply List.map_congr_left
          intro r hr
          simp only [val_slice_map (List.mem_range.mp hr)]; rfl
      | const d =>
        cases dy with
        | slice dys =>
          obtain ⟨g', rfl⟩ := exists_range_map hdy
          simp only [gradBinaryLoop, zip_range, zipWith_range]
          apply key
          apply List.map_congr_left
          intro r hr
          simp only [val_slice_map (List.mem_range.mp hr)]; rfl
        | const e =>
          simp only [gradBinaryLoop, zip_range, zipWith_range]
          apply key
          apply List.map_congr_left
          intro r hr
          simp only [val_slice_map (List.mem_range.mp hr)]; rfl
    | const c =>
      cases dy with
      | slice _ => simp [Compat, SrcRef.isConst] at hc'
      | const e =>
        cases dx with
        | slice dxs =>
          obtain ⟨f', rfl⟩ := exists_range_map hdx
          simp only [gradBinaryLoop, zip_range, zipWith_range]
          apply key
          apply List.map_congr_left
          intro r hr
          simp only [val_slice_map (List.mem_range.mp hr)]; rfl
        | const d =>
          simp only [gradBinaryLoop]
          apply key
          rw [List.map_map]
          apply List.map_congr_left
          intro r hr
          simp only [val_slice_map (List.mem_range.mp hr)]; rfl
  | const c =>
    cases dx with
    | slice _ => simp [Compat, SrcRef.isConst] at hc
    | const d =>
      cases y with
      | slice ys =>
        obtain ⟨g, rfl⟩ := exists_range_map hy
        cases dy with
        | slice dys =>
          obtain ⟨g', rfl⟩ := exists_range_map hdy
          simp only [gradBinaryLoop, zip_range, zipWith_range]
          apply key
          apply List.map_congr_left
          intro r hr
          simp only [val_slice_map (List.mem_range.mp hr)]; rfl
        | const e =>
          simp only [gradBinaryLoop]
          apply key
          rw [List.map_map]
          apply List.map_congr_left
          intro r hr
          simp only [val_slice_map (List.mem_range.mp hr)]; rfl
      | const c' =>
        cases dy with
        | slice _ => simp [Compat, SrcRef.isConst] at hc'
        | const e =>
          simp only [gradBinaryLoop, replicate_range]
          apply key
          rfl
end

/-- Ideal flag of the derivative kernel: values finite; for arity at least three also derivatives. -/
def dfinOf (eval : List T → T) (p : List T → Nat → T) (n : Nat) (args dargs : List (SrcRef T)) :
    Bool :=
  allFinite (colOf eval n args) && (decide (args.length ≤ 2) || allFinite (derCol p n args dargs))

theorem diffLoop_eq {n : Nat} (eval : List T → T) (p : List T → Nat → T)
    {args dargs : List (SrcRef T)} (h : ∀ a ∈ args, a.Good n) (hd : ∀ a ∈ dargs, a.Good n)
    (opts : EvalOptions) (rows : List Nat) (hr : ∀ r ∈ rows, r < n) (c : Bool) :
    diffLoop eval p args dargs opts rows c =
      some (let vs := rows.map fun r => eval (args.map (fun a => a.val r))
        let ds := rows.map fun r => chainSum (p (args.map (fun a => a.val r))) (dargs.map (fun a => a.val r))
        if opts.checkFinite && !(allFinite vs && allFinite ds) then
          if opts.earlyExit then none else some (vs, ds, false)
        else some (vs, ds, c)) := by
  induction rows generalizing c with
  | nil => simp [diffLoop, allFinite]
  | cons r rows ih =>
    have hr' : ∀ r ∈ rows, r < n := fun x hx => hr x (by simp [hx])
    simp only [diffLoop, mapM_get?_good h (hr r (by simp)), mapM_get?_good hd (hr r (by simp)),
      ih hr', List.map_cons, allFinite, List.all_cons, accumPartials_chain]
    generalize eval (args.map fun a => a.val r) = v
    generalize chainSum (p (args.map (fun a => a.val r))) (dargs.map (fun a => a.val r)) = d
    generalize (rows.map fun r => eval (args.map (fun a => a.val r))) = vs
    generalize (rows.map fun r => chainSum (p (args.map (fun a => a.val r)))
      (dargs.map (fun a => a.val r))) = ds
    rcases Bool.eq_false_or_eq_true opts.checkFinite with h1 | h1 <;>
      rcases Bool.eq_false_or_eq_true opts.earlyExit with h2 | h2 <;>
      rcases Bool.eq_false_or_eq_true (Scalar.isFinite v) with h3 | h3 <;>
      rcases Bool.eq_false_or_eq_true (Scalar.isFinite d) with h4 | h4 <;>
      rcases Bool.eq_false_or_eq_true (vs.all Scalar.isFinite) with h5 | h5 <;>
      rcases Bool.eq_false_or_eq_true (ds.all Scalar.isFinite) with h6 | h6 <;>
      simp only [h1, h2, h3, h4, h5, h6] <;> simp

theorem finishDiff_eq (opts : EvalOptions) (n m : Nat) (out der : List T) :
    finishDiff opts n m out der true =
      (if opts.earlyExit && !(!opts.checkFinite || allFinite out) then
        List.replicate n Scalar.nan else out,
       if opts.earlyExit && !(!opts.checkFinite || allFinite out) then
        List.replicate m Scalar.nan else der,
       !opts.checkFinite || allFinite out) := by
  unfold finishDiff
  cases h1 : opts.checkFinite <;> cases h2 : opts.earlyExit <;> cases h3 : allFinite out <;> simp

theorem diffNary_eq [ZeroLaws T] {n : Nat} (eval : List T → T) (p : List T → Nat → T)
    {args : List (SrcRef T × SrcRef T)} (hne : args ≠ [])
    (h : ∀ a ∈ args, a.1.Good n ∧ a.2.Good n ∧ Compat a.1 a.2) (opts : EvalOptions) :
    diffNary eval p n (args.map Prod.fst) (args.map Prod.snd) opts =
      some (let ok := !opts.checkFinite || dfinOf eval p n (args.map Prod.fst) (args.map Prod.snd)
        (if opts.earlyExit && !ok then List.replicate n Scalar.nan
            else colOf eval n (args.map Prod.fst),
         if opts.earlyExit && !ok then List.replicate n Scalar.nan
            else derCol p n (args.map Prod.fst) (args.map Prod.snd),
         ok)) := by
  match args, hne, h with
  | [(x, dx)], _, h =>
    obtain ⟨h1, h2, h3⟩ := h _ (List.mem_singleton.mpr rfl)
    simp only [List.map_cons, List.map_nil, diffNary]
    rw [gradUnaryLoop_eq h1 h2 h3, unary_eq h1]
    simp [finishDiff_eq, dfinOf]
  | [(x, dx), (y, dy)], _, h =>
    obtain ⟨h1, h2, h3⟩ := h (x, dx) (by simp)
    obtain ⟨h4, h5, h6⟩ := h (y, dy) (by simp)
    simp only [List.map_cons, List.map_nil, diffNary]
    rw [gradBinaryLoop_eq h1 h2 h4 h5 h3 h6, binary_eq h1 h4]
    simp [finishDiff_eq, dfinOf]
  | a :: b :: c :: rest, _, h =>
    have ha : ∀ x ∈ (a :: b :: c :: rest).map Prod.fst, x.Good n := by
      intro x hx; obtain ⟨y, hy, rfl⟩ := List.mem_map.mp hx; exact (h y hy).1
    have hb : ∀ x ∈ (a :: b :: c :: rest).map Prod.snd, x.Good n := by
      intro x hx; obtain ⟨y, hy, rfl⟩ := List.mem_map.mp hx; exact (h y hy).2.1
    have e : diffNary eval p n ((a :: b :: c :: rest).map Prod.fst)
        ((a :: b :: c :: rest).map Prod.snd) opts
      = (match diffLoop eval p ((a :: b :: c :: rest).map Prod.fst)
          ((a :: b :: c :: rest).map Prod.snd) opts (List.range n) true with
        | none => none
        | some none => some (List.replicate n Scalar.nan, List.replicate n Scalar.nan, false)
        | some (some (out, der, complete)) => some (finishDiff opts n n out der complete)) := rfl
    rw [e, diffLoop_eq eval p ha hb opts (List.range n) (by simp)]
    have hl : decide (((a :: b :: c :: rest).map Prod.fst).length ≤ 2) = false := by simp
    simp only [dfinOf, hl, Bool.false_or]
    generalize hcol : colOf eval n ((a :: b :: c :: rest).map Prod.fst) = col
    generalize hder : derCol p n ((a :: b :: c :: rest).map Prod.fst)
      ((a :: b :: c :: rest).map Prod.snd) = der
    unfold colOf at hcol
    unfold derCol at hder
    rw [hcol, hder]
    rcases Bool.eq_false_or_eq_true opts.checkFinite with h1 | h1 <;>
    rcases Bool.eq_false_or_eq_true opts.earlyExit with h2 | h2 <;>
    rcases Bool.eq_false_or_eq_true (allFinite col) with h3 | h3 <;>
    rcases Bool.eq_false_or_eq_true (allFinite der) with h4 | h4 <;>
      simp [finishDiff, h1, h2, h3, h4]

theorem derCol_length (p : List T → Nat → T) (n : Nat) (args dargs : List (SrcRef T)) :
    (derCol p n args dargs).length = n := by simp [derCol]

/-! ### gradients -/

def GradRef.Good (n nDir : Nat) : GradRef T → Prop
  | .slice s => s.length = nDir * n
  | _ => True

def GradRef.isConst : GradRef T → Bool
  | .slice _ => false
  | _ => true

/-- Gradient component of an argument. -/
def GradRef.val (n : Nat) (dir r : Nat) : GradRef T → T
  | .slice s => s[dir * n + r]?.getD Scalar.zero
  | .basis k => if dir = k then Scalar.one else Scalar.zero
  | .zero => Scalar.zero

/-- The view of an argument's gradient in one direction. -/
def GradRef.view (n : Nat) (dir : Nat) : GradRef T → SrcRef T
  | .slice s => .slice ((s.drop (dir * n)).take n)
  | .basis k => .const (if dir = k then Scalar.one else Scalar.zero)
  | .zero => .const Scalar.zero

theorem gradDirView_eq {n nDir dir : Nat} {g : GradRef T} (h : g.Good n nDir) (hd : dir < nDir) :
    gradDirView g dir n = some (g.view n dir) ∧ (g.view n dir).Good n ∧
      (g.view n dir).isConst = g.isConst ∧ ∀ r, r < n → (g.view n dir).val r = g.val n dir r := by
  cases g with
  | slice s =>
    have hs : s.length = nDir * n := h
    have hle := slot_le (n := n) hd hs
    refine ⟨by simp [gradDirView, slice?, hle, GradRef.view], by simp [GradRef.view, SrcRef.Good]; omega, rfl, ?_⟩
    intro r hr
    simp [GradRef.view, SrcRef.val, GradRef.val, hr]
  | basis k => exact ⟨rfl, trivial, rfl, fun _ _ => rfl⟩
  | zero => exact ⟨rfl, trivial, rfl, fun _ _ => rfl⟩

theorem gradAt_eq {n nDir dir r : Nat} {g : GradRef T} (h : g.Good n nDir) (hd : dir < nDir)
    (hr : r < n) : gradAt g dir r n = some (g.val n dir r) := by
  cases g with
  | slice s =>
    have hs : s.length = nDir * n := h
    have hle := slot_le (n := n) hd hs
    simp [gradAt, GradRef.val, List.getElem?_eq_getElem (by omega : dir * n + r < s.length)]
  | basis k => rfl
  | zero => rfl

/-- Ideal gradient slab. -/
def gradSlab (p : List T → Nat → T) (n nDir : Nat) (args : List (SrcRef T)) (gs : List (GradRef T)) :
    List T :=
  (List.range nDir).flatMap fun dir => (List.range n).map fun r =>
    chainSum (p (args.map (fun a => a.val r))) (gs.map (fun g => g.val n dir r))

theorem mapM_some {α β : Type} {f : α → Option β} {g : α → β} {l : List α}
    (h : ∀ x ∈ l, f x = some (g x)) : l.mapM f = some (l.map g) := by
  induction l with
  | nil => rfl
  | cons a l ih =>
    rw [List.mapM_cons, h a (by simp), ih (fun x hx => h x (by simp [hx]))]; rfl

def GCompat (x : SrcRef T) (g : GradRef T) : Prop := x.isConst = true → g.isConst = true

theorem gradSlab_length (p : List T → Nat → T) (n nDir : Nat) (args : List (SrcRef T))
    (gs : List (GradRef T)) : (gradSlab p n nDir args gs).length = nDir * n := by
  simp [gradSlab, List.length_flatMap, List.map_const']

/-- Characterisation of the gradient kernel (arity ≥ 3 needs at least one row). -/
theorem gradNary_eq [ZeroLaws T] {n nDir : Nat} (hn : n ≠ 0) (eval : List T → T)
    (p : List T → Nat → T) {args : List (SrcRef T × GradRef T)} (hne : args ≠ [])
    (h : ∀ a ∈ args, a.1.Good n ∧ a.2.Good n nDir ∧ GCompat a.1 a.2) (opts : EvalOptions) :
    gradNary eval p n nDir (args.map Prod.fst) (args.map Prod.snd) opts =
      some (let ok := !opts.checkFinite || allFinite (colOf eval n (args.map Prod.fst))
        (if opts.earlyExit && !ok then List.replicate n Scalar.nan
            else colOf eval n (args.map Prod.fst),
         if opts.earlyExit && !ok then List.replicate (nDir * n) Scalar.nan
            else gradSlab p n nDir (args.map Prod.fst) (args.map Prod.snd),
         ok)) := by
  match args, hne, h with
  | [(x, g)], _, h =>
    obtain ⟨h1, h2, h3⟩ := h _ (List.mem_singleton.mpr rfl)
    simp only at h1 h2 h3
    simp only [List.map_cons, List.map_nil, gradNary]
    rw [mapM_some (g := fun dir => (List.range n).map fun r =>
      chainSum (p [x.val r]) [g.val n dir r])]
    · rw [unary_eq h1]
      simp [finishDiff_eq, gradSlab, List.flatMap_def]
    · intro dir hdir
      obtain ⟨e1, e2, e3, e4⟩ := gradDirView_eq h2 (by simpa using hdir)
      rw [e1, Option.bind_some, gradUnaryLoop_eq h1 e2 (fun hx => by rw [e3]; exact h3 hx)]
      simp only [derCol, List.map_cons, List.map_nil, Option.some.injEq]
      exact List.map_congr_left fun r hr => by rw [e4 r (by simpa using hr)]
  | [(x, g), (y, g')], _, h =>
    obtain ⟨h1, h2, h3⟩ := h (x, g) (by simp)
    obtain ⟨h4, h5, h6⟩ := h (y, g') (by simp)
    simp only at h1 h2 h3 h4 h5 h6
    simp only [List.map_cons, List.map_nil, gradNary]
    rw [mapM_some (g := fun dir => (List.range n).map fun r =>
      chainSum (p [x.val r, y.val r]) [g.val n dir r, g'.val n dir r])]
    · rw [binary_eq h1 h4]
      simp [finishDiff_eq, gradSlab, List.flatMap_def]
    · intro dir hdir
      obtain ⟨e1, e2, e3, e4⟩ := gradDirView_eq h2 (by simpa using hdir)
      obtain ⟨f1, f2, f3, f4⟩ := gradDirView_eq h5 (by simpa using hdir)
      have hb := gradBinaryLoop_eq h1 e2 h4 f2 (fun hx => by rw [e3]; exact h3 hx)
        (fun hx => by rw [f3]; exact h6 hx) p
      have hcol : derCol p n [x, y] [g.view n dir, g'.view n dir]
          = (List.range n).map fun r => chainSum (p [x.val r, y.val r]) [g.val n dir r, g'.val n dir r] := by
        simp only [derCol, List.map_cons, List.map_nil]
        exact List.map_congr_left fun r hr => by
          rw [e4 r (by simpa using hr), f4 r (by simpa using hr)]
      rw [e1, Option.bind_some, f1, Option.bind_some]
      rw [hcol] at hb
      split
      · next dxc dyc hg hg' =>
        split
        · next hz =>
          simp only [Bool.and_eq_true] at hz
          rw [replicate_range, Option.some.injEq]
          apply List.map_congr_left
          intro r hr
          have a1 := e4 r (by simpa using hr)
          have a2 := f4 r (by simpa using hr)
          rw [hg] at a1; rw [hg'] at a2
          simp only [SrcRef.val] at a1 a2
          rw [← a1, ← a2, ZeroLaws.isZero_eq _ hz.1, ZeroLaws.isZero_eq _ hz.2, chain2,
            ZeroLaws.mul_zero, ZeroLaws.mul_zero, ZeroLaws.zero_add]
        · exact hb
      · exact hb
  | a :: b :: c :: rest, _, h =>
    have ha : ∀ x ∈ (a :: b :: c :: rest).map Prod.fst, x.Good n := by
      intro x hx; obtain ⟨y, hy, rfl⟩ := List.mem_map.mp hx; exact (h y hy).1
    have hb : ∀ x ∈ (a :: b :: c :: rest).map Prod.snd, x.Good n nDir := by
      intro x hx; obtain ⟨y, hy, rfl⟩ := List.mem_map.mp hx; exact (h y hy).2.1
    generalize hA : (a :: b :: c :: rest).map Prod.fst = A at ha ⊢
    generalize hG : (a :: b :: c :: rest).map Prod.snd = G at hb ⊢
    have e : gradNary eval p n nDir A G opts
      = (if n = 0 then none else
    match (List.range n).mapM (fun row => (A.mapM (fun a : SrcRef T => a.get? row)).map eval),
      (List.range nDir).mapM (fun dir => (List.range n).mapM fun row =>
        (A.mapM (fun a : SrcRef T => a.get? row)).bind fun vals =>
          (G.mapM (fun g => gradAt g dir row n)).map fun ds =>
            accumPartials (p vals) ds 0 Scalar.zero) with
    | some out, some slabs => some (finishDiff opts n (nDir * n) out slabs.flatten true)
    | _, _ => none) := by subst hA; subst hG; rfl
    rw [e, if_neg hn]
    rw [mapM_some (g := fun r => eval (A.map fun a => a.val r)) (by
      intro r hr
      rw [mapM_get?_good ha (by simpa using hr)]; rfl)]
    rw [mapM_some (g := fun dir => (List.range n).map fun r =>
      chainSum (p (A.map fun a => a.val r)) (G.map fun g => g.val n dir r)) (by
      intro dir hdir
      apply mapM_some
      intro r hr
      rw [mapM_get?_good ha (by simpa using hr), Option.bind_some,
        mapM_some (g := fun g => g.val n dir r) (fun g hg => gradAt_eq (hb g hg)
          (by simpa using hdir) (by simpa using hr))]
      simp [accumPartials_chain])]
    simp only [finishDiff_eq, gradSlab, List.flatMap_def, colOf]
    rfl

end SR
