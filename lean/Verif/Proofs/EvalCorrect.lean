import Verif.Proofs.SlotMachine
namespace SR
variable {T : Type} [Scalar T]

/-- Value of an argument view at a row (in range). -/
def SrcRef.val : SrcRef T → Nat → T
  | .slice s, r => s[r]?.getD Scalar.zero
  | .const c, _ => c

def SrcRef.Good (n : Nat) : SrcRef T → Prop
  | .slice s => s.length = n
  | .const _ => True

theorem SrcRef.get?_good {n : Nat} {a : SrcRef T} (h : a.Good n) {r : Nat} (hr : r < n) :
    a.get? r = some (a.val r) := by
  cases a with
  | slice s =>
    have : r < s.length := by rw [h]; exact hr
    simp [SrcRef.get?, SrcRef.val, this]
  | const c => simp [SrcRef.get?, SrcRef.val]

theorem mapM_get?_good {n : Nat} {args : List (SrcRef T)} (h : ∀ a ∈ args, a.Good n) {r : Nat}
    (hr : r < n) : args.mapM (fun a => a.get? r) = some (args.map (fun a => a.val r)) := by
  induction args with
  | nil => rfl
  | cons a args ih =>
    rw [List.mapM_cons, SrcRef.get?_good (h a (by simp)) hr,
      ih (fun x hx => h x (by simp [hx]))]
    rfl

theorem mapM_get?_const {args : List (SrcRef T)} (h : args.all SrcRef.isConst = true) (r : Nat) :
    args.mapM (fun a => a.get? r) = some (args.map (fun a => a.val r)) := by
  induction args with
  | nil => rfl
  | cons a args ih =>
    simp only [List.all_cons, Bool.and_eq_true] at h
    cases a with
    | slice s => simp [SrcRef.isConst] at h
    | const c => rw [List.mapM_cons, ih h.2]; rfl

theorem map_val_const {args : List (SrcRef T)} (h : args.all SrcRef.isConst = true) (r r' : Nat) :
    args.map (fun a => a.val r) = args.map (fun a => a.val r') := by
  apply List.map_congr_left
  intro a ha
  have := List.all_eq_true.mp h a ha
  cases a with
  | slice s => simp [SrcRef.isConst] at this
  | const c => rfl

/-- The ideal result column of an operator application. -/
def colOf (eval : List T → T) (n : Nat) (args : List (SrcRef T)) : List T :=
  (List.range n).map fun r => eval (args.map (fun a => a.val r))

/-- The ideal finiteness flag of an operator application. -/
def finOf (eval : List T → T) (n : Nat) (args : List (SrcRef T)) : Bool :=
  if args.all SrcRef.isConst then Scalar.isFinite (eval (args.map (fun a => a.val 0)))
  else allFinite (colOf eval n args)

theorem naryLoop_eq {n : Nat} (eval : List T → T) {args : List (SrcRef T)}
    (h : ∀ a ∈ args, a.Good n) (opts : EvalOptions) (rows : List Nat) (hr : ∀ r ∈ rows, r < n)
    (c : Bool) :
    naryLoop eval args opts rows c =
      some (let vs := rows.map fun r => eval (args.map (fun a => a.val r))
        if opts.checkFinite && !allFinite vs then
          if opts.earlyExit then none else some (vs, false)
        else some (vs, c)) := by
  induction rows generalizing c with
  | nil => simp [naryLoop, allFinite]
  | cons r rows ih =>
    have hr' : ∀ r ∈ rows, r < n := fun x hx => hr x (by simp [hx])
    simp only [naryLoop, mapM_get?_good h (hr r (by simp)), ih hr', List.map_cons, allFinite,
      List.all_cons]
    rcases Bool.eq_false_or_eq_true opts.checkFinite with h1 | h1 <;>
      rcases Bool.eq_false_or_eq_true opts.earlyExit with h2 | h2 <;>
      rcases Bool.eq_false_or_eq_true
        (Scalar.isFinite (eval (args.map (fun a => a.val r)))) with h3 | h3 <;>
      rcases Bool.eq_false_or_eq_true
        ((rows.map fun r => eval (args.map (fun a => a.val r))).all Scalar.isFinite) with h4 | h4 <;>
      simp only [h1, h2, h3, h4] <;> simp

theorem unary_eq {n : Nat} {x : SrcRef T} (h : x.Good n) (eval : List T → T) :
    evalUnaryLoop n x (fun a => eval [a]) = colOf eval n [x] := by
  apply List.ext_getElem?
  intro r
  cases x with
  | slice s =>
    have hl : s.length = n := h
    simp only [evalUnaryLoop, colOf, List.getElem?_map, SrcRef.val, List.map_cons, List.map_nil]
    by_cases hr : r < n
    · rw [List.getElem?_eq_getElem (by omega : r < s.length), List.getElem?_range hr]
      simp [List.getElem?_eq_getElem (by omega : r < s.length)]
    · rw [List.getElem?_eq_none (by omega), List.getElem?_eq_none (by simpa using hr)]; rfl
  | const c =>
    simp only [evalUnaryLoop, colOf, List.getElem?_map, SrcRef.val, List.map_cons, List.map_nil]
    by_cases hr : r < n
    · rw [List.getElem?_range hr]; simp [hr]
    · rw [List.getElem?_eq_none (by simpa using hr), List.getElem?_eq_none (by simpa using hr)]; rfl

theorem binary_eq {n : Nat} {x y : SrcRef T} (hx : x.Good n) (hy : y.Good n) (eval : List T → T) :
    evalBinaryLoop n x y (fun a b => eval [a, b]) = colOf eval n [x, y] := by
  apply List.ext_getElem?
  intro r
  by_cases hr : r < n
  · cases x with
    | slice s =>
      have hl : s.length = n := hx
      cases y with
      | slice s' =>
        have hl' : s'.length = n := hy
        simp only [evalBinaryLoop, colOf, List.getElem?_map, SrcRef.val, List.map_cons,
          List.map_nil, List.getElem?_zipWith, List.getElem?_range hr]
        simp [List.getElem?_eq_getElem (by omega : r < s.length),
          List.getElem?_eq_getElem (by omega : r < s'.length)]
      | const c =>
        simp only [evalBinaryLoop, colOf, List.getElem?_map, SrcRef.val, List.map_cons,
          List.map_nil, List.getElem?_range hr]
        simp [List.getElem?_eq_getElem (by omega : r < s.length)]
    | const c =>
      cases y with
      | slice s' =>
        have hl' : s'.length = n := hy
        simp only [evalBinaryLoop, colOf, List.getElem?_map, SrcRef.val, List.map_cons,
          List.map_nil, List.getElem?_range hr]
        simp [List.getElem?_eq_getElem (by omega : r < s'.length)]
      | const c' =>
        simp [evalBinaryLoop, colOf, SrcRef.val, List.getElem?_range hr, hr]
  · rw [List.getElem?_eq_none, List.getElem?_eq_none]
    · simpa [colOf] using hr
    · cases x with
      | slice s =>
        have hl : s.length = n := hx
        cases y with
        | slice s' => simp [evalBinaryLoop]; omega
        | const c => simp [evalBinaryLoop]; omega
      | const c =>
        cases y with
        | slice s' => have hl' : s'.length = n := hy; simp [evalBinaryLoop]; omega
        | const c' => simp [evalBinaryLoop]; omega

theorem finishEval_eq (opts : EvalOptions) (n : Nat) (out : List T) :
    finishEval opts n out true =
      (if opts.earlyExit && !(!opts.checkFinite || allFinite out) then
        List.replicate n Scalar.nan else out, !opts.checkFinite || allFinite out) := by
  unfold finishEval
  cases h1 : opts.checkFinite <;> cases h2 : opts.earlyExit <;> cases h3 : allFinite out <;> simp

/-- Complete characterisation of the n-ary kernel on well-shaped arguments. -/
theorem evalNary_eq {n : Nat} (eval : List T → T) {args : List (SrcRef T)}
    (h : ∀ a ∈ args, a.Good n) (opts : EvalOptions) :
    evalNary eval n args opts =
      some (if opts.earlyExit && !(!opts.checkFinite || finOf eval n args) then
          List.replicate n Scalar.nan else colOf eval n args,
        !opts.checkFinite || finOf eval n args) := by
  unfold evalNary
  by_cases hc : args.all SrcRef.isConst = true
  · rw [if_pos hc]
    rw [mapM_get?_const hc]
    have hcol : colOf eval n args
        = List.replicate n (eval (args.map (fun a => a.val 0))) := by
      unfold colOf
      rw [show (fun r => eval (args.map (fun a => a.val r)))
          = (fun _ : Nat => eval (args.map (fun a => a.val 0))) from
        funext fun r => by rw [map_val_const hc r 0]]
      simp [List.map_const']
    simp only [finOf, hc, ↓reduceIte, hcol]
    cases h1 : opts.checkFinite <;> cases h2 : opts.earlyExit <;>
      cases h3 : Scalar.isFinite (eval (args.map (fun a => a.val 0))) <;> simp
  · rw [if_neg hc]
    have hfin : finOf eval n args = allFinite (colOf eval n args) := by
      unfold finOf; rw [if_neg hc]
    rw [hfin]
    match args, h, hc with
    | [], _, hc => simp at hc
    | [x], h, _ =>
      simp only
      rw [unary_eq (h x (by simp)), finishEval_eq]
    | [x, y], h, _ =>
      simp only
      rw [binary_eq (h x (by simp)) (h y (by simp)), finishEval_eq]
    | x :: y :: z :: rest, h, _ =>
      simp only
      rw [naryLoop_eq eval h opts (List.range n) (by simp)]
      simp only
      generalize hcol : colOf eval n (x :: y :: z :: rest) = col
      have hcol' : (List.range n).map (fun r => eval ((x :: y :: z :: rest).map
        (fun a => a.val r))) = col := hcol
      rw [hcol']
      rcases Bool.eq_false_or_eq_true opts.checkFinite with h1 | h1 <;>
      rcases Bool.eq_false_or_eq_true opts.earlyExit with h2 | h2 <;>
      rcases Bool.eq_false_or_eq_true (allFinite col) with h3 | h3 <;>
        simp [finishEval, h1, h2, h3]

theorem colOf_length (eval : List T → T) (n : Nat) (args : List (SrcRef T)) :
    (colOf eval n args).length = n := by simp [colOf]

/-! ### the value machine -/

/-- The evaluator as an instance of the slot machine with `N` slots. -/
def evalMachine (ops : OpSet T) (X : Mat T) (consts : List T) (opts : EvalOptions) (N : Nat) :
    Machine (List T) (List T) (SrcRef T) where
  N := N
  read s k := (slice? s (k * X.cols) X.cols).map .slice
  write s d p := writeSlot X.cols s d p
  aVar f := (slice? X.data (f * X.cols) X.cols).map .slice
  aConst c := consts[c]?.map .const
  kern a o args :=
    if ops.known a o then evalNary (ops.eval a o) X.cols args opts else none
  early := opts.earlyExit

/-- One instruction of the model equals one step of the machine. -/
theorem evalInstr_eq (ops : OpSet T) (X : Mat T) (consts : List T) (opts : EvalOptions) {N : Nat}
    {s : List T} (hs : s.length = N * X.cols) (i : Instr) (hd : i.dst < N) :
    evalInstr ops X.data consts X.cols opts s i
      = (evalMachine ops X consts opts N).step s i := by
  have hle := slot_le (n := X.cols) hd hs
  simp only [evalInstr, Machine.step]
  rw [if_pos hle, if_pos (by exact hd)]
  have hres : ∀ a ∈ i.args, resolveValSrc a X.data X.cols consts i.dst
      (s.take (i.dst * X.cols)) (s.drop (i.dst * X.cols + X.cols))
      = (evalMachine ops X consts opts N).resolve s i.dst a := by
    intro a _
    cases a with
    | var f => rfl
    | const c => rfl
    | slot k =>
      simp only [resolveValSrc, Machine.resolve, evalMachine]
      rcases Nat.lt_trichotomy k i.dst with h | h | h
      · rw [if_pos h, if_neg (by omega), slice?_before h (by omega)]
      · subst h; simp
      · rw [if_neg (by omega), if_pos h, if_neg (by omega), slice?_after h hle]
  rw [mapM_option_congr hres]
  cases (i.args.mapM ((evalMachine ops X consts opts N).resolve s i.dst)) with
  | none => rfl
  | some args =>
    simp only [evalMachine]
    by_cases hk : ops.known i.arity i.op = true
    · simp only [hk, ↓reduceIte]
      cases evalNary (ops.eval i.arity i.op) X.cols args opts with
      | none => rfl
      | some r => rfl
    · simp [hk]

/-- The evaluator machine is lawful. -/
def evalLawful (ops : OpSet T) (X : Mat T) (consts : List T) (opts : EvalOptions) (N : Nat) :
    (evalMachine ops X consts opts N).Lawful X.rows consts.length ops.known where
  Good s := s.length = N * X.cols
  AGood := SrcRef.Good X.cols
  PGood p := p.length = X.cols
  toA := .slice
  vA f := .slice ((List.range X.cols).map (X.at' f))
  cA c := .const (constAt consts c)
  K a o args := (if opts.earlyExit && !(!opts.checkFinite || finOf (ops.eval a o) X.cols args) then
          List.replicate X.cols Scalar.nan else colOf (ops.eval a o) X.cols args,
        !opts.checkFinite || finOf (ops.eval a o) X.cols args)
  hvar f hf := by
    refine ⟨?_, by simp [SrcRef.Good]⟩
    simp [evalMachine, Mat.data_slice X f hf]
  hconst c hc := by
    refine ⟨?_, trivial⟩
    simp [evalMachine, constAt, hc]
  hkern a o args _ _ hk hg := by
    refine ⟨?_, ?_⟩
    · simp [evalMachine, hk, evalNary_eq (ops.eval a o) hg opts]
    · simp only
      split <;> simp [colOf_length]
  htoA p hp := hp
  hgood s d p hs hd hp := writeSlot_length hs hd hp
  hsame s d p hs hd hp := by
    simp only [evalMachine]
    rw [writeSlot_same hs hd hp]; rfl
  hne s d p k hs hd hp hk := by
    simp only [evalMachine]
    rw [writeSlot_ne hs hd hp hk]

theorem evalInstrs_eq (ops : OpSet T) (X : Mat T) (consts : List T) (opts : EvalOptions) {N : Nat}
    (is : List Instr) :
    ∀ {s : List T} (c : Bool), s.length = N * X.cols →
    (∀ r, (evalMachine ops X consts opts N).exec is s c = some r →
      evalInstrs ops X.data consts X.cols opts is s c = some r) := by
  induction is with
  | nil => intro s c _ r h; simpa [evalInstrs, Machine.exec] using h
  | cons i is ih =>
    intro s c hs r h
    simp only [evalInstrs]
    have hdN : i.dst < N := by
      refine Decidable.byContradiction fun hc => ?_
      simp only [Machine.exec, Machine.step] at h
      rw [if_neg (by exact hc)] at h
      simp at h
    rw [evalInstr_eq ops X consts opts hs i hdN]
    simp only [Machine.exec] at h
    cases hstep : (evalMachine ops X consts opts N).step s i with
    | none => simp [hstep] at h
    | some p =>
      obtain ⟨s', ok⟩ := p
      simp only [hstep] at h ⊢
      by_cases he : (opts.earlyExit && !ok) = true
      · rw [if_pos (by exact he)] at h
        rw [if_pos he]; exact h
      · rw [if_neg (by exact he)] at h
        rw [if_neg he]
        apply ih _ _ _ h
        -- lengths are preserved by a step
        have hstep' := hstep
        simp only [Machine.step] at hstep'
        split at hstep'
        · split at hstep'
          · simp at hstep'
          · next args hargs =>
            split at hstep'
            · simp at hstep'
            · next p ok' hk =>
              simp only [Option.some.injEq, Prod.mk.injEq] at hstep'
              rw [← hstep'.1]
              apply writeSlot_length hs hdN
              -- arguments resolved from slices are well shaped
              have hgood : ∀ a ∈ args, a.Good X.cols := by
                clear hstep hstep' hk h
                generalize i.args = l at hargs
                induction l generalizing args with
                | nil => simp only [List.mapM_nil, Option.pure_def, Option.some.injEq] at hargs
                         subst hargs; simp
                | cons a l ihl =>
                  simp only [List.mapM_cons, Option.bind_eq_bind, Option.bind_eq_some_iff,
                    Option.pure_def, Option.some.injEq] at hargs
                  obtain ⟨b, hb, bs, hbs, rfl⟩ := hargs
                  intro x hx
                  rcases List.mem_cons.mp hx with hx | hx
                  · subst hx
                    cases a with
                    | var f =>
                      simp only [Machine.resolve, evalMachine, Option.map_eq_some_iff] at hb
                      obtain ⟨l, hl, rfl⟩ := hb
                      exact slice?_length hl
                    | const f =>
                      simp only [Machine.resolve, evalMachine, Option.map_eq_some_iff] at hb
                      obtain ⟨l, hl, rfl⟩ := hb
                      trivial
                    | slot k =>
                      simp only [Machine.resolve, evalMachine] at hb
                      split at hb
                      · simp at hb
                      · simp only [Option.map_eq_some_iff] at hb
                        obtain ⟨l, hl, rfl⟩ := hb
                        exact slice?_length hl
                  · exact ihl _ hbs x hx
              simp only [evalMachine] at hk
              split at hk
              · rw [evalNary_eq _ hgood] at hk
                simp only [Option.some.injEq, Prod.mk.injEq] at hk
                rw [← hk.1]
                split <;> simp [colOf_length]
              · simp at hk
        · simp at hstep'


/-! ### denotations -/

section Den
variable (ops : OpSet T) (X : Mat T) (consts : List T)

/-- Meaning of a tree at row `r` of the data. -/
def rowEval (r : Nat) (t : Tree) : T := t.eval ops (fun f => X.at' f r) (constAt consts)

theorem rowEval_op (r o ts) :
    rowEval ops X consts r (.op o ts) = ops.eval ts.length o (ts.map (rowEval ops X consts r)) := by
  simp [rowEval]; rfl

/-- A tree is a constant leaf. -/
def isConstLeaf : Tree → Bool
  | .const _ => true
  | _ => false

/-- Kernel flag specification at a node, as a Boolean. -/
def nodeFin (n : Nat) : Tree → Bool
  | .op o ts =>
    if ts.all isConstLeaf then Scalar.isFinite (rowEval ops X consts 0 (.op o ts))
    else (List.range n).all fun r => Scalar.isFinite (rowEval ops X consts r (.op o ts))
  | _ => true

/-- All operator results of the tree are finite (Boolean form). -/
def treeFin (n : Nat) (t : Tree) : Bool := t.subtrees.all (nodeFin ops X consts n)

theorem treeFin_op (n o ts) : treeFin ops X consts n (.op o ts)
    = (ts.all (treeFin ops X consts n) && nodeFin ops X consts n (.op o ts)) := by
  have : (ts.map Tree.subtrees).flatten.all (nodeFin ops X consts n)
      = ts.all (treeFin ops X consts n) := by
    induction ts with
    | nil => simp
    | cons t ts ih =>
      simp only [List.map_cons, List.flatten_cons, List.all_append, ih]; simp [treeFin]
  rw [treeFin, Tree.subtrees_op, List.all_append, this]
  simp

/-- The ideal argument view of a tree. -/
def ideal (t : Tree) : SrcRef T :=
  match t with
  | .const c => .const (constAt consts c)
  | t => .slice ((List.range X.cols).map fun r => rowEval ops X consts r t)

theorem ideal_val {r : Nat} (t : Tree) (hr : r < X.cols ∨ isConstLeaf t = true) :
    (ideal ops X consts t).val r = rowEval ops X consts r t := by
  rcases hr with hr | hr
  · cases t with
    | const c => simp [ideal, SrcRef.val, rowEval]
    | var f => simp [ideal, SrcRef.val, hr]
    | op o ts => simp [ideal, SrcRef.val, hr]
  · cases t with
    | const c => simp [ideal, SrcRef.val, rowEval]
    | var f => simp [isConstLeaf] at hr
    | op o ts => simp [isConstLeaf] at hr

theorem ideal_isConst (t : Tree) : (ideal ops X consts t).isConst = isConstLeaf t := by
  cases t <;> rfl

theorem colOf_ideal (o : Nat) (ts : List Tree) :
    colOf (ops.eval ts.length o) X.cols (ts.map (ideal ops X consts))
      = (List.range X.cols).map fun r => rowEval ops X consts r (.op o ts) := by
  unfold colOf
  apply List.map_congr_left
  intro r hr
  simp only [List.mem_range] at hr
  rw [rowEval_op, List.map_map]
  congr 1
  apply List.map_congr_left
  intro t _
  exact ideal_val ops X consts t (Or.inl hr)

theorem finOf_ideal (o : Nat) (ts : List Tree) :
    finOf (ops.eval ts.length o) X.cols (ts.map (ideal ops X consts))
      = nodeFin ops X consts X.cols (.op o ts) := by
  simp only [finOf, nodeFin]
  have hall : (ts.map (ideal ops X consts)).all SrcRef.isConst = ts.all isConstLeaf := by
    rw [List.all_map]
    congr 1
    funext t
    exact ideal_isConst ops X consts t
  rw [hall]
  by_cases hc : ts.all isConstLeaf = true
  · rw [if_pos hc, if_pos hc, rowEval_op, List.map_map]
    congr 2
    apply List.map_congr_left
    intro t ht
    exact ideal_val ops X consts t (Or.inr (List.all_eq_true.mp hc t ht))
  · rw [if_neg hc, if_neg hc, colOf_ideal, allFinite, List.all_map]
    rfl

theorem eval_den (opts : EvalOptions) (N : Nat) (t : Tree) :
    (evalLawful ops X consts opts N).okAll t = (!opts.checkFinite || treeFin ops X consts X.cols t) ∧
    (((evalLawful ops X consts opts N).okAll t = true ∨ opts.earlyExit = false) →
      (evalLawful ops X consts opts N).den t = ideal ops X consts t) := by
  induction t using Tree.ind with
  | hv f =>
    refine ⟨by simp [treeFin, nodeFin], fun _ => ?_⟩
    simp [evalLawful, ideal, rowEval]
  | hc f =>
    refine ⟨by simp [treeFin, nodeFin], fun _ => ?_⟩
    simp [evalLawful, ideal]
  | ho o ts ih =>
    have hden : ∀ (l : List Tree), (∀ t ∈ l, t ∈ ts) →
        (l.all (evalLawful ops X consts opts N).okAll = true ∨ opts.earlyExit = false) →
        l.map (evalLawful ops X consts opts N).den = l.map (ideal ops X consts) := by
      intro l hl h
      apply List.map_congr_left
      intro t ht
      apply (ih t (hl t ht)).2
      rcases h with h | h
      · exact Or.inl (List.all_eq_true.mp h t ht)
      · exact Or.inr h
    have hall : ts.all (evalLawful ops X consts opts N).okAll
        = (!opts.checkFinite || ts.all (treeFin ops X consts X.cols)) := by
      rw [Bool.eq_iff_iff]
      simp only [List.all_eq_true, Bool.or_eq_true, Bool.not_eq_true']
      constructor
      · intro h
        rcases Bool.eq_false_or_eq_true opts.checkFinite with hc | hc
        · right; intro t ht
          have := h t ht
          rw [(ih t ht).1, hc] at this
          simpa using this
        · left; exact hc
      · rintro (h | h) t ht
        · rw [(ih t ht).1, h]; rfl
        · rw [(ih t ht).1, h t ht]; simp
    have hK : ∀ args, ((evalLawful ops X consts opts N).K ts.length o args).2
        = (!opts.checkFinite || finOf (ops.eval ts.length o) X.cols args) := fun _ => rfl
    constructor
    · rw [Machine.Lawful.okAll_op, treeFin_op, hK]
      rcases Bool.eq_false_or_eq_true (ts.all (evalLawful ops X consts opts N).okAll) with h | h
      · rw [hden ts (fun _ h => h) (Or.inl h), finOf_ideal]
        rw [hall] at h ⊢
        rcases Bool.eq_false_or_eq_true opts.checkFinite with hc | hc
        · simp only [hc, Bool.not_true, Bool.false_or] at h ⊢
        · simp [hc]
      · rw [h]
        rw [hall] at h
        simp only [Bool.or_eq_false_iff, Bool.not_eq_false'] at h
        simp [h.1, h.2]
    · intro h
      rw [Machine.Lawful.den_op]
      have hch : ts.all (evalLawful ops X consts opts N).okAll = true ∨ opts.earlyExit = false := by
        rcases h with h | h
        · left; rw [Machine.Lawful.okAll_op] at h; simp only [Bool.and_eq_true] at h; exact h.1
        · exact Or.inr h
      rw [hden ts (fun _ h => h) hch]
      have hKfst : ((evalLawful ops X consts opts N).K ts.length o (ts.map (ideal ops X consts))).1
          = colOf (ops.eval ts.length o) X.cols (ts.map (ideal ops X consts)) := by
        change (if _ then _ else _) = _
        rw [if_neg]
        rcases h with h | h
        · rw [Machine.Lawful.okAll_op, hK, hden ts (fun _ h => h) hch] at h
          simp only [Bool.and_eq_true] at h
          simp [h.2]
        · simp [h]
      rw [hKfst, colOf_ideal]
      rfl

/-- A constant root is checked for finiteness, a variable root is not. -/
def rootFin : Tree → Bool
  | .const c => Scalar.isFinite (constAt consts c)
  | _ => true

/-- The flag the evaluator should return. -/
def flagSpec (opts : EvalOptions) (t : Tree) : Bool :=
  !opts.checkFinite || (treeFin ops X consts X.cols t && rootFin consts t)

/-- The column the evaluator should return. -/
def colSpec (t : Tree) : List T := (List.range X.cols).map fun r => rowEval ops X consts r t

end Den

/-- Shape invariant of a scratch buffer (an `Array2` always satisfies it). -/
def Buf.WF (b : Buf T) : Prop := b.data.length = b.nrows * b.ncols

theorem evalPlanArrayInto_correct (ops : OpSet T) (hash : List PNode → UInt64) {D : Nat} {t : Tree}
    (X : Mat T) (consts : List T) (opts : EvalOptions)
    (hwf : t.WF ops D X.rows consts.length) (hnf : X.rows ≤ u16Max) (hnc : consts.length ≤ u16Max)
    (hops : t.numOps ≤ u16Max) :
    ∃ plan, compilePlan hash D t.toPostfix X.rows consts.length = some plan ∧
      plan.hash = hash t.toPostfix ∧
    ∀ (out : List T) (scratch : Buf T), out.length = X.cols → scratch.WF →
      ∃ out' scratch', evalPlanArrayInto ops out plan consts X scratch opts
          = some (out', flagSpec ops X consts opts t, scratch') ∧ scratch'.WF ∧
        scratch'.nrows = plan.nSlots ∧ scratch'.ncols = X.cols ∧
        out' = (if opts.earlyExit && !flagSpec ops X consts opts t then out
          else colSpec ops X consts t) := by
  obtain ⟨plan, hplan, hhash, _, _, _, _, _⟩ :=
    compilePlan_of_lawful (evalLawful ops X consts opts 0) hash hwf hnf hnc hops
  refine ⟨plan, hplan, hhash, ?_⟩
  obtain ⟨plan', hplan', _, _, _, hrv, hrc, hexec⟩ :=
    compilePlan_of_lawful (evalLawful ops X consts opts plan.nSlots) hash hwf hnf hnc hops
  rw [hplan] at hplan'
  simp only [Option.some.injEq] at hplan'
  subst hplan'
  intro out scratch hout hscr
  simp only [evalPlanArrayInto]
  rw [if_pos hout]
  generalize hs0 : (if scratch.nrows ≠ plan.nSlots ∨ scratch.ncols ≠ X.cols
      then Buf.zeros plan.nSlots X.cols else scratch) = s0
  have hs0' : s0.nrows = plan.nSlots ∧ s0.ncols = X.cols ∧ s0.data.length = plan.nSlots * X.cols := by
    by_cases hb : scratch.nrows ≠ plan.nSlots ∨ scratch.ncols ≠ X.cols
    · rw [if_pos hb] at hs0; subst hs0; simp [Buf.zeros]
    · rw [if_neg hb] at hs0; subst hs0
      have h1 : scratch.nrows = plan.nSlots := Decidable.byContradiction fun h => hb (Or.inl h)
      have h2 : scratch.ncols = X.cols := Decidable.byContradiction fun h => hb (Or.inr h)
      refine ⟨h1, h2, ?_⟩
      rw [← h1, ← h2]; exact hscr
  obtain ⟨hr0, hc0, hl0⟩ := hs0'
  have hx := hexec s0.data (Nat.le_refl _) hl0
  rw [show (evalMachine ops X consts opts plan.nSlots).early = opts.earlyExit from rfl] at hx
  obtain ⟨hok, hden⟩ := eval_den ops X consts opts plan.nSlots t
  by_cases hex : (opts.earlyExit && !(evalLawful ops X consts opts plan.nSlots).okAll t) = true
  · rw [if_pos hex] at hx
    obtain ⟨s', hg, he⟩ := hx
    rw [evalInstrs_eq ops X consts opts plan.instrs true hl0 _ he]
    simp only [Bool.and_eq_true, Bool.not_eq_true'] at hex
    rw [hok] at hex
    have hflag : flagSpec ops X consts opts t = false := by
      have h2 := hex.2
      simp only [Bool.or_eq_false_iff, Bool.not_eq_false'] at h2
      simp [flagSpec, h2.1, h2.2]
    refine ⟨out, { s0 with data := s' }, by simp [hflag], ?_, hr0, hc0, by simp [hflag, hex.1]⟩
    change s'.length = s0.nrows * s0.ncols
    rw [hr0, hc0]; exact hg
  · rw [if_neg hex] at hx
    obtain ⟨s', hg, he, hroot⟩ := hx
    rw [evalInstrs_eq ops X consts opts plan.instrs true hl0 _ he]
    have hden' : (evalLawful ops X consts opts plan.nSlots).den t = ideal ops X consts t := by
      apply hden
      simp only [Bool.and_eq_true, Bool.not_eq_true', not_and, Bool.not_eq_false] at hex
      rcases Bool.eq_false_or_eq_true opts.earlyExit with h | h
      · exact Or.inl (hex h)
      · exact Or.inr h
    have hwfs : Buf.WF { s0 with data := s' } := by
      change s'.length = s0.nrows * s0.ncols
      rw [hr0, hc0]; exact hg
    rw [hden'] at hroot
    simp only
    cases hrt : plan.root with
    | var f =>
      have ht := (hrv f).mp hrt
      subst ht
      rw [hrt] at hroot
      simp only [Machine.srcVal, evalMachine, Option.map_eq_some_iff] at hroot
      obtain ⟨l, hl1, hl2⟩ := hroot
      have hfl : flagSpec ops X consts opts (.var f) = true := by
        simp [flagSpec, treeFin, nodeFin, rootFin]
      have hok' : (evalLawful ops X consts opts plan.nSlots).okAll (.var f) = true := by simp
      refine ⟨l, { s0 with data := s' }, ?_, hwfs, hr0, hc0, ?_⟩
      · simp [hl1, hfl, hok']
      · simp only [ideal, SrcRef.slice.injEq] at hl2
        simp [hfl, colSpec, hl2]
    | const c =>
      have ht := (hrc c).mp hrt
      subst ht
      have hc' : c < consts.length := by simpa [Tree.WF] using hwf
      have hget : consts[c]? = some (constAt consts c) := by simp [constAt, hc']
      have hfl : flagSpec ops X consts opts (.const c)
          = (!opts.checkFinite || Scalar.isFinite (constAt consts c)) := by
        simp [flagSpec, treeFin, nodeFin, rootFin]
      have hok' : (evalLawful ops X consts opts plan.nSlots).okAll (.const c) = true := by simp
      have hcol : colSpec ops X consts (.const c) = List.replicate X.cols (constAt consts c) := by
        simp [colSpec, rowEval, List.map_const']
      simp only [hget, hok', hfl, hcol]
      by_cases hcf : (opts.checkFinite && !Scalar.isFinite (constAt consts c)) = true
      · rw [if_pos hcf]
        simp only [Bool.and_eq_true, Bool.not_eq_true'] at hcf
        rcases Bool.eq_false_or_eq_true opts.earlyExit with h | h
        · rw [if_pos h]
          exact ⟨out, { s0 with data := s' }, by simp [hcf.1, hcf.2], hwfs, hr0, hc0, by simp [hcf.1, hcf.2, h]⟩
        · rw [if_neg (by simp [h])]
          exact ⟨List.replicate X.cols (constAt consts c), { s0 with data := s' },
            by simp [hcf.1, hcf.2], hwfs, hr0, hc0, by simp [h]⟩
      · rw [if_neg hcf]
        have hf : (!opts.checkFinite || Scalar.isFinite (constAt consts c)) = true := by
          rcases Bool.eq_false_or_eq_true opts.checkFinite with h | h <;> simp_all
        exact ⟨_, _, by rw [hf], hwfs, hr0, hc0, by simp [hf]⟩
    | slot k =>
      rw [hrt] at hroot
      simp only [Machine.srcVal, evalMachine, Option.map_eq_some_iff] at hroot
      obtain ⟨l, hl1, hl2⟩ := hroot
      have hop : rootFin consts t = true ∧ ideal ops X consts t = .slice (colSpec ops X consts t) := by
        cases t with
        | var f => exact absurd ((hrv f).mpr rfl) (by rw [hrt]; simp)
        | const f => exact absurd ((hrc f).mpr rfl) (by rw [hrt]; simp)
        | op o ts => exact ⟨rfl, rfl⟩
      have hfl : flagSpec ops X consts opts t
          = (evalLawful ops X consts opts plan.nSlots).okAll t := by
        rw [hok]; simp [flagSpec, hop.1]
      refine ⟨l, { s0 with data := s' }, ?_, hwfs, hr0, hc0, ?_⟩
      · simp [hl1, hfl]
      · rw [hop.2] at hl2
        simp only [SrcRef.slice.injEq] at hl2
        rw [hfl, if_neg hex, hl2]

/-- Invariant of evaluation contexts: the scratch buffer is well shaped. -/
def EvalContext.ScratchWF (ctx : EvalContext T) : Prop := ∀ b, ctx.scratch = some b → b.WF

theorem evalTreeArrayInto_correct (ops : OpSet T) (hash : List PNode → UInt64) {D : Nat} {t : Tree}
    (X : Mat T) (e : PostfixExpr T) (opts : EvalOptions) (ctx : EvalContext T) (out : List T)
    (hnodes : e.nodes = t.toPostfix)
    (hwf : t.WF ops D X.rows e.consts.length) (hnf : X.rows ≤ u16Max)
    (hnc : e.consts.length ≤ u16Max) (hops : t.numOps ≤ u16Max)
    (hout : out.length = X.cols) (hrows : ctx.nRows = X.cols) (hscr : ctx.ScratchWF)
    (hplan : ctx.needsRecompile hash e X = true ∨
      ctx.plan = compilePlan hash D e.nodes X.rows e.consts.length) :
    ∃ out' ctx', evalTreeArrayInto ops hash D out e X ctx opts
        = some (out', flagSpec ops X e.consts opts t, ctx') ∧
      ctx'.ScratchWF ∧ ctx'.nRows = X.cols ∧
      ctx'.plan = compilePlan hash D e.nodes X.rows e.consts.length ∧ ctx'.plan.isSome ∧
      (ctx.needsRecompile hash e X = true →
        ctx'.planNodesLen = e.nodes.length ∧ ctx'.planNConsts = e.consts.length ∧
        ctx'.planNFeatures = X.rows) ∧
      (ctx.needsRecompile hash e X = false →
        ctx'.planNodesLen = ctx.planNodesLen ∧ ctx'.planNConsts = ctx.planNConsts ∧
        ctx'.planNFeatures = ctx.planNFeatures) ∧
      out' = (if opts.earlyExit && !flagSpec ops X e.consts opts t then out
          else colSpec ops X e.consts t) := by
  obtain ⟨plan, hp, hph, hev⟩ :=
    evalPlanArrayInto_correct ops hash X e.consts opts hwf hnf hnc hops
  rw [← hnodes] at hp
  -- the context after setup
  obtain ⟨ctx1, hset, hplan1, hscr1, hrow1, hlen1, hlen2⟩ : ∃ ctx1, ctx.setup hash D e X = some ctx1 ∧
      ctx1.plan = some plan ∧ (∃ b, ctx1.scratch = some b ∧ b.WF) ∧ ctx1.nRows = X.cols ∧
      (ctx.needsRecompile hash e X = true →
        ctx1.planNodesLen = e.nodes.length ∧ ctx1.planNConsts = e.consts.length ∧
        ctx1.planNFeatures = X.rows) ∧
      (ctx.needsRecompile hash e X = false →
        ctx1.planNodesLen = ctx.planNodesLen ∧ ctx1.planNConsts = ctx.planNConsts ∧
        ctx1.planNFeatures = ctx.planNFeatures) := by
    have hens : ∀ c : EvalContext T, c.ScratchWF → c.nRows = X.cols → c.plan = some plan →
        (c.ensureScratch plan.nSlots).plan = some plan ∧
        (∃ b, (c.ensureScratch plan.nSlots).scratch = some b ∧ b.WF) ∧
        (c.ensureScratch plan.nSlots).nRows = X.cols ∧
        (c.ensureScratch plan.nSlots).planNodesLen = c.planNodesLen ∧
        (c.ensureScratch plan.nSlots).planNConsts = c.planNConsts ∧
        (c.ensureScratch plan.nSlots).planNFeatures = c.planNFeatures := by
      intro c hc hr hpl
      unfold EvalContext.ensureScratch
      have hz : (Buf.zeros plan.nSlots c.nRows : Buf T).WF := by simp [Buf.WF, Buf.zeros]
      split
      · next s hs =>
        split
        · exact ⟨hpl, ⟨s, hs, hc s hs⟩, hr, rfl, rfl, rfl⟩
        · exact ⟨hpl, ⟨_, rfl, hz⟩, hr, rfl, rfl, rfl⟩
      · exact ⟨hpl, ⟨_, rfl, hz⟩, hr, rfl, rfl, rfl⟩
    unfold EvalContext.setup
    rcases Bool.eq_false_or_eq_true (ctx.needsRecompile hash e X) with hn | hn
    · rw [if_pos hn, hp]
      obtain ⟨h1, h2, h3, h4, h5, h6⟩ := hens { ctx with
        plan := some plan, planNodesLen := e.nodes.length,
        planNConsts := e.consts.length, planNFeatures := X.rows } hscr hrows rfl
      exact ⟨_, rfl, h1, h2, h3, fun _ => ⟨h4, h5, h6⟩, fun h => by rw [hn] at h; simp at h⟩
    · rw [if_neg (by simp [hn])]
      rw [hn] at hplan
      simp only [Bool.false_eq_true, false_or] at hplan
      rw [hp] at hplan
      obtain ⟨h1, h2, h3, h4, h5, h6⟩ := hens ctx hscr hrows hplan
      rw [hplan]
      exact ⟨_, rfl, h1, h2, h3, fun h => by rw [hn] at h; simp at h, fun _ => ⟨h4, h5, h6⟩⟩
  obtain ⟨b, hb, hbwf⟩ := hscr1
  obtain ⟨out', scratch', he, hw, _, _, ho⟩ := hev out b hout hbwf
  refine ⟨out', { ctx1 with scratch := some scratch' }, ?_, ?_, hrow1, ?_, ?_, hlen1, hlen2, ho⟩
  · simp [evalTreeArrayInto, hout, hrows, hset, hplan1, hb, he]
  · intro b' hb'
    simp only [Option.some.injEq] at hb'
    subst hb'; exact hw
  · rw [hp]; exact hplan1
  · simp [hplan1]

end SR
