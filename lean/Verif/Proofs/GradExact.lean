import Verif.Proofs.GradErase
import Verif.Spec.GradSkip
/-
The gradient evaluator in any arithmetic: no law is assumed of the scalars.
-/
namespace SR
variable {T : Type} [Scalar T]

/-- A derivative column, with the products the loops leave out. -/
def derColX (p : List T → Nat → T) (n : Nat) (args dargs : List (SrcRef T)) : List T :=
  (List.range n).map fun r => chainSkip (p (args.map (fun a => a.val r))) (dargs.map (fun a => (a.isConst, a.val r)))

/-- A gradient slab, with the products the loops leave out. -/
def gradSlabX (p : List T → Nat → T) (n nDir : Nat) (args : List (SrcRef T)) (gs : List (GradRef T)) : List T :=
  (List.range nDir).flatMap fun dir => (List.range n).map fun r =>
    chainSkip (p (args.map (fun a => a.val r))) (gs.map (fun g => (g.isConst, g.val n dir r)))

theorem gradSlabX_length (p : List T → Nat → T) (n nDir : Nat) (args : List (SrcRef T))
    (gs : List (GradRef T)) : (gradSlabX p n nDir args gs).length = nDir * n := by
  simp [gradSlabX, List.length_flatMap, List.map_const']

theorem gradUnaryLoop_eqX {n : Nat} {x dx : SrcRef T} (hx : x.Good n) (hdx : dx.Good n)
    (hc : Compat x dx) (p : List T → Nat → T) :
    gradUnaryLoop n x dx p = some (derColX p n [x] [dx]) := by
  cases x with
  | slice xs =>
    obtain ⟨f, rfl⟩ := exists_range_map hx
    cases dx with
    | slice dxs =>
      obtain ⟨g, rfl⟩ := exists_range_map hdx
      simp only [gradUnaryLoop, zipWith_range, derColX, List.map_cons, List.map_nil, chainSkip, SrcRef.isConst,
        Bool.false_and, Bool.false_eq_true, if_false, Option.some.injEq]
      apply List.map_congr_left
      intro r hr
      rw [val_slice_map (by simpa using hr), val_slice_map (by simpa using hr)]
    | const d =>
      simp only [gradUnaryLoop, derColX, List.map_cons, List.map_nil, chainSkip, SrcRef.isConst, Bool.true_and, SrcRef.val]
      split
      · rw [replicate_range]
      · rw [List.map_map, Option.some.injEq]
        apply List.map_congr_left
        intro r hr
        have hr' : r < n := by simpa using hr
        simp [List.getElem?_range hr']
  | const c =>
    cases dx with
    | slice dxs => simp [Compat, SrcRef.isConst] at hc
    | const d =>
      simp only [gradUnaryLoop, derColX, List.map_cons, List.map_nil, chainSkip, SrcRef.isConst, Bool.true_and, SrcRef.val]
      split
      · rw [replicate_range]
      · rw [replicate_range]

theorem gradBinaryLoop_eqX {n : Nat} {x y dx dy : SrcRef T} (hx : x.Good n) (hdx : dx.Good n)
    (hy : y.Good n) (hdy : dy.Good n) (hc : Compat x dx) (hc' : Compat y dy)
    (p : List T → Nat → T) :
    gradBinaryLoop n x y dx dy p = some ((List.range n).map fun r => pair2 p (x.val r) (y.val r) (dx.val r) (dy.val r)) := by
  have key : ∀ l, l = (List.range n).map (fun r => pair2 p (x.val r) (y.val r) (dx.val r) (dy.val r)) →
      some l = some ((List.range n).map fun r => pair2 p (x.val r) (y.val r) (dx.val r) (dy.val r)) := by
    rintro l rfl; rfl
  cases x with
  | slice xs =>
    obtain ⟨f, rfl⟩ := exists_range_map hx
    cases y with
    | slice ys =>
      obtain ⟨g, rfl⟩ := exists_range_map hy
      cases dx with
      | slice dxs =>
        obtain ⟨f', rfl⟩ := exists_range_map hdx
        cases dy with
        | slice dys =>
          obtain ⟨g', rfl⟩ := exists_range_map hdy
          simp only [gradBinaryLoop, zip_range, zipWith_range]
          apply key
          apply List.map_congr_left
          intro r hr
          simp only [val_slice_map (List.mem_range.mp hr)]
        | const e =>
          simp only [gradBinaryLoop, zip_range, zipWith_range]
          apply key
          apply List.map_congr_left
          intro r hr
          simp only [val_slice_map (List.mem_range.mp hr)]; rfl
      | const d =>
        cases dy with
        | slice dys =>
          obtain ⟨g', rfl⟩ := exists_range_map hdy
          simp only [gradBinaryLoop, zip_range, zipWith_range]
          apply key
          apply List.map_congr_left
          intro r hr
          simp only [val_slice_map (List.mem_range.mp hr)]; rfl
        | const e =>
          simp only [gradBinaryLoop, zip_range, zipWith_range]
          apply key
          apply List.map_congr_left
          intro r hr
          simp only [val_slice_map (List.mem_range.mp hr)]; rfl
    | const c =>
      cases dy with
      | slice _ => simp [Compat, SrcRef.isConst] at hc'
      | const e =>
        cases dx with
        | slice dxs =>
          obtain ⟨f', rfl⟩ := exists_range_map hdx
          simp only [gradBinaryLoop, zip_range, zipWith_range]
          apply key
          apply List.map_congr_left
          intro r hr
          simp only [val_slice_map (List.mem_range.mp hr)]; rfl
        | const d =>
          simp only [gradBinaryLoop]
          apply key
          rw [List.map_map]
          apply List.map_congr_left
          intro r hr
          simp only [val_slice_map (List.mem_range.mp hr)]; rfl
  | const c =>
    cases dx with
    | slice _ => simp [Compat, SrcRef.isConst] at hc
    | const d =>
      cases y with
      | slice ys =>
        obtain ⟨g, rfl⟩ := exists_range_map hy
        cases dy with
        | slice dys =>
          obtain ⟨g', rfl⟩ := exists_range_map hdy
          simp only [gradBinaryLoop, zip_range, zipWith_range]
          apply key
          apply List.map_congr_left
          intro r hr
          simp only [val_slice_map (List.mem_range.mp hr)]; rfl
        | const e =>
          simp only [gradBinaryLoop]
          apply key
          rw [List.map_map]
          apply List.map_congr_left
          intro r hr
          simp only [val_slice_map (List.mem_range.mp hr)]; rfl
      | const c' =>
        cases dy with
        | slice _ => simp [Compat, SrcRef.isConst] at hc'
        | const e =>
          simp only [gradBinaryLoop, replicate_range]
          apply key
          rfl

theorem gradNary_eqX {n nDir : Nat} (hn : n ≠ 0) (eval : List T → T)
    (p : List T → Nat → T) {args : List (SrcRef T × GradRef T)} (hne : args ≠ [])
    (h : ∀ a ∈ args, a.1.Good n ∧ a.2.Good n nDir ∧ GCompat a.1 a.2) (opts : EvalOptions) :
    gradNary eval p n nDir (args.map Prod.fst) (args.map Prod.snd) opts =
      some (let ok := !opts.checkFinite || allFinite (colOf eval n (args.map Prod.fst))
        (if opts.earlyExit && !ok then List.replicate n Scalar.nan
            else colOf eval n (args.map Prod.fst),
         if opts.earlyExit && !ok then List.replicate (nDir * n) Scalar.nan
            else gradSlabX p n nDir (args.map Prod.fst) (args.map Prod.snd),
         ok)) := by
  match args, hne, h with
  | [(x, g)], _, h =>
    obtain ⟨h1, h2, h3⟩ := h _ (List.mem_singleton.mpr rfl)
    simp only at h1 h2 h3
    simp only [List.map_cons, List.map_nil, gradNary]
    rw [mapM_some (g := fun dir => (List.range n).map fun r =>
      chainSkip (p [x.val r]) [(g.isConst, g.val n dir r)])]
    · rw [unary_eq h1]
      simp [finishDiff_eq, gradSlabX, List.flatMap_def]
    · intro dir hdir
      obtain ⟨e1, e2, e3, e4⟩ := gradDirView_eq h2 (by simpa using hdir)
      rw [e1, Option.bind_some, gradUnaryLoop_eqX h1 e2 (fun hx => by rw [e3]; exact h3 hx)]
      simp only [derColX, List.map_cons, List.map_nil, Option.some.injEq]
      exact List.map_congr_left fun r hr => by rw [e4 r (by simpa using hr), e3]
  | [(x, g), (y, g')], _, h =>
    obtain ⟨h1, h2, h3⟩ := h (x, g) (by simp)
    obtain ⟨h4, h5, h6⟩ := h (y, g') (by simp)
    simp only at h1 h2 h3 h4 h5 h6
    simp only [List.map_cons, List.map_nil, gradNary]
    rw [mapM_some (g := fun dir => (List.range n).map fun r =>
      chainSkip (p [x.val r, y.val r]) [(g.isConst, g.val n dir r), (g'.isConst, g'.val n dir r)])]
    · rw [binary_eq h1 h4]
      simp [finishDiff_eq, gradSlabX, List.flatMap_def]
    · intro dir hdir
      obtain ⟨e1, e2, e3, e4⟩ := gradDirView_eq h2 (by simpa using hdir)
      obtain ⟨f1, f2, f3, f4⟩ := gradDirView_eq h5 (by simpa using hdir)
      have hb := gradBinaryLoop_eqX h1 e2 h4 f2 (fun hx => by rw [e3]; exact h3 hx)
        (fun hx => by rw [f3]; exact h6 hx) p
      rw [e1, Option.bind_some, f1, Option.bind_some]
      have hcol : ∀ r ∈ List.range n, chainSkip (p [x.val r, y.val r]) [(g.isConst, g.val n dir r), (g'.isConst, g'.val n dir r)]
          = if (g.view n dir).isConst && (g'.view n dir).isConst &&
              (Scalar.isZero ((g.view n dir).val r) && Scalar.isZero ((g'.view n dir).val r)) then Scalar.zero
            else pair2 p (x.val r) (y.val r) ((g.view n dir).val r) ((g'.view n dir).val r) := by
        intro r hr
        rw [e4 r (by simpa using hr), f4 r (by simpa using hr), e3, f3]
        rfl
      rw [List.map_congr_left hcol]
      cases hv : g.view n dir with
      | slice a =>
        rw [hv] at hb
        simp only [SrcRef.isConst, Bool.false_and, Bool.false_eq_true, if_false]
        exact hb
      | const a =>
        rw [hv] at hb
        cases hv' : g'.view n dir with
        | slice b =>
          rw [hv'] at hb
          simp only [SrcRef.isConst, Bool.and_false, Bool.false_and, Bool.false_eq_true, if_false]
          exact hb
        | const b =>
          rw [hv'] at hb
          simp only [SrcRef.isConst, Bool.true_and, SrcRef.val] at hb ⊢
          split
          · rw [replicate_range]
          · exact hb
  | a :: b :: c :: rest, _, h =>
    have ha : ∀ x ∈ (a :: b :: c :: rest).map Prod.fst, x.Good n := by
      intro x hx; obtain ⟨y, hy, rfl⟩ := List.mem_map.mp hx; exact (h y hy).1
    have hb : ∀ x ∈ (a :: b :: c :: rest).map Prod.snd, x.Good n nDir := by
      intro x hx; obtain ⟨y, hy, rfl⟩ := List.mem_map.mp hx; exact (h y hy).2.1
    generalize hA : (a :: b :: c :: rest).map Prod.fst = A at ha ⊢
    generalize hG : (a :: b :: c :: rest).map Prod.snd = G at hb ⊢
    have e : gradNary eval p n nDir A G opts
      = (if n = 0 then none else
    match (List.range n).mapM (fun row => (A.mapM (fun a : SrcRef T => a.get? row)).map eval),
      (List.range nDir).mapM (fun dir => (List.range n).mapM fun row =>
        (A.mapM (fun a : SrcRef T => a.get? row)).bind fun vals =>
          (G.mapM (fun g => gradAt g dir row n)).map fun ds =>
            accumPartials (p vals) ds 0 Scalar.zero) with
    | some out, some slabs => some (finishDiff opts n (nDir * n) out slabs.flatten true)
    | _, _ => none) := by subst hA; subst hG; rfl
    rw [e, if_neg hn]
    rw [mapM_some (g := fun r => eval (A.map fun a => a.val r)) (by
      intro r hr
      rw [mapM_get?_good ha (by simpa using hr)]; rfl)]
    rw [mapM_some (g := fun dir => (List.range n).map fun r =>
      chainSkip (p (A.map fun a => a.val r)) (G.map fun g => (g.isConst, g.val n dir r))) (by
      intro dir hdir
      apply mapM_some
      intro r hr
      rw [mapM_get?_good ha (by simpa using hr), Option.bind_some,
        mapM_some (g := fun g => g.val n dir r) (fun g hg => gradAt_eq (hb g hg)
          (by simpa using hdir) (by simpa using hr))]
      subst hG
      simp [accumPartials_chain, chainSkip, Function.comp_def])]
    simp only [finishDiff_eq, gradSlabX, List.flatMap_def, colOf]
    rfl

/-- What the kernel computes, in any arithmetic. -/
def gradKX (ops : OpSet T) (X : Mat T) (opts : EvalOptions) (nDir : Nat) (a o : Nat) (args : List (SrcRef T × GradRef T)) :
    (List T × List T) × Bool :=
  let ok := !opts.checkFinite || allFinite (colOf (ops.eval a o) X.cols (args.map Prod.fst))
  ((if opts.earlyExit && !ok then List.replicate X.cols Scalar.nan
      else colOf (ops.eval a o) X.cols (args.map Prod.fst),
    if opts.earlyExit && !ok then List.replicate (nDir * X.cols) Scalar.nan
      else gradSlabX (ops.partial_ a o) X.cols nDir (args.map Prod.fst) (args.map Prod.snd)), ok)

section Grad
variable (ops : OpSet T) (X : Mat T) (consts : List T) (vr : Bool) (opts : EvalOptions)

theorem gradKern_eqX (hn : X.cols ≠ 0) (nDir : Nat) {a o : Nat}
    {args : List (SrcRef T × GradRef T)} (hne : args ≠ [])
    (hk : ops.known a o = true) (h : ∀ x ∈ args, GGood X.cols nDir x) :
    gradKern ops X opts nDir a o args = some (gradKX ops X opts nDir a o args) := by
  rw [gradKern, if_pos hk, gradNary_eqX hn _ _ hne h]; rfl

theorem gradKX_length (nDir a o : Nat) (args : List (SrcRef T × GradRef T)) :
    (gradKX ops X opts nDir a o args).1.1.length = X.cols ∧
      (gradKX ops X opts nDir a o args).1.2.length = X.cols * nDir := by
  simp only [gradKX]
  constructor <;> split <;> simp [colOf_length, gradSlabX_length, Nat.mul_comm]

def gradLawfulX (hn : X.cols ≠ 0) (nDir N : Nat) :
    (pairMachine GradRef.slice X.cols (X.cols * nDir) N (gradAVar X vr) (gradAConst consts vr)
      (gradKern ops X opts nDir) opts.earlyExit).Lawful X.rows consts.length ops.known :=
  pairLawful GradRef.slice X.cols (X.cols * nDir) N (gradAVar X vr)
    (gradAConst consts vr) (gradKern ops X opts nDir) opts.earlyExit X.rows consts.length ops.known
    (GGood X.cols nDir)
    (fun v d hv hd => ⟨hv, by rw [GradRef.Good, hd, Nat.mul_comm], by simp [GCompat, SrcRef.isConst]⟩)
    (fun f => (.slice ((List.range X.cols).map (X.at' f)), if vr then .basis f else .zero))
    (fun c => (.const (constAt consts c), if vr then .zero else .basis c))
    (gradKX ops X opts nDir)
    (fun f hf => ⟨by simp [gradAVar, Mat.data_slice X f hf],
      by cases vr <;> simp [GGood, SrcRef.Good, GCompat, SrcRef.isConst, GradRef.Good]⟩)
    (fun c hc => ⟨by simp [gradAConst, constAt, hc],
      by cases vr <;> simp [GGood, SrcRef.Good, GCompat, SrcRef.isConst, GradRef.Good, GradRef.isConst]⟩)
    (fun a o args hl ha hk hg => ⟨gradKern_eqX ops X opts hn nDir
      (by intro h; subst h; simp at hl; omega) hk hg, gradKX_length ops X opts nDir a o args⟩)

/-- The derivative of a tree at row `r` in direction `dir`: with respect to feature `dir`
(`vr = true`) or constant `dir` (`vr = false`). -/
def rowGradX (dir r : Nat) (t : Tree) : T :=
  t.derivSkip ops (fun f => X.at' f r) (constAt consts)
    (if vr then oneHot dir else noSeed) (if vr then noSeed else oneHot dir)

theorem rowGradX_op (dir r o ts) : rowGradX ops X consts vr dir r (.op o ts)
    = chainSkip (ops.partial_ ts.length o (ts.map (rowEval ops X consts r)))
        (ts.map fun t => (t.isLeaf, rowGradX ops X consts vr dir r t)) := by
  simp [rowGradX]; rfl

/-- The flat dir-major gradient the evaluator should return. -/
def gradSpecX (nDir : Nat) (t : Tree) : List T :=
  (List.range nDir).flatMap fun dir => (List.range X.cols).map fun r => rowGradX ops X consts vr dir r t

def idealX (nDir : Nat) (t : Tree) : SrcRef T × GradRef T :=
  match t with
  | .var f => (.slice ((List.range X.cols).map (X.at' f)), if vr then .basis f else .zero)
  | .const c => (.const (constAt consts c), if vr then .zero else .basis c)
  | t => (.slice ((List.range X.cols).map fun r => rowEval ops X consts r t),
      .slice (gradSpecX ops X consts vr nDir t))

theorem idealX_val {nDir dir r : Nat} (hd : dir < nDir) (hr : r < X.cols) (t : Tree) :
    (idealX ops X consts vr nDir t).1.val r = rowEval ops X consts r t ∧
    (idealX ops X consts vr nDir t).2.val X.cols dir r = rowGradX ops X consts vr dir r t := by
  cases t with
  | var f =>
    refine ⟨by simp [idealX, SrcRef.val, hr, rowEval], ?_⟩
    cases vr <;> simp [idealX, GradRef.val, rowGradX, oneHot, noSeed, eq_comm]
  | const c =>
    refine ⟨by simp [idealX, SrcRef.val, rowEval], ?_⟩
    cases vr <;> simp [idealX, GradRef.val, rowGradX, oneHot, noSeed, eq_comm]
  | op o ts =>
    refine ⟨by simp [idealX, SrcRef.val, hr], ?_⟩
    simp only [idealX, GradRef.val, gradSpecX]
    rw [flatMap_getElem (fun dir r => rowGradX ops X consts vr dir r (.op o ts)) hd hr]
    rfl

theorem idealX_val1 {nDir r : Nat} (hr : r < X.cols) (t : Tree) :
    (idealX ops X consts vr nDir t).1.val r = rowEval ops X consts r t := by
  cases t <;> simp [idealX, SrcRef.val, hr, rowEval]

theorem colOf_idealX (nDir o : Nat) (ts : List Tree) :
    colOf (ops.eval ts.length o) X.cols ((ts.map (idealX ops X consts vr nDir)).map Prod.fst)
      = (List.range X.cols).map fun r => rowEval ops X consts r (.op o ts) := by
  unfold colOf
  apply List.map_congr_left
  intro r hr
  rw [rowEval_op, List.map_map, List.map_map]
  congr 1
  exact List.map_congr_left fun t _ => idealX_val1 ops X consts vr (by simpa using hr) t

theorem gradSlabX_idealX (nDir o : Nat) (ts : List Tree) :
    gradSlabX (ops.partial_ ts.length o) X.cols nDir ((ts.map (idealX ops X consts vr nDir)).map Prod.fst)
      ((ts.map (idealX ops X consts vr nDir)).map Prod.snd)
      = gradSpecX ops X consts vr nDir (.op o ts) := by
  unfold gradSlabX gradSpecX
  simp only [List.flatMap_def]
  congr 1
  apply List.map_congr_left
  intro dir hdir
  apply List.map_congr_left
  intro r hr
  rw [rowGradX_op]
  simp only [List.map_map]
  congr 2
  · exact List.map_congr_left fun t _ => idealX_val1 ops X consts vr (by simpa using hr) t
  · refine funext fun t => Prod.ext ?_ (idealX_val ops X consts vr (by simpa using hdir) (by simpa using hr) t).2
    cases t <;> cases vr <;> rfl

theorem grad_denX (hn : X.cols ≠ 0) (nDir N : Nat) (t : Tree) :
    (gradLawfulX ops X consts vr opts hn nDir N).okAll t
        = t.subtrees.all (fun s => !opts.checkFinite || nodeGFin ops X consts s) ∧
    (((gradLawfulX ops X consts vr opts hn nDir N).okAll t = true ∨ opts.earlyExit = false) →
      (gradLawfulX ops X consts vr opts hn nDir N).den t = idealX ops X consts vr nDir t) := by
  apply (gradLawfulX ops X consts vr opts hn nDir N).den_ideal
  · intro f; rfl
  · intro c; rfl
  · intro f; simp [nodeGFin]
  · intro f; simp [nodeGFin]
  · intro o ts
    have hok : ((gradLawfulX ops X consts vr opts hn nDir N).K ts.length o
        (ts.map (idealX ops X consts vr nDir))).2
        = (!opts.checkFinite || nodeGFin ops X consts (.op o ts)) := by
      change (!opts.checkFinite || allFinite (colOf _ _ _)) = _
      rw [colOf_idealX]
      simp [nodeGFin, allFinite, List.all_map, Function.comp_def]
    refine ⟨hok, fun h => ?_⟩
    have hK : ((gradLawfulX ops X consts vr opts hn nDir N).K ts.length o
        (ts.map (idealX ops X consts vr nDir))).1
        = ((List.range X.cols).map (fun r => rowEval ops X consts r (.op o ts)),
           gradSpecX ops X consts vr nDir (.op o ts)) := by
      rw [← hok] at h
      rw [← colOf_idealX ops X consts vr nDir, ← gradSlabX_idealX]
      change (gradKX ops X opts nDir _ _ _).1 = _
      change (gradKX ops X opts nDir _ _ _).2 = true ∨ _ at h
      revert h
      simp only [gradKX]
      intro h
      rw [if_neg, if_neg]
      · rcases h with h | h
        · rw [h]; simp
        · have : opts.earlyExit = false := h
          simp [this]
      · rcases h with h | h
        · rw [h]; simp
        · have : opts.earlyExit = false := h
          simp [this]
    rw [hK]
    rfl


end Grad

theorem evalGradTreeArray_exact (ops : OpSet T) (hash : List PNode → UInt64) {D : Nat}
    {t : Tree} (X : Mat T) (e : PostfixExpr T) (vr : Bool) (opts : EvalOptions) (ctx : DContext T)
    (hnodes : e.nodes = t.toPostfix) (hwf : t.WF ops D X.rows e.consts.length)
    (hnf : X.rows ≤ u16Max) (hnc : e.consts.length ≤ u16Max) (hops : t.numOps ≤ u16Max)
    (hn : X.cols ≠ 0) (hrows : ctx.nRows = X.cols) (hscr : ctx.ScratchWF)
    (hcoh : ctx.Coherent hash D e X) :
    ∃ ctx', evalGradTreeArray ops hash D e X vr ctx opts
      = some (if opts.earlyExit && !gflagSpec ops X e.consts opts t then
            List.replicate X.cols Scalar.nan
          else (List.range X.cols).map fun r => rowEval ops X e.consts r t,
        if opts.earlyExit && !gflagSpec ops X e.consts opts t then
            List.replicate (nDirOf X e.consts vr * X.cols) Scalar.nan
          else gradSpecX ops X e.consts vr (nDirOf X e.consts vr) t,
        gflagSpec ops X e.consts opts t, ctx') ∧
      ctx'.ScratchWF ∧ ctx'.nRows = X.cols ∧
      ctx'.plan = compilePlan hash D e.nodes X.rows e.consts.length ∧ ctx'.plan.isSome ∧
      (ctx.needsRecompile hash e X = true →
        ctx'.planNodesLen = e.nodes.length ∧ ctx'.planNConsts = e.consts.length ∧
        ctx'.planNFeatures = X.rows) ∧
      (ctx.needsRecompile hash e X = false →
        ctx'.planNodesLen = ctx.planNodesLen ∧ ctx'.planNConsts = ctx.planNConsts ∧
        ctx'.planNFeatures = ctx.planNFeatures) := by
  generalize hND : nDirOf X e.consts vr = nDir
  obtain ⟨plan, hplan, _⟩ :=
    compilePlan_of_lawful (gradLawfulX ops X e.consts vr opts hn nDir 0) hash hwf hnf hnc hops
  obtain ⟨plan', hplan', _, _, _, hrv, hrc, hexec⟩ :=
    compilePlan_of_lawful (gradLawfulX ops X e.consts vr opts hn nDir plan.nSlots) hash hwf hnf hnc hops
  rw [hplan] at hplan'
  simp only [Option.some.injEq] at hplan'
  subst hplan'
  rw [← hnodes] at hplan
  have hargs := compilePlan_args hplan
  obtain ⟨ctx1, hset, hpl1, hnr1, ⟨hv1, hv2, hv3⟩, ⟨hd1, hd2, hd3⟩, hl1, hl2⟩ :=
    DContext.setup_ok (nDir * X.cols) hplan hcoh hscr
  rw [hrows] at hv2 hv3 hnr1
  have hd3' : ctx1.der.data.length = plan.nSlots * (X.cols * nDir) := by rw [hd3, Nat.mul_comm X.cols]
  simp only [evalGradTreeArray]
  have hND' : (if vr = true then X.rows else e.consts.length) = nDir := hND
  rw [if_pos hrows, hrows, hND', hset]
  simp only
  have hx := hexec (ctx1.val.data, ctx1.der.data) (Nat.le_refl _) ⟨hv3, hd3'⟩
  obtain ⟨hok, hden⟩ := grad_denX ops X e.consts vr opts hn nDir plan.nSlots t
  rw [show (pairMachine GradRef.slice X.cols (X.cols * nDir) plan.nSlots (gradAVar X vr)
    (gradAConst e.consts vr) (gradKern ops X opts nDir) opts.earlyExit).early = opts.earlyExit from rfl]
    at hx
  have hne : t.subtrees ≠ [] := by
    intro h
    have := length_subtrees t
    rw [h] at this
    have := Tree.size_pos t
    simp at *; omega
  rw [all_or_left _ _ _ hne] at hok
  have hwfs : ∀ s : List T × List T, s.1.length = plan.nSlots * X.cols ∧
        s.2.length = plan.nSlots * (X.cols * nDir) →
      (({ ctx1 with val := { ctx1.val with data := s.1 }, der := { ctx1.der with data := s.2 } } :
        DContext T)).ScratchWF := by
    intro s hs
    refine ⟨?_, ?_⟩
    · change s.1.length = ctx1.val.nrows * ctx1.val.ncols
      rw [hv1, hv2]; exact hs.1
    · change s.2.length = ctx1.der.nrows * ctx1.der.ncols
      rw [hd1, hd2, Nat.mul_comm nDir]; exact hs.2
  by_cases hex : (opts.earlyExit &&
      !(gradLawfulX ops X e.consts vr opts hn nDir plan.nSlots).okAll t) = true
  · rw [if_pos hex] at hx
    obtain ⟨s', hg, he⟩ := hx
    rw [gradLoop_runC ops X e.consts vr opts hn nDir hargs true ⟨hv3, hd3'⟩ _ he]
    simp only [Bool.and_eq_true, Bool.not_eq_true'] at hex
    rw [hok] at hex
    have hflag : gflagSpec ops X e.consts opts t = false := by
      have h2 := hex.2
      simp only [Bool.or_eq_false_iff, Bool.not_eq_false'] at h2
      simp [gflagSpec, h2.1, h2.2]
    refine ⟨_, by simp [hflag, hex.1], hwfs s' hg, hnr1, by rw [hplan]; exact hpl1,
      by simp [hpl1], hl1, hl2⟩
  · rw [if_neg hex] at hx
    obtain ⟨s', hg, he, hroot⟩ := hx
    rw [gradLoop_runC ops X e.consts vr opts hn nDir hargs true ⟨hv3, hd3'⟩ _ he]
    have hden' : (gradLawfulX ops X e.consts vr opts hn nDir plan.nSlots).den t
        = idealX ops X e.consts vr nDir t := by
      apply hden
      simp only [Bool.and_eq_true, Bool.not_eq_true', not_and, Bool.not_eq_false] at hex
      rcases Bool.eq_false_or_eq_true opts.earlyExit with h | h
      · exact Or.inl (hex h)
      · exact Or.inr h
    rw [hden'] at hroot
    simp only
    refine ⟨{ ctx1 with val := { ctx1.val with data := s'.1 }, der := { ctx1.der with data := s'.2 } },
      ?_, hwfs s' hg, hnr1, by rw [hplan]; exact hpl1, by simp [hpl1], hl1, hl2⟩
    have hzeros : List.replicate (nDir * X.cols) (Scalar.zero : T)
        = (List.range nDir).flatMap fun _ => (List.range X.cols).map fun _ => Scalar.zero := by
      apply List.ext_getElem (by simp [List.length_flatMap, List.map_const'])
      intro i h1 h2
      have : ∀ x ∈ (List.range nDir).flatMap fun _ => (List.range X.cols).map fun _ => (Scalar.zero : T),
          x = Scalar.zero := by
        intro x hx
        simp only [List.mem_flatMap, List.mem_map] at hx
        obtain ⟨_, _, _, _, rfl⟩ := hx; rfl
      rw [List.getElem_replicate, this _ (List.getElem_mem h2)]
    cases hrt : plan.root with
    | var f =>
      have ht := (hrv f).mp hrt
      subst ht
      have hf : f < X.rows := by simpa [Tree.WF] using hwf
      have hfl : gflagSpec ops X e.consts opts (.var f) = true := by
        simp [gflagSpec, nodeGFin, rootFin]
      have hok' : (gradLawfulX ops X e.consts vr opts hn nDir plan.nSlots).okAll (.var f) = true := by simp
      simp only [hfl, hok', Bool.not_true, Bool.and_false, Bool.false_eq_true, ↓reduceIte,
        Mat.data_slice X f hf, Option.bind_some]
      have hgs : (if vr = true then
            if X.cols = 0 then none
            else some ((List.range nDir).flatMap fun d =>
              List.replicate X.cols (if d = f then Scalar.one else Scalar.zero))
          else some (List.replicate (nDir * X.cols) Scalar.zero))
          = some (gradSpecX ops X e.consts vr nDir (.var f)) := by
        cases vr with
        | true =>
          simp only [hn, if_false, gradSpecX, rowGradX, Tree.derivWith_var, replicate_range, oneHot,
            if_true, eq_comm]
        | false =>
          simp [hzeros, gradSpecX, rowGradX, noSeed]
      rw [hgs]
      simp [rowEval]
    | const c =>
      have ht := (hrc c).mp hrt
      subst ht
      have hc' : c < e.consts.length := by simpa [Tree.WF] using hwf
      have hget : e.consts[c]? = some (constAt e.consts c) := by simp [constAt, hc']
      have hfl : gflagSpec ops X e.consts opts (.const c)
          = (!opts.checkFinite || Scalar.isFinite (constAt e.consts c)) := by
        simp [gflagSpec, nodeGFin, rootFin]
      have hok' : (gradLawfulX ops X e.consts vr opts hn nDir plan.nSlots).okAll (.const c) = true := by simp
      simp only [hget, hok', hfl]
      have hgs : (if vr = true then some (List.replicate (nDir * X.cols) Scalar.zero)
          else if X.cols = 0 then none
            else some ((List.range nDir).flatMap fun d =>
              List.replicate X.cols (if d = c then Scalar.one else Scalar.zero)))
          = some (gradSpecX ops X e.consts vr nDir (.const c)) := by
        cases vr with
        | false =>
          simp only [hn, if_false, gradSpecX, rowGradX, Tree.derivWith_const, replicate_range, oneHot,
            Bool.false_eq_true, eq_comm]
        | true =>
          simp [hzeros, gradSpecX, rowGradX, noSeed]
      rw [hgs]
      rcases Bool.eq_false_or_eq_true opts.checkFinite with h1 | h1 <;>
      rcases Bool.eq_false_or_eq_true opts.earlyExit with h2 | h2 <;>
      rcases Bool.eq_false_or_eq_true (Scalar.isFinite (constAt e.consts c)) with h3 | h3 <;>
        simp [h1, h2, h3, rowEval]
    | slot k =>
      rw [hrt] at hroot
      simp only [Machine.srcVal, pairMachine, Option.bind_eq_some_iff, Option.map_eq_some_iff] at hroot
      obtain ⟨v, hv, d, hd, hvd⟩ := hroot
      have hop : rootFin e.consts t = true ∧ idealX ops X e.consts vr nDir t
          = (.slice ((List.range X.cols).map fun r => rowEval ops X e.consts r t),
             .slice (gradSpecX ops X e.consts vr nDir t)) := by
        cases t with
        | var f => exact absurd ((hrv f).mpr rfl) (by rw [hrt]; simp)
        | const f => exact absurd ((hrc f).mpr rfl) (by rw [hrt]; simp)
        | op o ts => exact ⟨rfl, rfl⟩
      have hfl : gflagSpec ops X e.consts opts t
          = (gradLawfulX ops X e.consts vr opts hn nDir plan.nSlots).okAll t := by
        rw [hok]; simp [gflagSpec, hop.1]
      rw [hop.2] at hvd
      simp only [Prod.mk.injEq, SrcRef.slice.injEq, GradRef.slice.injEq] at hvd
      simp only [hv, hd, Option.bind_some, Option.map_some, hfl]
      rw [if_neg hex, if_neg hex, hvd.1, hvd.2]


end SR
