import Verif.Proofs.GradExact
import Verif.Proofs.DiffTop
/-
The directional evaluator in any arithmetic: no law is assumed of the scalars.
-/
namespace SR
variable {T : Type} [Scalar T]

/-- A derivative column of the directional evaluator. -/
def derColD (p : List T → Nat → T) (n : Nat) (args dargs : List (SrcRef T)) : List T :=
  (List.range n).map fun r => chainDir (p (args.map (fun a => a.val r))) (dargs.map (fun a => (a.isConst, a.val r)))

theorem derColD_length (p : List T → Nat → T) (n : Nat) (args dargs : List (SrcRef T)) :
    (derColD p n args dargs).length = n := by simp [derColD]

/-- The flag of the kernel: values finite; for arity at least three also derivatives. -/
def dfinOfD (eval : List T → T) (p : List T → Nat → T) (n : Nat) (args dargs : List (SrcRef T)) :
    Bool :=
  allFinite (colOf eval n args) && (decide (args.length ≤ 2) || allFinite (derColD p n args dargs))

theorem diffNary_eqD {n : Nat} (eval : List T → T) (p : List T → Nat → T)
    {args : List (SrcRef T × SrcRef T)} (hne : args ≠ [])
    (h : ∀ a ∈ args, a.1.Good n ∧ a.2.Good n ∧ Compat a.1 a.2) (opts : EvalOptions) :
    diffNary eval p n (args.map Prod.fst) (args.map Prod.snd) opts =
      some (let ok := !opts.checkFinite || dfinOfD eval p n (args.map Prod.fst) (args.map Prod.snd)
        (if opts.earlyExit && !ok then List.replicate n Scalar.nan
            else colOf eval n (args.map Prod.fst),
         if opts.earlyExit && !ok then List.replicate n Scalar.nan
            else derColD p n (args.map Prod.fst) (args.map Prod.snd),
         ok)) := by
  match args, hne, h with
  | [(x, dx)], _, h =>
    obtain ⟨h1, h2, h3⟩ := h _ (List.mem_singleton.mpr rfl)
    simp only [List.map_cons, List.map_nil, diffNary]
    rw [gradUnaryLoop_eqX h1 h2 h3, unary_eq h1]
    simp [finishDiff_eq, dfinOfD, derColD, derColX, chainDir, chainSkip]
  | [(x, dx), (y, dy)], _, h =>
    obtain ⟨h1, h2, h3⟩ := h (x, dx) (by simp)
    obtain ⟨h4, h5, h6⟩ := h (y, dy) (by simp)
    simp only [List.map_cons, List.map_nil, diffNary]
    rw [gradBinaryLoop_eqX h1 h2 h4 h5 h3 h6, binary_eq h1 h4]
    simp [finishDiff_eq, dfinOfD, derColD, chainDir, pair2]
  | a :: b :: c :: rest, _, h =>
    have ha : ∀ x ∈ (a :: b :: c :: rest).map Prod.fst, x.Good n := by
      intro x hx; obtain ⟨y, hy, rfl⟩ := List.mem_map.mp hx; exact (h y hy).1
    have hb : ∀ x ∈ (a :: b :: c :: rest).map Prod.snd, x.Good n := by
      intro x hx; obtain ⟨y, hy, rfl⟩ := List.mem_map.mp hx; exact (h y hy).2.1
    have e : diffNary eval p n ((a :: b :: c :: rest).map Prod.fst)
        ((a :: b :: c :: rest).map Prod.snd) opts
      = (match diffLoop eval p ((a :: b :: c :: rest).map Prod.fst)
          ((a :: b :: c :: rest).map Prod.snd) opts (List.range n) true with
        | none => none
        | some none => some (List.replicate n Scalar.nan, List.replicate n Scalar.nan, false)
        | some (some (out, der, complete)) => some (finishDiff opts n n out der complete)) := rfl
    rw [e, diffLoop_eq eval p ha hb opts (List.range n) (by simp)]
    have hl : decide (((a :: b :: c :: rest).map Prod.fst).length ≤ 2) = false := by simp
    simp only [dfinOfD, hl, Bool.false_or]
    have hder : derColD p n ((a :: b :: c :: rest).map Prod.fst) ((a :: b :: c :: rest).map Prod.snd)
        = (List.range n).map fun r => chainSum (p (((a :: b :: c :: rest).map Prod.fst).map (fun a => a.val r)))
            (((a :: b :: c :: rest).map Prod.snd).map (fun a => a.val r)) := by
      simp only [derColD, List.map_cons, chainDir, List.map_map, Function.comp_def]
    rw [hder]
    generalize hcol : colOf eval n ((a :: b :: c :: rest).map Prod.fst) = col
    unfold colOf at hcol
    rw [hcol]
    generalize ((List.range n).map fun r => chainSum (p (((a :: b :: c :: rest).map Prod.fst).map (fun a => a.val r)))
            (((a :: b :: c :: rest).map Prod.snd).map (fun a => a.val r))) = der
    rcases Bool.eq_false_or_eq_true opts.checkFinite with h1 | h1 <;>
    rcases Bool.eq_false_or_eq_true opts.earlyExit with h2 | h2 <;>
    rcases Bool.eq_false_or_eq_true (allFinite col) with h3 | h3 <;>
    rcases Bool.eq_false_or_eq_true (allFinite der) with h4 | h4 <;>
      simp [finishDiff, h1, h2, h3, h4]

section Diff
variable (ops : OpSet T) (X : Mat T) (consts : List T) (dir : Nat) (opts : EvalOptions)

def diffKD (a o : Nat) (args : List (SrcRef T × SrcRef T)) : (List T × List T) × Bool :=
  let ok := !opts.checkFinite ||
    dfinOfD (ops.eval a o) (ops.partial_ a o) X.cols (args.map Prod.fst) (args.map Prod.snd)
  ((if opts.earlyExit && !ok then List.replicate X.cols Scalar.nan
      else colOf (ops.eval a o) X.cols (args.map Prod.fst),
    if opts.earlyExit && !ok then List.replicate X.cols Scalar.nan
      else derColD (ops.partial_ a o) X.cols (args.map Prod.fst) (args.map Prod.snd)), ok)

theorem diffKern_eqD {a o : Nat} {args : List (SrcRef T × SrcRef T)} (hne : args ≠ [])
    (hk : ops.known a o = true) (h : ∀ x ∈ args, DGood X.cols x) :
    diffKern ops X opts a o args = some (diffKD ops X opts a o args) := by
  rw [diffKern, if_pos hk, diffNary_eqD _ _ hne h]; rfl

theorem diffK_lengthD (a o : Nat) (args : List (SrcRef T × SrcRef T)) :
    (diffKD ops X opts a o args).1.1.length = X.cols ∧
      (diffKD ops X opts a o args).1.2.length = X.cols := by
  simp only [diffKD]
  constructor <;> split <;> simp [colOf_length, derColD_length]

def diffLawfulD (N : Nat) : (pairMachine SrcRef.slice X.cols X.cols N (diffAVar X dir)
    (diffAConst consts) (diffKern ops X opts) opts.earlyExit).Lawful X.rows consts.length ops.known :=
  pairLawful SrcRef.slice X.cols X.cols N (diffAVar X dir)
    (diffAConst consts) (diffKern ops X opts) opts.earlyExit X.rows consts.length ops.known
    (DGood X.cols) (fun v d hv hd => ⟨hv, hd, by simp [Compat, SrcRef.isConst]⟩)
    (fun f => (.slice ((List.range X.cols).map (X.at' f)), .const (oneHot dir f)))
    (fun c => (.const (constAt consts c), .const Scalar.zero))
    (diffKD ops X opts)
    (fun f hf => ⟨by simp [diffAVar, Mat.data_slice X f hf, oneHot],
      by simp [DGood, SrcRef.Good, Compat, SrcRef.isConst]⟩)
    (fun c hc => ⟨by simp [diffAConst, constAt, hc],
      by simp [DGood, SrcRef.Good, Compat, SrcRef.isConst]⟩)
    (fun a o args hl ha hk hg => ⟨diffKern_eqD ops X opts
      (by intro h; subst h; simp at hl; omega) hk hg, diffK_lengthD ops X opts a o args⟩)

/-- Chain-rule derivative of a tree at row `r`, in feature direction `dir`. -/
def rowDerivD (r : Nat) (t : Tree) : T :=
  t.derivDir ops (fun f => X.at' f r) (constAt consts) (oneHot dir) noSeed

theorem rowDeriv_opD (r o ts) : rowDerivD ops X consts dir r (.op o ts)
    = chainDir (ops.partial_ ts.length o (ts.map (rowEval ops X consts r)))
        (ts.map fun t => (t.isLeaf, rowDerivD ops X consts dir r t)) := by
  simp [rowDerivD]; rfl

def idealDD (t : Tree) : SrcRef T × SrcRef T :=
  match t with
  | .var f => (.slice ((List.range X.cols).map (X.at' f)), .const (oneHot dir f))
  | .const c => (.const (constAt consts c), .const Scalar.zero)
  | t => (.slice ((List.range X.cols).map fun r => rowEval ops X consts r t),
      .slice ((List.range X.cols).map fun r => rowDerivD ops X consts dir r t))

theorem idealD_valD {r : Nat} (hr : r < X.cols) (t : Tree) :
    (idealDD ops X consts dir t).1.val r = rowEval ops X consts r t ∧
    (idealDD ops X consts dir t).2.val r = rowDerivD ops X consts dir r t := by
  cases t with
  | var f => simp [idealDD, SrcRef.val, hr, rowEval, rowDerivD]
  | const c => simp [idealDD, SrcRef.val, rowEval, rowDerivD, noSeed]
  | op o ts => simp [idealDD, SrcRef.val, hr]

/-- Node flag of the derivative evaluator: every row's value is finite; for operators of arity at
least three also every row's derivative. -/
def nodeDFinD : Tree → Bool
  | .op o ts => ((List.range X.cols).all fun r => Scalar.isFinite (rowEval ops X consts r (.op o ts))) &&
      (decide (ts.length ≤ 2) ||
        (List.range X.cols).all fun r => Scalar.isFinite (rowDerivD ops X consts dir r (.op o ts)))
  | _ => true

theorem colOf_idealDD (o : Nat) (ts : List Tree) :
    colOf (ops.eval ts.length o) X.cols ((ts.map (idealDD ops X consts dir)).map Prod.fst)
      = (List.range X.cols).map fun r => rowEval ops X consts r (.op o ts) := by
  unfold colOf
  apply List.map_congr_left
  intro r hr
  rw [rowEval_op, List.map_map, List.map_map]
  congr 1
  exact List.map_congr_left fun t _ => (idealD_valD ops X consts dir (by simpa using hr) t).1

theorem derColD_ideal (o : Nat) (ts : List Tree) :
    derColD (ops.partial_ ts.length o) X.cols ((ts.map (idealDD ops X consts dir)).map Prod.fst)
      ((ts.map (idealDD ops X consts dir)).map Prod.snd)
      = (List.range X.cols).map fun r => rowDerivD ops X consts dir r (.op o ts) := by
  unfold derColD
  apply List.map_congr_left
  intro r hr
  rw [rowDeriv_opD]
  simp only [List.map_map]
  congr 2
  · exact List.map_congr_left fun t _ => (idealD_valD ops X consts dir (by simpa using hr) t).1
  · refine funext fun t => ?_
    simp only [Function.comp_apply]
    rw [(idealD_valD ops X consts dir (by simpa using hr) t).2]
    cases t <;> rfl

theorem diff_denD (N : Nat) (t : Tree) :
    (diffLawfulD ops X consts dir opts N).okAll t
        = t.subtrees.all (fun s => !opts.checkFinite || nodeDFinD ops X consts dir s) ∧
    (((diffLawfulD ops X consts dir opts N).okAll t = true ∨ opts.earlyExit = false) →
      (diffLawfulD ops X consts dir opts N).den t = idealDD ops X consts dir t) := by
  apply (diffLawfulD ops X consts dir opts N).den_ideal
  · intro f; rfl
  · intro c; rfl
  · intro f; simp [nodeDFinD]
  · intro f; simp [nodeDFinD]
  · intro o ts
    have hok : ((diffLawfulD ops X consts dir opts N).K ts.length o
        (ts.map (idealDD ops X consts dir))).2
        = (!opts.checkFinite || nodeDFinD ops X consts dir (.op o ts)) := by
      change (!opts.checkFinite || dfinOfD _ _ _ _ _) = _
      rw [dfinOfD, colOf_idealDD, derColD_ideal]
      simp [nodeDFinD, allFinite, List.all_map, Function.comp_def]
    refine ⟨hok, fun h => ?_⟩
    have hK : ((diffLawfulD ops X consts dir opts N).K ts.length o
        (ts.map (idealDD ops X consts dir))).1
        = ((List.range X.cols).map (fun r => rowEval ops X consts r (.op o ts)),
           (List.range X.cols).map (fun r => rowDerivD ops X consts dir r (.op o ts))) := by
      rw [← hok] at h
      rw [← colOf_idealDD ops X consts dir, ← derColD_ideal]
      change (diffKD ops X opts _ _ _).1 = _
      change (diffKD ops X opts _ _ _).2 = true ∨ _ at h
      revert h
      simp only [diffKD]
      intro h
      rw [if_neg, if_neg]
      · rcases h with h | h
        · rw [h]; simp
        · have : opts.earlyExit = false := h
          simp [this]
      · rcases h with h | h
        · rw [h]; simp
        · have : opts.earlyExit = false := h
          simp [this]
    rw [hK]
    rfl

theorem diffLoop_runD {N : Nat} {is : List Instr} (hne : ∀ i ∈ is, i.args ≠ [])
    {s : List T × List T} (c : Bool) (hs : s.1.length = N * X.cols ∧ s.2.length = N * X.cols) (r)
    (h : (pairMachine SrcRef.slice X.cols X.cols N (diffAVar X dir)
    (diffAConst consts) (diffKern ops X opts) opts.earlyExit).exec is s c = some r) :
    instrLoop opts.earlyExit (diffInstr ops X.data consts X.cols dir opts) is s c = some r := by
  refine instrLoop_of_exec (diffLawfulD ops X consts dir opts N) _ ?_ ?_ ?_ is hne s c hs r h
  · intro s i hs hd _
    exact diffInstr_eq ops X consts dir opts hs i hd
  · intro s d a x hs hx
    cases a with
    | var f =>
      simp only [Machine.resolve, pairMachine, diffAVar, Option.map_eq_some_iff] at hx
      obtain ⟨v, hv, rfl⟩ := hx
      exact ⟨slice?_length hv, trivial, by simp [Compat, SrcRef.isConst]⟩
    | const c =>
      simp only [Machine.resolve, pairMachine, diffAConst, Option.map_eq_some_iff] at hx
      obtain ⟨v, hv, rfl⟩ := hx
      exact ⟨trivial, trivial, by simp [Compat, SrcRef.isConst]⟩
    | slot k =>
      simp only [Machine.resolve, pairMachine] at hx
      split at hx
      · simp at hx
      · simp only [Option.bind_eq_some_iff, Option.map_eq_some_iff] at hx
        obtain ⟨v, hv, d, hd, rfl⟩ := hx
        exact ⟨slice?_length hv, slice?_length hd, by simp [Compat, SrcRef.isConst]⟩
  · intro a o args p ok hne hg hk
    change diffKern ops X opts a o args = some (p, ok) at hk
    by_cases hkn : ops.known a o = true
    · rw [diffKern_eqD ops X opts hne hkn hg] at hk
      simp only [Option.some.injEq] at hk
      have := diffK_lengthD ops X opts a o args
      rw [hk] at this
      exact this
    · simp [diffKern, hkn] at hk

end Diff

/-- The flag the directional-derivative evaluator should return. -/
def dflagSpecD (ops : OpSet T) (X : Mat T) (consts : List T) (dir : Nat) (opts : EvalOptions)
    (t : Tree) : Bool :=
  !opts.checkFinite || (t.subtrees.all (nodeDFinD ops X consts dir) && rootFin consts t)

theorem evalDiffTreeArray_exact (ops : OpSet T) (hash : List PNode → UInt64) {D : Nat}
    {t : Tree} (X : Mat T) (e : PostfixExpr T) (dir : Nat) (opts : EvalOptions) (ctx : DContext T)
    (hnodes : e.nodes = t.toPostfix) (hwf : t.WF ops D X.rows e.consts.length)
    (hnf : X.rows ≤ u16Max) (hnc : e.consts.length ≤ u16Max) (hops : t.numOps ≤ u16Max)
    (hdir : dir < X.rows) (hrows : ctx.nRows = X.cols) (hscr : ctx.ScratchWF)
    (hcoh : ctx.Coherent hash D e X) :
    ∃ ctx', evalDiffTreeArray ops hash D e X dir ctx opts
      = some (if opts.earlyExit && !dflagSpecD ops X e.consts dir opts t then
            List.replicate X.cols Scalar.nan
          else (List.range X.cols).map fun r => rowEval ops X e.consts r t,
        if opts.earlyExit && !dflagSpecD ops X e.consts dir opts t then
            List.replicate X.cols Scalar.nan
          else (List.range X.cols).map fun r => rowDerivD ops X e.consts dir r t,
        dflagSpecD ops X e.consts dir opts t, ctx') ∧
      ctx'.ScratchWF ∧ ctx'.nRows = X.cols ∧
      ctx'.plan = compilePlan hash D e.nodes X.rows e.consts.length ∧ ctx'.plan.isSome ∧
      (ctx.needsRecompile hash e X = true →
        ctx'.planNodesLen = e.nodes.length ∧ ctx'.planNConsts = e.consts.length ∧
        ctx'.planNFeatures = X.rows) ∧
      (ctx.needsRecompile hash e X = false →
        ctx'.planNodesLen = ctx.planNodesLen ∧ ctx'.planNConsts = ctx.planNConsts ∧
        ctx'.planNFeatures = ctx.planNFeatures) := by
  obtain ⟨plan, hplan, _⟩ :=
    compilePlan_of_lawful (diffLawfulD ops X e.consts dir opts 0) hash hwf hnf hnc hops
  obtain ⟨plan', hplan', _, _, _, hrv, hrc, hexec⟩ :=
    compilePlan_of_lawful (diffLawfulD ops X e.consts dir opts plan.nSlots) hash hwf hnf hnc hops
  rw [hplan] at hplan'
  simp only [Option.some.injEq] at hplan'
  subst hplan'
  rw [← hnodes] at hplan
  have hargs := compilePlan_args hplan
  obtain ⟨ctx1, hset, hpl1, hnr1, ⟨hv1, hv2, hv3⟩, ⟨hd1, hd2, hd3⟩, hl1, hl2⟩ :=
    DContext.setup_ok X.cols hplan hcoh hscr
  rw [hrows] at hv2 hv3 hnr1
  simp only [evalDiffTreeArray]
  rw [if_pos ⟨hdir, hrows⟩, hrows, hset]
  simp only
  have hx := hexec (ctx1.val.data, ctx1.der.data) (Nat.le_refl _) ⟨hv3, hd3⟩
  obtain ⟨hok, hden⟩ := diff_denD ops X e.consts dir opts plan.nSlots t
  rw [show (pairMachine SrcRef.slice X.cols X.cols plan.nSlots (diffAVar X dir)
    (diffAConst e.consts) (diffKern ops X opts) opts.earlyExit).early = opts.earlyExit from rfl] at hx
  have hne : t.subtrees ≠ [] := by
    intro h
    have := length_subtrees t
    rw [h] at this
    have := Tree.size_pos t
    simp at *; omega
  rw [all_or_left _ _ _ hne] at hok
  have hwfs : ∀ s : List T × List T, s.1.length = plan.nSlots * X.cols ∧ s.2.length = plan.nSlots * X.cols →
      (({ ctx1 with val := { ctx1.val with data := s.1 }, der := { ctx1.der with data := s.2 } } :
        DContext T)).ScratchWF := by
    intro s hs
    refine ⟨?_, ?_⟩
    · change s.1.length = ctx1.val.nrows * ctx1.val.ncols
      rw [hv1, hv2]; exact hs.1
    · change s.2.length = ctx1.der.nrows * ctx1.der.ncols
      rw [hd1, hd2]; exact hs.2
  by_cases hex : (opts.earlyExit && !(diffLawfulD ops X e.consts dir opts plan.nSlots).okAll t) = true
  · rw [if_pos hex] at hx
    obtain ⟨s', hg, he⟩ := hx
    rw [diffLoop_runD ops X e.consts dir opts hargs true ⟨hv3, hd3⟩ _ he]
    simp only [Bool.and_eq_true, Bool.not_eq_true'] at hex
    rw [hok] at hex
    have hflag : dflagSpecD ops X e.consts dir opts t = false := by
      have h2 := hex.2
      simp only [Bool.or_eq_false_iff, Bool.not_eq_false'] at h2
      simp [dflagSpecD, h2.1, h2.2]
    refine ⟨_, by simp [hflag, hex.1], hwfs s' hg, hnr1, by rw [hplan]; exact hpl1,
      by simp [hpl1], hl1, hl2⟩
  · rw [if_neg hex] at hx
    obtain ⟨s', hg, he, hroot⟩ := hx
    rw [diffLoop_runD ops X e.consts dir opts hargs true ⟨hv3, hd3⟩ _ he]
    have hden' : (diffLawfulD ops X e.consts dir opts plan.nSlots).den t = idealDD ops X e.consts dir t := by
      apply hden
      simp only [Bool.and_eq_true, Bool.not_eq_true', not_and, Bool.not_eq_false] at hex
      rcases Bool.eq_false_or_eq_true opts.earlyExit with h | h
      · exact Or.inl (hex h)
      · exact Or.inr h
    rw [hden'] at hroot
    simp only
    refine ⟨{ ctx1 with val := { ctx1.val with data := s'.1 }, der := { ctx1.der with data := s'.2 } },
      ?_, hwfs s' hg, hnr1, by rw [hplan]; exact hpl1, by simp [hpl1], hl1, hl2⟩
    cases hrt : plan.root with
    | var f =>
      have ht := (hrv f).mp hrt
      subst ht
      have hf : f < X.rows := by simpa [Tree.WF] using hwf
      have hfl : dflagSpecD ops X e.consts dir opts (.var f) = true := by
        simp [dflagSpecD, nodeDFinD, rootFin]
      have hok' : (diffLawfulD ops X e.consts dir opts plan.nSlots).okAll (.var f) = true := by simp
      simp only [hfl, hok', Bool.not_true, Bool.and_false, Bool.false_eq_true, ↓reduceIte,
        Mat.data_slice X f hf, Option.map_some]
      simp [rowEval, rowDerivD, oneHot, List.map_const']
    | const c =>
      have ht := (hrc c).mp hrt
      subst ht
      have hc' : c < e.consts.length := by simpa [Tree.WF] using hwf
      have hget : e.consts[c]? = some (constAt e.consts c) := by simp [constAt, hc']
      have hfl : dflagSpecD ops X e.consts dir opts (.const c)
          = (!opts.checkFinite || Scalar.isFinite (constAt e.consts c)) := by
        simp [dflagSpecD, nodeDFinD, rootFin]
      have hok' : (diffLawfulD ops X e.consts dir opts plan.nSlots).okAll (.const c) = true := by simp
      simp only [hget, hok', hfl]
      rcases Bool.eq_false_or_eq_true opts.checkFinite with h1 | h1 <;>
      rcases Bool.eq_false_or_eq_true opts.earlyExit with h2 | h2 <;>
      rcases Bool.eq_false_or_eq_true (Scalar.isFinite (constAt e.consts c)) with h3 | h3 <;>
        simp [h1, h2, h3, List.map_const', rowEval, rowDerivD, noSeed]
    | slot k =>
      rw [hrt] at hroot
      simp only [Machine.srcVal, pairMachine, Option.bind_eq_some_iff, Option.map_eq_some_iff] at hroot
      obtain ⟨v, hv, d, hd, hvd⟩ := hroot
      have hop : rootFin e.consts t = true ∧ idealDD ops X e.consts dir t
          = (.slice ((List.range X.cols).map fun r => rowEval ops X e.consts r t),
             .slice ((List.range X.cols).map fun r => rowDerivD ops X e.consts dir r t)) := by
        cases t with
        | var f => exact absurd ((hrv f).mpr rfl) (by rw [hrt]; simp)
        | const f => exact absurd ((hrc f).mpr rfl) (by rw [hrt]; simp)
        | op o ts => exact ⟨rfl, rfl⟩
      have hfl : dflagSpecD ops X e.consts dir opts t
          = (diffLawfulD ops X e.consts dir opts plan.nSlots).okAll t := by
        rw [hok]; simp [dflagSpecD, hop.1]
      rw [hop.2] at hvd
      simp only [Prod.mk.injEq, SrcRef.slice.injEq] at hvd
      simp only [hv, hd, Option.bind_some, Option.map_some, hfl]
      rw [if_neg hex, if_neg hex, hvd.1, hvd.2]

end SR
