import Verif.Proofs.DiffTop
/-
Correctness of `eval_grad_tree_array`.
-/
namespace SR
variable {T : Type} [Scalar T]

section Grad
variable (ops : OpSet T) (X : Mat T) (consts : List T) (vr : Bool) (opts : EvalOptions)

/-- Number of gradient directions. -/
def nDirOf : Nat := if vr then X.rows else consts.length

def gradAVar (f : Nat) : Option (SrcRef T × GradRef T) :=
  (slice? X.data (f * X.cols) X.cols).map fun v => (.slice v, if vr then .basis f else .zero)

def gradAConst (c : Nat) : Option (SrcRef T × GradRef T) :=
  consts[c]?.map fun v => (.const v, if vr then .zero else .basis c)

def gradKern (nDir : Nat) (a o : Nat) (args : List (SrcRef T × GradRef T)) :
    Option ((List T × List T) × Bool) :=
  if ops.known a o then
    (gradNary (ops.eval a o) (ops.partial_ a o) X.cols nDir (args.map Prod.fst) (args.map Prod.snd)
      opts).map fun r => ((r.1, r.2.1), r.2.2)
  else none

def gradK (nDir : Nat) (a o : Nat) (args : List (SrcRef T × GradRef T)) : (List T × List T) × Bool :=
  let ok := !opts.checkFinite || allFinite (colOf (ops.eval a o) X.cols (args.map Prod.fst))
  ((if opts.earlyExit && !ok then List.replicate X.cols Scalar.nan
      else colOf (ops.eval a o) X.cols (args.map Prod.fst),
    if opts.earlyExit && !ok then List.replicate (nDir * X.cols) Scalar.nan
      else gradSlab (ops.partial_ a o) X.cols nDir (args.map Prod.fst) (args.map Prod.snd)), ok)

def GGood (n nDir : Nat) (x : SrcRef T × GradRef T) : Prop :=
  x.1.Good n ∧ x.2.Good n nDir ∧ GCompat x.1 x.2

theorem gradKern_eq [ZeroLaws T] (hn : X.cols ≠ 0) (nDir : Nat) {a o : Nat}
    {args : List (SrcRef T × GradRef T)} (hne : args ≠ [])
    (hk : ops.known a o = true) (h : ∀ x ∈ args, GGood X.cols nDir x) :
    gradKern ops X opts nDir a o args = some (gradK ops X opts nDir a o args) := by
  rw [gradKern, if_pos hk, gradNary_eq hn _ _ hne h]; rfl

theorem gradK_length (nDir a o : Nat) (args : List (SrcRef T × GradRef T)) :
    (gradK ops X opts nDir a o args).1.1.length = X.cols ∧
      (gradK ops X opts nDir a o args).1.2.length = X.cols * nDir := by
  simp only [gradK]
  constructor <;> split <;> simp [colOf_length, gradSlab_length, Nat.mul_comm]

def gradLawful [ZeroLaws T] (hn : X.cols ≠ 0) (nDir N : Nat) :
    (pairMachine GradRef.slice X.cols (X.cols * nDir) N (gradAVar X vr) (gradAConst consts vr)
      (gradKern ops X opts nDir) opts.earlyExit).Lawful X.rows consts.length ops.known :=
  pairLawful GradRef.slice X.cols (X.cols * nDir) N (gradAVar X vr)
    (gradAConst consts vr) (gradKern ops X opts nDir) opts.earlyExit X.rows consts.length ops.known
    (GGood X.cols nDir)
    (fun v d hv hd => ⟨hv, by rw [GradRef.Good, hd, Nat.mul_comm], by simp [GCompat, SrcRef.isConst]⟩)
    (fun f => (.slice ((List.range X.cols).map (X.at' f)), if vr then .basis f else .zero))
    (fun c => (.const (constAt consts c), if vr then .zero else .basis c))
    (gradK ops X opts nDir)
    (fun f hf => ⟨by simp [gradAVar, Mat.data_slice X f hf],
      by cases vr <;> simp [GGood, SrcRef.Good, GCompat, SrcRef.isConst, GradRef.Good]⟩)
    (fun c hc => ⟨by simp [gradAConst, constAt, hc],
      by cases vr <;> simp [GGood, SrcRef.Good, GCompat, SrcRef.isConst, GradRef.Good, GradRef.isConst]⟩)
    (fun a o args hl ha hk hg => ⟨gradKern_eq ops X opts hn nDir
      (by intro h; subst h; simp at hl; omega) hk hg, gradK_length ops X opts nDir a o args⟩)

/-- Chain-rule derivative of a tree at row `r` in direction `dir`: with respect to feature `dir`
(`vr = true`) or constant `dir` (`vr = false`). -/
def rowGrad (dir r : Nat) (t : Tree) : T :=
  t.deriv ops (fun f => X.at' f r) (constAt consts)
    (if vr then oneHot dir else noSeed) (if vr then noSeed else oneHot dir)

theorem rowGrad_op (dir r o ts) : rowGrad ops X consts vr dir r (.op o ts)
    = chainSum (ops.partial_ ts.length o (ts.map (rowEval ops X consts r)))
        (ts.map (rowGrad ops X consts vr dir r)) := by
  simp [rowGrad]; rfl

/-- The flat dir-major gradient the evaluator should return. -/
def gradSpec (nDir : Nat) (t : Tree) : List T :=
  (List.range nDir).flatMap fun dir => (List.range X.cols).map fun r => rowGrad ops X consts vr dir r t

def idealG (nDir : Nat) (t : Tree) : SrcRef T × GradRef T :=
  match t with
  | .var f => (.slice ((List.range X.cols).map (X.at' f)), if vr then .basis f else .zero)
  | .const c => (.const (constAt consts c), if vr then .zero else .basis c)
  | t => (.slice ((List.range X.cols).map fun r => rowEval ops X consts r t),
      .slice (gradSpec ops X consts vr nDir t))

theorem flatMap_getElem {nDir n dir r : Nat} (f : Nat → Nat → T) (hd : dir < nDir) (hr : r < n) :
    ((List.range nDir).flatMap fun d => (List.range n).map (f d))[dir * n + r]? = some (f dir r) := by
  have := slice?_flatten (LL := (List.range nDir).map fun d => (List.range n).map (f d)) (n := n)
    (by simp) dir (by simpa using hd)
  rw [← List.flatMap_def] at this
  unfold slice? at this
  split at this
  · simp only [Option.some.injEq] at this
    have h2 := congrArg (fun l : List T => l[r]?) this
    simpa [List.getElem?_take, hr, List.getElem?_drop] using h2
  · simp at this

theorem idealG_val {nDir dir r : Nat} (hd : dir < nDir) (hr : r < X.cols) (t : Tree) :
    (idealG ops X consts vr nDir t).1.val r = rowEval ops X consts r t ∧
    (idealG ops X consts vr nDir t).2.val X.cols dir r = rowGrad ops X consts vr dir r t := by
  cases t with
  | var f =>
    refine ⟨by simp [idealG, SrcRef.val, hr, rowEval], ?_⟩
    cases vr <;> simp [idealG, GradRef.val, rowGrad, oneHot, noSeed, eq_comm]
  | const c =>
    refine ⟨by simp [idealG, SrcRef.val, rowEval], ?_⟩
    cases vr <;> simp [idealG, GradRef.val, rowGrad, oneHot, noSeed, eq_comm]
  | op o ts =>
    refine ⟨by simp [idealG, SrcRef.val, hr], ?_⟩
    simp only [idealG, GradRef.val, gradSpec]
    rw [flatMap_getElem (fun dir r => rowGrad ops X consts vr dir r (.op o ts)) hd hr]
    rfl

theorem idealG_val1 {nDir r : Nat} (hr : r < X.cols) (t : Tree) :
    (idealG ops X consts vr nDir t).1.val r = rowEval ops X consts r t := by
  cases t <;> simp [idealG, SrcRef.val, hr, rowEval]

/-- Node flag of the gradient evaluator: every row's value is finite. -/
def nodeGFin : Tree → Bool
  | .op o ts => (List.range X.cols).all fun r => Scalar.isFinite (rowEval ops X consts r (.op o ts))
  | _ => true

theorem colOf_idealG (nDir o : Nat) (ts : List Tree) :
    colOf (ops.eval ts.length o) X.cols ((ts.map (idealG ops X consts vr nDir)).map Prod.fst)
      = (List.range X.cols).map fun r => rowEval ops X consts r (.op o ts) := by
  unfold colOf
  apply List.map_congr_left
  intro r hr
  rw [rowEval_op, List.map_map, List.map_map]
  congr 1
  exact List.map_congr_left fun t _ => idealG_val1 ops X consts vr (by simpa using hr) t

theorem gradSlab_idealG (nDir o : Nat) (ts : List Tree) :
    gradSlab (ops.partial_ ts.length o) X.cols nDir ((ts.map (idealG ops X consts vr nDir)).map Prod.fst)
      ((ts.map (idealG ops X consts vr nDir)).map Prod.snd)
      = gradSpec ops X consts vr nDir (.op o ts) := by
  unfold gradSlab gradSpec
  simp only [List.flatMap_def]
  congr 1
  apply List.map_congr_left
  intro dir hdir
  apply List.map_congr_left
  intro r hr
  rw [rowGrad_op]
  simp only [List.map_map]
  congr 2
  · exact List.map_congr_left fun t _ => idealG_val1 ops X consts vr (by simpa using hr) t
  · exact funext fun t =>
      (idealG_val ops X consts vr (by simpa using hdir) (by simpa using hr) t).2

theorem grad_den [ZeroLaws T] (hn : X.cols ≠ 0) (nDir N : Nat) (t : Tree) :
    (gradLawful ops X consts vr opts hn nDir N).okAll t
        = t.subtrees.all (fun s => !opts.checkFinite || nodeGFin ops X consts s) ∧
    (((gradLawful ops X consts vr opts hn nDir N).okAll t = true ∨ opts.earlyExit = false) →
      (gradLawful ops X consts vr opts hn nDir N).den t = idealG ops X consts vr nDir t) := by
  apply (gradLawful ops X consts vr opts hn nDir N).den_ideal
  · intro f; rfl
  · intro c; rfl
  · intro f; simp [nodeGFin]
  · intro f; simp [nodeGFin]
  · intro o ts
    have hok : ((gradLawful ops X consts vr opts hn nDir N).K ts.length o
        (ts.map (idealG ops X consts vr nDir))).2
        = (!opts.checkFinite || nodeGFin ops X consts (.op o ts)) := by
      change (!opts.checkFinite || allFinite (colOf _ _ _)) = _
      rw [colOf_idealG]
      simp [nodeGFin, allFinite, List.all_map, Function.comp_def]
    refine ⟨hok, fun h => ?_⟩
    have hK : ((gradLawful ops X consts vr opts hn nDir N).K ts.length o
        (ts.map (idealG ops X consts vr nDir))).1
        = ((List.range X.cols).map (fun r => rowEval ops X consts r (.op o ts)),
           gradSpec ops X consts vr nDir (.op o ts)) := by
      rw [← hok] at h
      rw [← colOf_idealG ops X consts vr nDir, ← gradSlab_idealG]
      change (gradK ops X opts nDir _ _ _).1 = _
      change (gradK ops X opts nDir _ _ _).2 = true ∨ _ at h
      revert h
      simp only [gradK]
      intro h
      rw [if_neg, if_neg]
      · rcases h with h | h
        · rw [h]; simp
        · have : opts.earlyExit = false := h
          simp [this]
      · rcases h with h | h
        · rw [h]; simp
        · have : opts.earlyExit = false := h
          simp [this]
    rw [hK]
    rfl

theorem gradInstr_eq (nDir : Nat) {N : Nat} {s : List T × List T}
    (hs : s.1.length = N * X.cols ∧ s.2.length = N * (X.cols * nDir))
    (i : Instr) (hd : i.dst < N) :
    gradInstr ops X.data consts X.cols nDir vr opts s i
      = (pairMachine GradRef.slice X.cols (X.cols * nDir) N (gradAVar X vr) (gradAConst consts vr)
      (gradKern ops X opts nDir) opts.earlyExit).step s i := by
  have hle1 := slot_le (n := X.cols) hd hs.1
  have hle2 := slot_le (n := X.cols * nDir) hd hs.2
  simp only [gradInstr, Machine.step]
  rw [if_pos ⟨hle1, hle2⟩, if_pos (by exact hd)]
  have hres : ∀ a ∈ i.args, ((resolveValSrc a X.data X.cols consts i.dst
      (s.1.take (i.dst * X.cols)) (s.1.drop (i.dst * X.cols + X.cols))).bind fun v =>
      (resolveGradSrc a vr i.dst (s.2.take (i.dst * (X.cols * nDir)))
        (s.2.drop (i.dst * (X.cols * nDir) + (X.cols * nDir)))
        (X.cols * nDir)).map fun d => (v, d))
      = (pairMachine GradRef.slice X.cols (X.cols * nDir) N (gradAVar X vr) (gradAConst consts vr)
      (gradKern ops X opts nDir) opts.earlyExit).resolve s i.dst a := by
    intro a _
    cases a with
    | var f =>
      simp only [resolveValSrc, resolveGradSrc, Machine.resolve, pairMachine, gradAVar]
      cases slice? X.data (f * X.cols) X.cols <;> rfl
    | const c =>
      simp only [resolveValSrc, resolveGradSrc, Machine.resolve, pairMachine, gradAConst]
      cases consts[c]? <;> rfl
    | slot k =>
      simp only [resolveValSrc, resolveGradSrc, Machine.resolve, pairMachine]
      rcases Nat.lt_trichotomy k i.dst with h | h | h
      · rw [if_pos h, if_pos h, if_neg (by omega), slice?_before h (by omega), slice?_before h (by omega)]
        cases slice? s.1 (k * X.cols) X.cols <;>
          cases slice? s.2 (k * (X.cols * nDir)) (X.cols * nDir) <;> rfl
      · subst h; simp
      · rw [if_neg (by omega), if_pos h, if_neg (by omega), if_pos h, if_neg (by omega),
          slice?_after h hle1, slice?_after h hle2]
        cases slice? s.1 (k * X.cols) X.cols <;>
          cases slice? s.2 (k * (X.cols * nDir)) (X.cols * nDir) <;> rfl
  rw [mapM_option_congr hres]
  cases (i.args.mapM ((pairMachine GradRef.slice X.cols (X.cols * nDir) N (gradAVar X vr)
      (gradAConst consts vr) (gradKern ops X opts nDir) opts.earlyExit).resolve s i.dst)) with
  | none => rfl
  | some args =>
    simp only [pairMachine, gradKern]
    by_cases hk : ops.known i.arity i.op = true
    · simp only [hk, ↓reduceIte]
      cases gradNary (ops.eval i.arity i.op) (ops.partial_ i.arity i.op) X.cols nDir
        (args.map Prod.fst) (args.map Prod.snd) opts with
      | none => rfl
      | some r => rfl
    · simp [hk]

theorem gradLoop_run [ZeroLaws T] (hn : X.cols ≠ 0) (nDir : Nat) {N : Nat} {is : List Instr}
    (hne : ∀ i ∈ is, i.args ≠ [])
    {s : List T × List T} (c : Bool)
    (hs : s.1.length = N * X.cols ∧ s.2.length = N * (X.cols * nDir)) (r)
    (h : (pairMachine GradRef.slice X.cols (X.cols * nDir) N (gradAVar X vr) (gradAConst consts vr)
      (gradKern ops X opts nDir) opts.earlyExit).exec is s c = some r) :
    instrLoop opts.earlyExit (gradInstr ops X.data consts X.cols nDir vr opts) is s c = some r := by
  refine instrLoop_of_exec (gradLawful ops X consts vr opts hn nDir N) _ ?_ ?_ ?_ is hne s c hs r h
  · intro s i hs hd _
    exact gradInstr_eq ops X consts vr opts nDir hs i hd
  · intro s d a x hs hx
    cases a with
    | var f =>
      simp only [Machine.resolve, pairMachine, gradAVar, Option.map_eq_some_iff] at hx
      obtain ⟨v, hv, rfl⟩ := hx
      exact ⟨slice?_length hv, by cases vr <;> trivial, by simp [GCompat, SrcRef.isConst]⟩
    | const c =>
      simp only [Machine.resolve, pairMachine, gradAConst, Option.map_eq_some_iff] at hx
      obtain ⟨v, hv, rfl⟩ := hx
      exact ⟨trivial, by cases vr <;> trivial, by cases vr <;> simp [GCompat, GradRef.isConst]⟩
    | slot k =>
      simp only [Machine.resolve, pairMachine] at hx
      split at hx
      · simp at hx
      · simp only [Option.bind_eq_some_iff, Option.map_eq_some_iff] at hx
        obtain ⟨v, hv, d, hd, rfl⟩ := hx
        exact ⟨slice?_length hv, by rw [GradRef.Good, slice?_length hd, Nat.mul_comm],
          by simp [GCompat, SrcRef.isConst]⟩
  · intro a o args p ok hne hg hk
    change gradKern ops X opts nDir a o args = some (p, ok) at hk
    by_cases hkn : ops.known a o = true
    · rw [gradKern_eq ops X opts hn nDir hne hkn hg] at hk
      simp only [Option.some.injEq] at hk
      have := gradK_length ops X opts nDir a o args
      rw [hk] at this
      exact this
    · simp [gradKern, hkn] at hk

end Grad

/-- The flag the gradient evaluator should return. -/
def gflagSpec (ops : OpSet T) (X : Mat T) (consts : List T) (opts : EvalOptions) (t : Tree) : Bool :=
  !opts.checkFinite || (t.subtrees.all (nodeGFin ops X consts) && rootFin consts t)

theorem evalGradTreeArray_correct [ZeroLaws T] (ops : OpSet T) (hash : List PNode → UInt64) {D : Nat}
    {t : Tree} (X : Mat T) (e : PostfixExpr T) (vr : Bool) (opts : EvalOptions) (ctx : DContext T)
    (hnodes : e.nodes = t.toPostfix) (hwf : t.WF ops D X.rows e.consts.length)
    (hnf : X.rows ≤ u16Max) (hnc : e.consts.length ≤ u16Max) (hops : t.numOps ≤ u16Max)
    (hn : X.cols ≠ 0) (hrows : ctx.nRows = X.cols) (hscr : ctx.ScratchWF)
    (hcoh : ctx.Coherent hash D e X) :
    ∃ ctx', evalGradTreeArray ops hash D e X vr ctx opts
      = some (if opts.earlyExit && !gflagSpec ops X e.consts opts t then
            List.replicate X.cols Scalar.nan
          else (List.range X.cols).map fun r => rowEval ops X e.consts r t,
        if opts.earlyExit && !gflagSpec ops X e.consts opts t then
            List.replicate (nDirOf X e.consts vr * X.cols) Scalar.nan
          else gradSpec ops X e.consts vr (nDirOf X e.consts vr) t,
        gflagSpec ops X e.consts opts t, ctx') ∧
      ctx'.ScratchWF ∧ ctx'.nRows = X.cols ∧
      ctx'.plan = compilePlan hash D e.nodes X.rows e.consts.length ∧ ctx'.plan.isSome ∧
      (ctx.needsRecompile hash e X = true →
        ctx'.planNodesLen = e.nodes.length ∧ ctx'.planNConsts = e.consts.length ∧
        ctx'.planNFeatures = X.rows) ∧
      (ctx.needsRecompile hash e X = false →
        ctx'.planNodesLen = ctx.planNodesLen ∧ ctx'.planNConsts = ctx.planNConsts ∧
        ctx'.planNFeatures = ctx.planNFeatures) := by
  generalize hND : nDirOf X e.consts vr = nDir
  obtain ⟨plan, hplan, _⟩ :=
    compilePlan_of_lawful (gradLawful ops X e.consts vr opts hn nDir 0) hash hwf hnf hnc hops
  obtain ⟨plan', hplan', _, _, _, hrv, hrc, hexec⟩ :=
    compilePlan_of_lawful (gradLawful ops X e.consts vr opts hn nDir plan.nSlots) hash hwf hnf hnc hops
  rw [hplan] at hplan'
  simp only [Option.some.injEq] at hplan'
  subst hplan'
  rw [← hnodes] at hplan
  have hargs := compilePlan_args hplan
  obtain ⟨ctx1, hset, hpl1, hnr1, ⟨hv1, hv2, hv3⟩, ⟨hd1, hd2, hd3⟩, hl1, hl2⟩ :=
    DContext.setup_ok (nDir * X.cols) hplan hcoh hscr
  rw [hrows] at hv2 hv3 hnr1
  have hd3' : ctx1.der.data.length = plan.nSlots * (X.cols * nDir) := by rw [hd3, Nat.mul_comm X.cols]
  simp only [evalGradTreeArray]
  have hND' : (if vr = true then X.rows else e.consts.length) = nDir := hND
  rw [if_pos hrows, hrows, hND', hset]
  simp only
  have hx := hexec (ctx1.val.data, ctx1.der.data) (Nat.le_refl _) ⟨hv3, hd3'⟩
  obtain ⟨hok, hden⟩ := grad_den ops X e.consts vr opts hn nDir plan.nSlots t
  rw [show (pairMachine GradRef.slice X.cols (X.cols * nDir) plan.nSlots (gradAVar X vr)
    (gradAConst e.consts vr) (gradKern ops X opts nDir) opts.earlyExit).early = opts.earlyExit from rfl]
    at hx
  have hne : t.subtrees ≠ [] := by
    intro h
    have := length_subtrees t
    rw [h] at this
    have := Tree.size_pos t
    simp at *; omega
  rw [all_or_left _ _ _ hne] at hok
  have hwfs : ∀ s : List T × List T, s.1.length = plan.nSlots * X.cols ∧
        s.2.length = plan.nSlots * (X.cols * nDir) →
      (({ ctx1 with val := { ctx1.val with data := s.1 }, der := { ctx1.der with data := s.2 } } :
        DContext T)).ScratchWF := by
    intro s hs
    refine ⟨?_, ?_⟩
    · change s.1.length = ctx1.val.nrows * ctx1.val.ncols
      rw [hv1, hv2]; exact hs.1
    · change s.2.length = ctx1.der.nrows * ctx1.der.ncols
      rw [hd1, hd2, Nat.mul_comm nDir]; exact hs.2
  by_cases hex : (opts.earlyExit &&
      !(gradLawful ops X e.consts vr opts hn nDir plan.nSlots).okAll t) = true
  · rw [if_pos hex] at hx
    obtain ⟨s', hg, he⟩ := hx
    rw [gradLoop_run ops X e.consts vr opts hn nDir hargs true ⟨hv3, hd3'⟩ _ he]
    simp only [Bool.and_eq_true, Bool.not_eq_true'] at hex
    rw [hok] at hex
    have hflag : gflagSpec ops X e.consts opts t = false := by
      have h2 := hex.2
      simp only [Bool.or_eq_false_iff, Bool.not_eq_false'] at h2
      simp [gflagSpec, h2.1, h2.2]
    refine ⟨_, by simp [hflag, hex.1], hwfs s' hg, hnr1, by rw [hplan]; exact hpl1,
      by simp [hpl1], hl1, hl2⟩
  · rw [if_neg hex] at hx
    obtain ⟨s', hg, he, hroot⟩ := hx
    rw [gradLoop_run ops X e.consts vr opts hn nDir hargs true ⟨hv3, hd3'⟩ _ he]
    have hden' : (gradLawful ops X e.consts vr opts hn nDir plan.nSlots).den t
        = idealG ops X e.consts vr nDir t := by
      apply hden
      simp only [Bool.and_eq_true, Bool.not_eq_true', not_and, Bool.not_eq_false] at hex
      rcases Bool.eq_false_or_eq_true opts.earlyExit with h | h
      · exact Or.inl (hex h)
      · exact Or.inr h
    rw [hden'] at hroot
    simp only
    refine ⟨{ ctx1 with val := { ctx1.val with data := s'.1 }, der := { ctx1.der with data := s'.2 } },
      ?_, hwfs s' hg, hnr1, by rw [hplan]; exact hpl1, by simp [hpl1], hl1, hl2⟩
    have hzeros : List.replicate (nDir * X.cols) (Scalar.zero : T)
        = (List.range nDir).flatMap fun _ => (List.range X.cols).map fun _ => Scalar.zero := by
      apply List.ext_getElem (by simp [List.length_flatMap, List.map_const'])
      intro i h1 h2
      have : ∀ x ∈ (List.range nDir).flatMap fun _ => (List.range X.cols).map fun _ => (Scalar.zero : T),
          x = Scalar.zero := by
        intro x hx
        simp only [List.mem_flatMap, List.mem_map] at hx
        obtain ⟨_, _, _, _, rfl⟩ := hx; rfl
      rw [List.getElem_replicate, this _ (List.getElem_mem h2)]
    cases hrt : plan.root with
    | var f =>
      have ht := (hrv f).mp hrt
      subst ht
      have hf : f < X.rows := by simpa [Tree.WF] using hwf
      have hfl : gflagSpec ops X e.consts opts (.var f) = true := by
        simp [gflagSpec, nodeGFin, rootFin]
      have hok' : (gradLawful ops X e.consts vr opts hn nDir plan.nSlots).okAll (.var f) = true := by simp
      simp only [hfl, hok', Bool.not_true, Bool.and_false, Bool.false_eq_true, ↓reduceIte,
        Mat.data_slice X f hf, Option.bind_some]
      have hgs : (if vr = true then
            if X.cols = 0 then none
            else some ((List.range nDir).flatMap fun d =>
              List.replicate X.cols (if d = f then Scalar.one else Scalar.zero))
          else some (List.replicate (nDir * X.cols) Scalar.zero))
          = some (gradSpec ops X e.consts vr nDir (.var f)) := by
        cases vr with
        | true =>
          simp only [hn, if_false, gradSpec, rowGrad, Tree.deriv_var, replicate_range, oneHot,
            if_true, eq_comm]
        | false =>
          simp [hzeros, gradSpec, rowGrad, noSeed]
      rw [hgs]
      simp [rowEval]
    | const c =>
      have ht := (hrc c).mp hrt
      subst ht
      have hc' : c < e.consts.length := by simpa [Tree.WF] using hwf
      have hget : e.consts[c]? = some (constAt e.consts c) := by simp [constAt, hc']
      have hfl : gflagSpec ops X e.consts opts (.const c)
          = (!opts.checkFinite || Scalar.isFinite (constAt e.consts c)) := by
        simp [gflagSpec, nodeGFin, rootFin]
      have hok' : (gradLawful ops X e.consts vr opts hn nDir plan.nSlots).okAll (.const c) = true := by simp
      simp only [hget, hok', hfl]
      have hgs : (if vr = true then some (List.replicate (nDir * X.cols) Scalar.zero)
          else if X.cols = 0 then none
            else some ((List.range nDir).flatMap fun d =>
              List.replicate X.cols (if d = c then Scalar.one else Scalar.zero)))
          = some (gradSpec ops X e.consts vr nDir (.const c)) := by
        cases vr with
        | false =>
          simp only [hn, if_false, gradSpec, rowGrad, Tree.deriv_const, replicate_range, oneHot,
            Bool.false_eq_true, eq_comm]
        | true =>
          simp [hzeros, gradSpec, rowGrad, noSeed]
      rw [hgs]
      rcases Bool.eq_false_or_eq_true opts.checkFinite with h1 | h1 <;>
      rcases Bool.eq_false_or_eq_true opts.earlyExit with h2 | h2 <;>
      rcases Bool.eq_false_or_eq_true (Scalar.isFinite (constAt e.consts c)) with h3 | h3 <;>
        simp [h1, h2, h3, replicate_range, rowEval]
    | slot k =>
      rw [hrt] at hroot
      simp only [Machine.srcVal, pairMachine, Option.bind_eq_some_iff, Option.map_eq_some_iff] at hroot
      obtain ⟨v, hv, d, hd, hvd⟩ := hroot
      have hop : rootFin e.consts t = true ∧ idealG ops X e.consts vr nDir t
          = (.slice ((List.range X.cols).map fun r => rowEval ops X e.consts r t),
             .slice (gradSpec ops X e.consts vr nDir t)) := by
        cases t with
        | var f => exact absurd ((hrv f).mpr rfl) (by rw [hrt]; simp)
        | const f => exact absurd ((hrc f).mpr rfl) (by rw [hrt]; simp)
        | op o ts => exact ⟨rfl, rfl⟩
      have hfl : gflagSpec ops X e.consts opts t
          = (gradLawful ops X e.consts vr opts hn nDir plan.nSlots).okAll t := by
        rw [hok]; simp [gflagSpec, hop.1]
      rw [hop.2] at hvd
      simp only [Prod.mk.injEq, SrcRef.slice.injEq, GradRef.slice.injEq] at hvd
      simp only [hv, hd, Option.bind_some, Option.map_some, hfl]
      rw [if_neg hex, if_neg hex, hvd.1, hvd.2]

end SR
