import Verif.Props.Eval
import Verif.Proofs.DiffTop
import Verif.Proofs.GradTop
import Verif.Proofs.RealDeriv
/-
Properties C07-C10: derivatives, and C06 for derivative contexts.
-/
namespace SR
variable {T : Type} [Scalar T]

omit [Scalar T] in
theorem needsRecompile_of_none {hash : List PNode → UInt64} {ctx : DContext T} {e : PostfixExpr T}
    {X : Mat T} (h : ctx.plan = none) : ctx.needsRecompile hash e X = true := by
  unfold DContext.needsRecompile
  rw [h]
  split <;> rfl

/-! ## C07 -/

/-- C07: the directional-derivative evaluator never panics on a well-formed expression and, unless it
was abandoned (flag false under early exit), returns at every row the recursive meaning of the tree and
its chain-rule derivative with seed 1 at feature `dir` and 0 at every other leaf.  The context may hold
arbitrary (well-shaped) scratch contents; it holds no plan or the plan of this expression. -/
theorem C07_diff_correct [ZeroLaws T] (ops : OpSet T) (hash : List PNode → UInt64) (D : Nat) (t : Tree)
    (X : Mat T) (consts : List T) (dir : Nat) (opts : EvalOptions) (ctx : DContext T)
    (hwf : t.WF ops D X.rows consts.length) (hlim : InLimits X.rows consts.length t)
    (hdir : dir < X.rows) (hrows : ctx.nRows = X.cols)
    (hscr : ctx.val.data.length = ctx.val.nrows * ctx.val.ncols ∧
      ctx.der.data.length = ctx.der.nrows * ctx.der.ncols)
    (hplan : ctx.plan = none ∨
      ctx.plan = compilePlan hash D t.toPostfix X.rows consts.length) :
    ∃ vals ders flag ctx', evalDiffTreeArray ops hash D ⟨t.toPostfix, consts⟩ X dir ctx opts
        = some (vals, ders, flag, ctx') ∧
      vals.length = X.cols ∧ ders.length = X.cols ∧
      (flag = true ∨ opts.earlyExit = false → ∀ r, r < X.cols →
        vals[r]? = some (t.eval ops (fun f => X.at' f r) (constAt consts)) ∧
        ders[r]? = some (t.deriv ops (fun f => X.at' f r) (constAt consts) (oneHot dir) noSeed)) := by
  obtain ⟨ctx', h, _⟩ := evalDiffTreeArray_correct ops hash X ⟨t.toPostfix, consts⟩ dir opts ctx rfl
    hwf hlim.1 hlim.2.1 hlim.2.2 hdir hrows hscr (by
      rcases hplan with h | h
      · exact Or.inl (needsRecompile_of_none h)
      · exact Or.inr h)
  refine ⟨_, _, _, ctx', h, ?_, ?_, ?_⟩
  · split <;> simp
  · split <;> simp
  · intro hf r hr
    rw [if_neg (by rcases hf with hf | hf <;> simp [hf]),
      if_neg (by rcases hf with hf | hf <;> simp [hf])]
    simp [hr, rowEval, rowDeriv]

/-- C07: what the completion flag of the directional evaluator says under finite checking: every
operator application is finite on every row, the derivative of every application of an operator with at
least three arguments is finite on every row, and a bare-constant root is finite.  Derivatives of unary
and binary operators are *not* checked by the code. -/
theorem C07_diff_flag [ZeroLaws T] (ops : OpSet T) (hash : List PNode → UInt64) (D : Nat) (t : Tree)
    (X : Mat T) (consts : List T) (dir : Nat) (opts : EvalOptions)
    (hwf : t.WF ops D X.rows consts.length) (hlim : InLimits X.rows consts.length t)
    (hdir : dir < X.rows) :
    ∃ vals ders flag ctx', evalDiffTreeArray ops hash D ⟨t.toPostfix, consts⟩ X dir
        (DContext.new X.cols) opts = some (vals, ders, flag, ctx') ∧
      (opts.checkFinite = false → flag = true) ∧
      (opts.checkFinite = true → (flag = true ↔
        AllOpsFinite ops X consts t ∧ ConstRootFinite consts t ∧
        ∀ o ts, Tree.op o ts ∈ t.subtrees → 3 ≤ ts.length → ∀ r, r < X.cols →
          Scalar.isFinite (Tree.deriv ops (fun f => X.at' f r) (constAt consts) (oneHot dir) noSeed
            (.op o ts)) = true)) := by
  obtain ⟨ctx', h, _⟩ := evalDiffTreeArray_correct ops hash X ⟨t.toPostfix, consts⟩ dir opts
    (DContext.new X.cols) rfl
    hwf hlim.1 hlim.2.1 hlim.2.2 hdir rfl
    (by simp [DContext.ScratchWF, DContext.new, Buf.zeros, Buf.WF])
    (Or.inl (needsRecompile_of_none rfl))
  refine ⟨_, _, _, ctx', h, ?_, ?_⟩
  · intro hc; simp [dflagSpec, hc]
  · intro hc
    simp only [dflagSpec, hc, Bool.not_true, Bool.false_or, Bool.and_eq_true]
    rw [rootFin_iff, List.all_eq_true]
    constructor
    · rintro ⟨h1, h2⟩
      refine ⟨?_, h2, ?_⟩
      · intro o ts hm r hr
        have := h1 _ hm
        simp only [nodeDFin, Bool.and_eq_true, List.all_eq_true, List.mem_range] at this
        exact this.1 r hr
      · intro o ts hm hl r hr
        have := h1 _ hm
        simp only [nodeDFin, Bool.and_eq_true, Bool.or_eq_true, decide_eq_true_eq,
          List.all_eq_true, List.mem_range] at this
        rcases this.2 with h' | h'
        · omega
        · exact h' r hr
    · rintro ⟨h1, h2, h3⟩
      refine ⟨?_, h2⟩
      intro s hs
      cases s with
      | var f => rfl
      | const c => rfl
      | op o ts =>
        simp only [nodeDFin, Bool.and_eq_true, Bool.or_eq_true, decide_eq_true_eq,
          List.all_eq_true, List.mem_range]
        refine ⟨fun r hr => h1 o ts hs r hr, ?_⟩
        by_cases hl : ts.length ≤ 2
        · exact Or.inl hl
        · exact Or.inr fun r hr => h3 o ts hs (by omega) r hr

/-! ## C08 -/

/-- C08: the gradient evaluator never panics on a well-formed expression with at least one row; unless
abandoned, it returns the values and a flat matrix whose entry `dir * rows + r` is the chain-rule
derivative at row `r` with respect to feature `dir` (`wrtFeatures`) or constant `dir`. -/
theorem C08_grad_correct [ZeroLaws T] (ops : OpSet T) (hash : List PNode → UInt64) (D : Nat) (t : Tree)
    (X : Mat T) (consts : List T) (wrtFeatures : Bool) (opts : EvalOptions) (ctx : DContext T)
    (hwf : t.WF ops D X.rows consts.length) (hlim : InLimits X.rows consts.length t)
    (hn : X.cols ≠ 0) (hrows : ctx.nRows = X.cols)
    (hscr : ctx.val.data.length = ctx.val.nrows * ctx.val.ncols ∧
      ctx.der.data.length = ctx.der.nrows * ctx.der.ncols)
    (hplan : ctx.plan = none ∨
      ctx.plan = compilePlan hash D t.toPostfix X.rows consts.length) :
    ∃ vals grad flag ctx', evalGradTreeArray ops hash D ⟨t.toPostfix, consts⟩ X wrtFeatures ctx opts
        = some (vals, grad, flag, ctx') ∧
      vals.length = X.cols ∧
      grad.length = (if wrtFeatures then X.rows else consts.length) * X.cols ∧
      (flag = true ∨ opts.earlyExit = false → ∀ r, r < X.cols →
        vals[r]? = some (t.eval ops (fun f => X.at' f r) (constAt consts)) ∧
        ∀ dir, dir < (if wrtFeatures then X.rows else consts.length) →
          grad[dir * X.cols + r]? = some (t.deriv ops (fun f => X.at' f r) (constAt consts)
            (if wrtFeatures then oneHot dir else noSeed)
            (if wrtFeatures then noSeed else oneHot dir))) := by
  obtain ⟨ctx', h, _⟩ := evalGradTreeArray_correct ops hash X ⟨t.toPostfix, consts⟩ wrtFeatures opts
    ctx rfl hwf hlim.1 hlim.2.1 hlim.2.2 hn hrows hscr (by
      rcases hplan with h | h
      · exact Or.inl (needsRecompile_of_none h)
      · exact Or.inr h)
  refine ⟨_, _, _, ctx', h, ?_, ?_, ?_⟩
  · split <;> simp
  · split
    · simp [nDirOf]
    · simp [gradSpec, nDirOf]
  · intro hf r hr
    have hc : ¬ ((opts.earlyExit && !gflagSpec ops X consts opts t) = true) := by
      rcases hf with hf | hf
      · have hf' : gflagSpec ops X consts opts t = true := hf
        simp [hf']
      · simp [hf]
    rw [if_neg hc, if_neg hc]
    refine ⟨by simp [hr, rowEval], ?_⟩
    intro dir hd
    exact flatMap_getElem (fun d r => rowGrad ops X consts wrtFeatures d r t) hd hr

/-- C08: the feature gradient's row `dir` equals the result of the directional evaluator in direction
`dir`, and the values agree, whenever both evaluations complete. -/
theorem C08_grad_agrees_diff [ZeroLaws T] (ops : OpSet T) (hash : List PNode → UInt64) (D : Nat)
    (t : Tree) (X : Mat T) (consts : List T) (dir : Nat) (o1 o2 : EvalOptions)
    (hwf : t.WF ops D X.rows consts.length) (hlim : InLimits X.rows consts.length t)
    (hn : X.cols ≠ 0) (hdir : dir < X.rows)
    (vals1 ders vals2 grad : List T) (c1 c2 : DContext T)
    (h1 : evalDiffTreeArray ops hash D ⟨t.toPostfix, consts⟩ X dir (DContext.new X.cols) o1
      = some (vals1, ders, true, c1))
    (h2 : evalGradTreeArray ops hash D ⟨t.toPostfix, consts⟩ X true (DContext.new X.cols) o2
      = some (vals2, grad, true, c2)) :
    vals1 = vals2 ∧ ders = (grad.drop (dir * X.cols)).take X.cols := by
  have hs : (DContext.new X.cols : DContext T).val.data.length
      = (DContext.new X.cols : DContext T).val.nrows * (DContext.new X.cols : DContext T).val.ncols ∧
      (DContext.new X.cols : DContext T).der.data.length
      = (DContext.new X.cols : DContext T).der.nrows * (DContext.new X.cols : DContext T).der.ncols := by
    simp [DContext.new, Buf.zeros]
  obtain ⟨v, d, f, c, e, hv, hd, hval⟩ := C07_diff_correct ops hash D t X consts dir o1
    (DContext.new X.cols) hwf hlim hdir rfl hs (Or.inl rfl)
  obtain ⟨v', d', f', c', e', hv', hd', hval'⟩ := C08_grad_correct ops hash D t X consts true o2
    (DContext.new X.cols) hwf hlim hn rfl hs (Or.inl rfl)
  rw [h1] at e; rw [h2] at e'
  simp only [Option.some.injEq, Prod.mk.injEq] at e e'
  obtain ⟨rfl, rfl, rfl, _⟩ := e
  obtain ⟨rfl, rfl, rfl, _⟩ := e'
  simp only [if_true, true_or, forall_const] at hd' hval' hval
  have hbound : dir * X.cols + X.cols ≤ X.rows * X.cols := by
    calc dir * X.cols + X.cols = (dir + 1) * X.cols := by rw [Nat.add_mul]; omega
      _ ≤ X.rows * X.cols := Nat.mul_le_mul_right _ hdir
  constructor
  · apply List.ext_getElem?
    intro i
    by_cases hi : i < X.cols
    · rw [(hval i hi).1, (hval' i hi).1]
    · rw [List.getElem?_eq_none (by omega), List.getElem?_eq_none (by omega)]
  · apply List.ext_getElem?
    intro i
    by_cases hi : i < X.cols
    · rw [(hval i hi).2, List.getElem?_take_of_lt hi, List.getElem?_drop,
        (hval' i hi).2 dir hdir]
    · rw [List.getElem?_eq_none (by omega), List.getElem?_eq_none (by simp; omega)]

/-- C08, boundary: with zero rows, the gradient of an expression that is a single feature panics
(`chunks_mut(0)`), although its value and directional derivative are computed without complaint. -/
theorem C08_zero_rows_panics (ops : OpSet T) (hash : List PNode → UInt64) (D f : Nat) (X : Mat T)
    (consts : List T) (opts : EvalOptions) (hn : X.cols = 0) (hf : f < X.rows) (hX : X.rows ≤ u16Max)
    (hc : consts.length ≤ u16Max) :
    evalGradTreeArray ops hash D ⟨(Tree.var f).toPostfix, consts⟩ X true (DContext.new X.cols) opts
      = none := by
  have hp : compilePlan hash D [.var f] X.rows consts.length
      = some ⟨[], 0, .var f, hash [.var f]⟩ := by
    simp [compilePlan, compileStep, hf, hX, hc]
  have hr : (DContext.new X.cols : DContext T).needsRecompile hash ⟨[.var f], consts⟩ X = true :=
    needsRecompile_of_none rfl
  simp only [evalGradTreeArray, Tree.toPostfix_var, DContext.setup, hr, hp, instrLoop]
  simp [hn, DContext.new, instrLoop]

/-! ## C06 for the derivative contexts -/

/-- A request to a derivative evaluator: directional in a feature, or a gradient. -/
inductive DKind where
  | diff (dir : Nat)
  | grad (wrtFeatures : Bool)

structure DJob (T : Type) where
  expr : PostfixExpr T
  X : Mat T
  opts : EvalOptions
  kind : DKind

def DJob.run (ops : OpSet T) (hash : List PNode → UInt64) (D : Nat) (ctx : DContext T) (j : DJob T) :
    Option (List T × List T × Bool × DContext T) :=
  match j.kind with
  | .diff dir => evalDiffTreeArray ops hash D j.expr j.X dir ctx j.opts
  | .grad v => evalGradTreeArray ops hash D j.expr j.X v ctx j.opts

def runDHistory (ops : OpSet T) (hash : List PNode → UInt64) (D : Nat) :
    DContext T → List (DJob T) → List (Option (List T × List T × Bool))
  | _, [] => []
  | ctx, j :: js =>
    match j.run ops hash D ctx with
    | none => none :: runDHistory ops hash D ctx js
    | some (v, d, flag, ctx') => some (v, d, flag) :: runDHistory ops hash D ctx' js

def runDFresh (ops : OpSet T) (hash : List PNode → UInt64) (D : Nat) (j : DJob T) :
    Option (List T × List T × Bool) :=
  (j.run ops hash D (DContext.new j.X.cols)).map fun r => (r.1, r.2.1, r.2.2.1)

def DJob.OK (ops : OpSet T) (D nRows : Nat) (j : DJob T) : Prop :=
  j.X.cols = nRows ∧
  (match j.kind with | .diff dir => dir < j.X.rows | .grad _ => nRows ≠ 0) ∧
  ∃ t : Tree, j.expr.nodes = t.toPostfix ∧ t.WF ops D j.X.rows j.expr.consts.length ∧
    InLimits j.X.rows j.expr.consts.length t

/-- The result a job must have, whatever coherent context it runs in. -/
theorem DJob.run_correct [ZeroLaws T] (ops : OpSet T) (hash : List PNode → UInt64) (D nRows : Nat)
    (j : DJob T) (hok : j.OK ops D nRows) :
    ∃ res : List T × List T × Bool, ∀ ctx : DContext T, ctx.nRows = nRows → ctx.ScratchWF → ctx.Coherent hash D j.expr j.X →
      ∃ ctx', j.run ops hash D ctx = some (res.1, res.2.1, res.2.2, ctx') ∧
      ctx'.ScratchWF ∧ ctx'.nRows = nRows ∧
      ctx'.plan = compilePlan hash D j.expr.nodes j.X.rows j.expr.consts.length ∧ ctx'.plan.isSome ∧
      (ctx.needsRecompile hash j.expr j.X = true →
        ctx'.planNodesLen = j.expr.nodes.length ∧ ctx'.planNConsts = j.expr.consts.length ∧
        ctx'.planNFeatures = j.X.rows) ∧
      (ctx.needsRecompile hash j.expr j.X = false →
        ctx'.planNodesLen = ctx.planNodesLen ∧ ctx'.planNConsts = ctx.planNConsts ∧
        ctx'.planNFeatures = ctx.planNFeatures) := by
  obtain ⟨hc, hk, t, hn, hwf, hlim⟩ := hok
  subst hc
  obtain ⟨expr, X, opts, kind⟩ := j
  cases kind with
  | diff dir =>
    refine ⟨(if opts.earlyExit && !dflagSpec ops X expr.consts dir opts t then
            List.replicate X.cols Scalar.nan
          else (List.range X.cols).map fun r => rowEval ops X expr.consts r t,
        if opts.earlyExit && !dflagSpec ops X expr.consts dir opts t then
            List.replicate X.cols Scalar.nan
          else (List.range X.cols).map fun r => rowDeriv ops X expr.consts dir r t,
        dflagSpec ops X expr.consts dir opts t), fun ctx hr hs hcoh => ?_⟩
    exact evalDiffTreeArray_correct ops hash X expr dir opts ctx hn hwf
      hlim.1 hlim.2.1 hlim.2.2 hk hr hs hcoh
  | grad v =>
    refine ⟨(if opts.earlyExit && !gflagSpec ops X expr.consts opts t then
            List.replicate X.cols Scalar.nan
          else (List.range X.cols).map fun r => rowEval ops X expr.consts r t,
        if opts.earlyExit && !gflagSpec ops X expr.consts opts t then
            List.replicate (nDirOf X expr.consts v * X.cols) Scalar.nan
          else gradSpec ops X expr.consts v (nDirOf X expr.consts v) t,
        gflagSpec ops X expr.consts opts t), fun ctx hr hs hcoh => ?_⟩
    exact evalGradTreeArray_correct ops hash X expr v opts ctx hn hwf
      hlim.1 hlim.2.1 hlim.2.2 hk hr hs hcoh

/-- C06 for derivative contexts (partial: no hash collision among the expressions of the history, as
in `C06_context_reuse`): any history of directional/gradient evaluations through one context
gives exactly the results of fresh contexts. -/
theorem C06_deriv_context_reuse [ZeroLaws T] (ops : OpSet T) (hash : List PNode → UInt64)
    (D nRows : Nat) (jobs : List (DJob T)) (hok : ∀ j ∈ jobs, j.OK ops D nRows)
    (hinj : ∀ a ∈ jobs, ∀ b ∈ jobs, a.expr.nodes.length = b.expr.nodes.length →
      hash a.expr.nodes = hash b.expr.nodes → a.expr.nodes = b.expr.nodes) :
    runDHistory ops hash D (DContext.new nRows) jobs = jobs.map (runDFresh ops hash D) := by
  have main : ∀ (rest : List (DJob T)) (ctx : DContext T), (∀ j ∈ rest, j ∈ jobs) →
      ctx.nRows = nRows → ctx.ScratchWF →
      (ctx.plan = none ∨ ∃ j ∈ jobs, ctx.plan.isSome ∧
        ctx.plan = compilePlan hash D j.expr.nodes ctx.planNFeatures ctx.planNConsts ∧
        ctx.planNodesLen = j.expr.nodes.length) →
      runDHistory ops hash D ctx rest = rest.map (runDFresh ops hash D) := by
    intro rest
    induction rest with
    | nil => intro ctx _ _ _ _; simp [runDHistory]
    | cons j rest ih =>
      intro ctx hsub hrow hscr hplan
      have hj := hok j (hsub j (by simp))
      obtain ⟨res, hres⟩ := DJob.run_correct ops hash D nRows j hj
      obtain ⟨c1, e1, _⟩ := hres (DContext.new j.X.cols) hj.1
        (by simp [DContext.ScratchWF, DContext.new, Buf.zeros, Buf.WF])
        (Or.inl (needsRecompile_of_none rfl))
      have hpl : ctx.Coherent hash D j.expr j.X := by
        rcases Bool.eq_false_or_eq_true (ctx.needsRecompile hash j.expr j.X) with h | h
        · exact Or.inl h
        · right
          unfold DContext.needsRecompile at h
          rcases hplan with hp | ⟨j', hj', hsome, hp, hlen⟩
          · simp [hp] at h
          · obtain ⟨p, hpp⟩ := Option.isSome_iff_exists.mp hsome
            simp only [hpp] at h
            split at h
            · simp at h
            · next hne =>
              have h1 : ctx.planNodesLen = j.expr.nodes.length :=
                Decidable.byContradiction fun h => hne (Or.inl h)
              have h2 : ctx.planNConsts = j.expr.consts.length :=
                Decidable.byContradiction fun h => hne (Or.inr (Or.inl h))
              have h3 : ctx.planNFeatures = j.X.rows :=
                Decidable.byContradiction fun h => hne (Or.inr (Or.inr h))
              have hhash : p.hash = hash j'.expr.nodes := by
                rw [hpp] at hp
                unfold compilePlan at hp
                split at hp
                · split at hp
                  · simp at hp
                  · split at hp
                    · simp only [Option.some.injEq] at hp; rw [hp]
                    · simp at hp
                · simp at hp
              have hh : hash j'.expr.nodes = hash j.expr.nodes := by
                rw [← hhash]; simpa using h
              have := hinj j' hj' j (hsub j (by simp)) (by omega) hh
              rw [hp, this, h2, h3]
      obtain ⟨c2, e2, hs2, hr2, hp2, hsome2, hl2, hl2'⟩ := hres ctx hrow hscr hpl
      simp only [runDHistory, e2, List.map_cons]
      have hlens : c2.planNodesLen = j.expr.nodes.length ∧ c2.planNConsts = j.expr.consts.length ∧
          c2.planNFeatures = j.X.rows := by
        rcases Bool.eq_false_or_eq_true (ctx.needsRecompile hash j.expr j.X) with h | h
        · exact hl2 h
        · have h' := h
          unfold DContext.needsRecompile at h'
          obtain ⟨a, b, c⟩ := hl2' h
          split at h'
          · simp at h'
          · next hne =>
            refine ⟨a.trans ?_, b.trans ?_, c.trans ?_⟩
            · exact Decidable.byContradiction fun h => hne (Or.inl h)
            · exact Decidable.byContradiction fun h => hne (Or.inr (Or.inl h))
            · exact Decidable.byContradiction fun h => hne (Or.inr (Or.inr h))
      rw [ih c2 (fun x hx => hsub x (by simp [hx])) (by omega) hs2
        (Or.inr ⟨j, hsub j (by simp), hsome2, by rw [hp2, hlens.2.1, hlens.2.2], hlens.1⟩)]
      congr 1
      simp only [runDFresh, e1, Option.map_some]
  exact main jobs (DContext.new nRows) (fun _ h => h) rfl
    (by simp [DContext.ScratchWF, DContext.new, Buf.zeros, Buf.WF]) (Or.inl rfl)

/-! ## C10 -/

/-- C10: for every built-in operator `o` of arity `a` and every argument vector in the operator's open
domain, the operator is differentiable there and its declared partials are the true ones. -/
theorem C10_partials_correct (a o : Nat) (v : List ℝ) (hk : realOps.known a o = true)
    (hv : v.length = a) (hd : inDom a o v) :
    PartialsCorrectAt (realOps.eval a o) (realOps.partial_ a o) v :=
  realOps_partials a o v hk hv hd

/-- C10, coordinate form: `d/dx op(..., x, ...) = declared partial`. -/
theorem C10_each_argument (a o : Nat) (v : List ℝ) (hk : realOps.known a o = true)
    (hv : v.length = a) (hd : inDom a o v) (j : Nat) (hj : j < v.length) :
    HasDerivAt (fun x => realOps.eval a o (v.set j x)) (realOps.partial_ a o v j) v[j] :=
  (realOps_partials a o v hk hv hd).partial_deriv ⟨j, hj⟩

/-- C10 (violation): `clamp(x, lo, hi)` with `hi < x < lo` (ternary id 0).  The operator's value is `lo`
in a neighbourhood, so its derivative in `hi` is 0, but the declared partial is 1. -/
theorem C10_clamp_counterexample (x lo hi : ℝ) (h1 : hi < x) (h2 : x < lo) :
    HasDerivAt (fun h => realOps.eval 3 0 [x, lo, h]) 0 hi ∧
    realOps.partial_ 3 0 [x, lo, hi] 2 = 1 ∧
    ¬ PartialsCorrectAt (realOps.eval 3 0) (realOps.partial_ 3 0) [x, lo, hi] := by
  have hd : HasDerivAt (fun h => realOps.eval 3 0 [x, lo, h]) 0 hi := by
    have e : (fun h => realOps.eval 3 0 [x, lo, h]) = fun _ => lo := by
      funext h; simp [realOps, terTable, Ter.eval, h2]
    rw [e]; exact hasDerivAt_const hi lo
  have hp : realOps.partial_ 3 0 [x, lo, hi] 2 = 1 := by
    simp [realOps, terTable, Ter.partial_, h1]
  refine ⟨hd, hp, fun h => ?_⟩
  have := h.partial_deriv ⟨2, by simp⟩
  have h' : HasDerivAt (fun h => realOps.eval 3 0 [x, lo, h]) 1 hi := by
    rw [← hp]; exact this
  exact zero_ne_one (hd.unique h')

/-! ## C09 -/

/-- Every operator application of the tree is in the operator's domain of differentiability. -/
def TreeInDom (feat const : Nat → ℝ) (t : Tree) : Prop :=
  ∀ o ts, Tree.op o ts ∈ t.subtrees → inDom ts.length o (ts.map (Tree.eval realOps feat const))

theorem opsDifferentiable_of_inDom {feat const : Nat → ℝ} {t : Tree} {D nf nc : Nat}
    (hwf : t.WF realOps D nf nc) (hd : TreeInDom feat const t) :
    OpsDifferentiable realOps feat const t := by
  intro o ts hm
  have hk : realOps.known ts.length o = true := by
    clear hd
    revert hwf
    induction t using Tree.ind with
    | hv f => simp at hm
    | hc f => simp at hm
    | ho o' us ih =>
      intro hwf
      simp only [Tree.WF, Tree.all_op] at hwf
      simp only [Tree.subtrees_op, List.mem_append, List.mem_flatten, List.mem_map,
        List.mem_singleton] at hm
      rcases hm with ⟨_, ⟨u, hu, rfl⟩, hm⟩ | h
      · exact ih u hu hm (hwf.2 u hu)
      · obtain ⟨rfl, rfl⟩ := Tree.op.inj h
        exact hwf.1.2.2
  exact C10_partials_correct _ _ _ hk (by simp) (hd o ts hm)

theorem update_hasDerivAt (g : Nat → ℝ) (dir f : Nat) :
    HasDerivAt (fun x => Function.update g dir x f) (oneHot dir f) (g dir) := by
  by_cases h : f = dir
  · subst h
    simp only [Function.update_self, oneHot, if_true]
    exact hasDerivAt_id (g f)
  · simp only [Function.update_of_ne h, oneHot, if_neg h]
    exact hasDerivAt_const (g dir) (g f)

/-- C09 for arbitrary differentiable operators: the chain-rule derivative computed by the evaluators is
the mathematical derivative of the expression's value as a function of feature `dir`. -/
theorem C09_feature_derivative (ops : OpSet ℝ) (t : Tree) (feat const : Nat → ℝ) (dir : Nat)
    (hd : OpsDifferentiable ops feat const t) :
    HasDerivAt (fun x => t.eval ops (Function.update feat dir x) const)
      (t.deriv ops feat const (oneHot dir) noSeed) (feat dir) := by
  have := hasDerivAt_tree ops (fun x => Function.update feat dir x) (fun _ => const) (oneHot dir) noSeed
    (feat dir) t (fun f => update_hasDerivAt feat dir f)
    (fun c => hasDerivAt_const _ _) (by simpa using hd)
  simpa using this

/-- C09, derivative in constant `dir`. -/
theorem C09_constant_derivative (ops : OpSet ℝ) (t : Tree) (feat const : Nat → ℝ) (dir : Nat)
    (hd : OpsDifferentiable ops feat const t) :
    HasDerivAt (fun x => t.eval ops feat (Function.update const dir x))
      (t.deriv ops feat const noSeed (oneHot dir)) (const dir) := by
  have := hasDerivAt_tree ops (fun _ => feat) (fun x => Function.update const dir x) noSeed (oneHot dir)
    (const dir) t (fun c => hasDerivAt_const _ _) (fun f => update_hasDerivAt const dir f)
     (by simpa using hd)
  simpa using this

/-- C09, end to end for the built-in operators: on every row whose operator applications are inside
their domains, the numbers returned by the directional evaluator are the value of the expression and
its true derivative in the chosen feature. -/
theorem C09_diff_true_derivative (hash : List PNode → UInt64) (D : Nat) (t : Tree) (X : Mat ℝ)
    (consts : List ℝ) (dir : Nat) (opts : EvalOptions)
    (hwf : t.WF realOps D X.rows consts.length) (hlim : InLimits X.rows consts.length t)
    (hdir : dir < X.rows) :
    ∃ vals ders ctx', evalDiffTreeArray realOps hash D ⟨t.toPostfix, consts⟩ X dir
        (DContext.new X.cols) opts = some (vals, ders, true, ctx') ∧
      ∀ r, r < X.cols → TreeInDom (fun f => X.at' f r) (constAt consts) t →
        ∃ d, ders[r]? = some d ∧
          HasDerivAt (fun x => t.eval realOps (Function.update (fun f => X.at' f r) dir x)
            (constAt consts)) d (X.at' dir r) := by
  obtain ⟨vals, ders, flag, ctx', h, _, _, hv⟩ := C07_diff_correct realOps hash D t X consts dir opts
    (DContext.new X.cols) hwf hlim hdir rfl (by simp [DContext.new, Buf.zeros]) (Or.inl rfl)
  have hflag : flag = true := by
    obtain ⟨_, _, f, _, h', hf1, hf2⟩ := C07_diff_flag realOps hash D t X consts dir opts hwf hlim hdir
    rw [h] at h'
    simp only [Option.some.injEq, Prod.mk.injEq] at h'
    obtain ⟨_, _, rfl, _⟩ := h'
    rcases Bool.eq_false_or_eq_true opts.checkFinite with hc | hc
    · exact (hf2 hc).mpr ⟨fun _ _ _ _ _ => rfl, fun _ _ => rfl, fun _ _ _ _ _ _ => rfl⟩
    · exact hf1 hc
  subst hflag
  refine ⟨vals, ders, ctx', h, fun r hr hd => ⟨_, (hv (Or.inl rfl) r hr).2, ?_⟩⟩
  exact C09_feature_derivative realOps t (fun f => X.at' f r) (constAt consts) dir
    (opsDifferentiable_of_inDom hwf hd)

/-- C09, gradient with respect to the constants (what the constant optimiser uses): entry
`(k, r)` is the true derivative of the value at row `r` in constant `k`. -/
theorem C09_grad_true_derivative (hash : List PNode → UInt64) (D : Nat) (t : Tree) (X : Mat ℝ)
    (consts : List ℝ) (opts : EvalOptions)
    (hwf : t.WF realOps D X.rows consts.length) (hlim : InLimits X.rows consts.length t)
    (hn : X.cols ≠ 0) (he : opts.earlyExit = false ∨ opts.checkFinite = false) :
    ∃ vals grad flag ctx', evalGradTreeArray realOps hash D ⟨t.toPostfix, consts⟩ X false
        (DContext.new X.cols) opts = some (vals, grad, flag, ctx') ∧
      ∀ r, r < X.cols → TreeInDom (fun f => X.at' f r) (constAt consts) t →
        ∀ k, k < consts.length → ∃ d, grad[k * X.cols + r]? = some d ∧
          HasDerivAt (fun x => t.eval realOps (fun f => X.at' f r)
            (Function.update (constAt consts) k x)) d (constAt consts k) := by
  obtain ⟨ctx', h, _⟩ := evalGradTreeArray_correct realOps hash X ⟨t.toPostfix, consts⟩ false opts
    (DContext.new X.cols) rfl hwf hlim.1 hlim.2.1 hlim.2.2 hn rfl
    (by simp [DContext.ScratchWF, DContext.new, Buf.zeros, Buf.WF])
    (Or.inl (needsRecompile_of_none rfl))
  refine ⟨_, _, _, ctx', h, ?_⟩
  intro r hr hd k hk
  rw [if_neg (by rcases he with he | he <;> simp [he, gflagSpec])]
  refine ⟨_, flatMap_getElem (fun d r => rowGrad realOps X consts false d r t) hk hr, ?_⟩
  have := C09_constant_derivative realOps t (fun f => X.at' f r) (constAt consts) k
    (opsDifferentiable_of_inDom hwf hd)
  simpa [rowGrad] using this

/-! ## Non-vacuity -/

/-- `sin(x0) * c0 + ...`: a tree with unary, binary and ternary built-ins meeting the hypotheses of
C07-C10 at a concrete point: `fma(sin x0, c0, x0 / c0)` at `x0 = 1`, `c0 = 2`. -/
def demoTree : Tree :=
  .op 1 [.op 25 [.var 0], .const 0, .op 2 [.var 0, .const 0]]

example : demoTree.WF realOps 3 1 1 ∧ InLimits 1 1 demoTree ∧
    TreeInDom (fun _ => 1) (constAt [2]) demoTree := by
  refine ⟨?_, ⟨by decide, by decide, ?_⟩, ?_⟩
  · simp [demoTree, Tree.WF, realOps, unTable, binTable, terTable]
  · simp [demoTree, Tree.numOps, u16Max]
  · intro o ts hm
    simp [demoTree] at hm
    rcases hm with ⟨rfl, rfl⟩ | ⟨rfl, rfl⟩ | ⟨rfl, rfl⟩
    · simp [inDom, unTable, Un.dom]
    · simp [inDom, binTable, Bin.dom, constAt]
    · simp [inDom, terTable, Ter.dom]

/-- The clamp counterexample's region is inhabited. -/
example : (0 : ℝ) < 1 ∧ (1 : ℝ) < 2 := by norm_num

end SR
