import Verif.Props.Deriv
import Verif.Proofs.DiffExact
import Verif.Spec.Demo
/-
C06, C07 and C08 without any law of arithmetic: what the two derivative evaluators compute in floating point, where
`0 * ∞` is NaN and the chain rule's products by zero therefore matter.
-/
namespace SR
variable {T : Type} [Scalar T]

/-- C07 in any arithmetic: as `C07_diff_correct`, for every scalar type whatever; the derivative is the chain rule
evaluated in the scalars' own arithmetic, except that an operator of one argument applied to a leaf of derivative zero
has derivative zero (`chainDir`). -/
theorem C07_any_arithmetic (ops : OpSet T) (hash : List PNode → UInt64) (D : Nat) (t : Tree)
    (X : Mat T) (consts : List T) (dir : Nat) (opts : EvalOptions) (ctx : DContext T)
    (hwf : t.WF ops D X.rows consts.length) (hlim : InLimits X.rows consts.length t)
    (hdir : dir < X.rows) (hrows : ctx.nRows = X.cols)
    (hscr : ctx.val.data.length = ctx.val.nrows * ctx.val.ncols ∧
      ctx.der.data.length = ctx.der.nrows * ctx.der.ncols)
    (hplan : ctx.plan = none ∨
      ctx.plan = compilePlan hash D t.toPostfix X.rows consts.length) :
    ∃ vals ders flag ctx', evalDiffTreeArray ops hash D ⟨t.toPostfix, consts⟩ X dir ctx opts
        = some (vals, ders, flag, ctx') ∧
      vals.length = X.cols ∧ ders.length = X.cols ∧
      (flag = true ∨ opts.earlyExit = false → ∀ r, r < X.cols →
        vals[r]? = some (t.eval ops (fun f => X.at' f r) (constAt consts)) ∧
        ders[r]? = some (t.derivDir ops (fun f => X.at' f r) (constAt consts) (oneHot dir) noSeed)) := by
  obtain ⟨ctx', h, _⟩ := evalDiffTreeArray_exact ops hash X ⟨t.toPostfix, consts⟩ dir opts ctx rfl
    hwf hlim.1 hlim.2.1 hlim.2.2 hdir hrows hscr (by
      rcases hplan with h | h
      · exact Or.inl (needsRecompile_of_none h)
      · exact Or.inr h)
  refine ⟨_, _, _, ctx', h, ?_, ?_, ?_⟩
  · split <;> simp
  · split <;> simp
  · intro hf r hr
    rw [if_neg (by rcases hf with hf | hf <;> simp [hf]),
      if_neg (by rcases hf with hf | hf <;> simp [hf])]
    simp [hr, rowEval, rowDerivD]

/-- C07: the completion flag of the directional evaluator in any arithmetic. -/
theorem C07_flag_any_arithmetic (ops : OpSet T) (hash : List PNode → UInt64) (D : Nat) (t : Tree)
    (X : Mat T) (consts : List T) (dir : Nat) (opts : EvalOptions)
    (hwf : t.WF ops D X.rows consts.length) (hlim : InLimits X.rows consts.length t)
    (hdir : dir < X.rows) :
    ∃ vals ders flag ctx', evalDiffTreeArray ops hash D ⟨t.toPostfix, consts⟩ X dir
        (DContext.new X.cols) opts = some (vals, ders, flag, ctx') ∧
      (opts.checkFinite = false → flag = true) ∧
      (opts.checkFinite = true → (flag = true ↔
        AllOpsFinite ops X consts t ∧ ConstRootFinite consts t ∧
        ∀ o ts, Tree.op o ts ∈ t.subtrees → 3 ≤ ts.length → ∀ r, r < X.cols →
          Scalar.isFinite (Tree.derivDir ops (fun f => X.at' f r) (constAt consts) (oneHot dir) noSeed
            (.op o ts)) = true)) := by
  obtain ⟨ctx', h, _⟩ := evalDiffTreeArray_exact ops hash X ⟨t.toPostfix, consts⟩ dir opts
    (DContext.new X.cols) rfl
    hwf hlim.1 hlim.2.1 hlim.2.2 hdir rfl
    (by simp [DContext.ScratchWF, DContext.new, Buf.zeros, Buf.WF])
    (Or.inl (needsRecompile_of_none rfl))
  refine ⟨_, _, _, ctx', h, ?_, ?_⟩
  · intro hc; simp [dflagSpecD, hc]
  · intro hc
    simp only [dflagSpecD, hc, Bool.not_true, Bool.false_or, Bool.and_eq_true]
    rw [rootFin_iff, List.all_eq_true]
    constructor
    · rintro ⟨h1, h2⟩
      refine ⟨?_, h2, ?_⟩
      · intro o ts hm r hr
        have := h1 _ hm
        simp only [nodeDFinD, Bool.and_eq_true, List.all_eq_true, List.mem_range] at this
        exact this.1 r hr
      · intro o ts hm hl r hr
        have := h1 _ hm
        simp only [nodeDFinD, Bool.and_eq_true, Bool.or_eq_true, decide_eq_true_eq,
          List.all_eq_true, List.mem_range] at this
        rcases this.2 with h' | h'
        · omega
        · exact h' r hr
    · rintro ⟨h1, h2, h3⟩
      refine ⟨?_, h2⟩
      intro s hs
      cases s with
      | var f => rfl
      | const c => rfl
      | op o ts =>
        simp only [nodeDFinD, Bool.and_eq_true, Bool.or_eq_true, decide_eq_true_eq,
          List.all_eq_true, List.mem_range]
        refine ⟨fun r hr => h1 o ts hs r hr, ?_⟩
        by_cases hl : ts.length ≤ 2
        · exact Or.inl hl
        · exact Or.inr fun r hr => h3 o ts hs (by omega) r hr

/-- C08 in any arithmetic: as `C08_grad_correct`, for every scalar type whatever; the gradient is the chain rule
evaluated in the scalars' own arithmetic, except that an operator of one or two arguments all of which are leaves of
derivative zero has derivative zero (`chainSkip`). -/
theorem C08_any_arithmetic (ops : OpSet T) (hash : List PNode → UInt64) (D : Nat) (t : Tree)
    (X : Mat T) (consts : List T) (wrtFeatures : Bool) (opts : EvalOptions) (ctx : DContext T)
    (hwf : t.WF ops D X.rows consts.length) (hlim : InLimits X.rows consts.length t)
    (hn : X.cols ≠ 0) (hrows : ctx.nRows = X.cols)
    (hscr : ctx.val.data.length = ctx.val.nrows * ctx.val.ncols ∧
      ctx.der.data.length = ctx.der.nrows * ctx.der.ncols)
    (hplan : ctx.plan = none ∨
      ctx.plan = compilePlan hash D t.toPostfix X.rows consts.length) :
    ∃ vals grad flag ctx', evalGradTreeArray ops hash D ⟨t.toPostfix, consts⟩ X wrtFeatures ctx opts
        = some (vals, grad, flag, ctx') ∧
      vals.length = X.cols ∧
      grad.length = (if wrtFeatures then X.rows else consts.length) * X.cols ∧
      (flag = true ∨ opts.earlyExit = false → ∀ r, r < X.cols →
        vals[r]? = some (t.eval ops (fun f => X.at' f r) (constAt consts)) ∧
        ∀ dir, dir < (if wrtFeatures then X.rows else consts.length) →
          grad[dir * X.cols + r]? = some (t.derivSkip ops (fun f => X.at' f r) (constAt consts)
            (if wrtFeatures then oneHot dir else noSeed)
            (if wrtFeatures then noSeed else oneHot dir))) := by
  obtain ⟨ctx', h, _⟩ := evalGradTreeArray_exact ops hash X ⟨t.toPostfix, consts⟩ wrtFeatures opts
    ctx rfl hwf hlim.1 hlim.2.1 hlim.2.2 hn hrows hscr (by
      rcases hplan with h | h
      · exact Or.inl (needsRecompile_of_none h)
      · exact Or.inr h)
  refine ⟨_, _, _, ctx', h, ?_, ?_, ?_⟩
  · split <;> simp
  · split
    · simp [nDirOf]
    · simp [gradSpecX, nDirOf]
  · intro hf r hr
    have hc : ¬ ((opts.earlyExit && !gflagSpec ops X consts opts t) = true) := by
      rcases hf with hf | hf
      · have hf' : gflagSpec ops X consts opts t = true := hf
        simp [hf']
      · simp [hf]
    rw [if_neg hc, if_neg hc]
    refine ⟨by simp [hr, rowEval], ?_⟩
    intro dir hd
    exact flatMap_getElem (fun d r => rowGradX ops X consts wrtFeatures d r t) hd hr

/-- The result a job must have, whatever coherent context it runs in. -/
theorem DJob.run_exact (ops : OpSet T) (hash : List PNode → UInt64) (D nRows : Nat)
    (j : DJob T) (hok : j.OK ops D nRows) :
    ∃ res : List T × List T × Bool, ∀ ctx : DContext T, ctx.nRows = nRows → ctx.ScratchWF → ctx.Coherent hash D j.expr j.X →
      ∃ ctx', j.run ops hash D ctx = some (res.1, res.2.1, res.2.2, ctx') ∧
      ctx'.ScratchWF ∧ ctx'.nRows = nRows ∧
      ctx'.plan = compilePlan hash D j.expr.nodes j.X.rows j.expr.consts.length ∧ ctx'.plan.isSome ∧
      (ctx.needsRecompile hash j.expr j.X = true →
        ctx'.planNodesLen = j.expr.nodes.length ∧ ctx'.planNConsts = j.expr.consts.length ∧
        ctx'.planNFeatures = j.X.rows) ∧
      (ctx.needsRecompile hash j.expr j.X = false →
        ctx'.planNodesLen = ctx.planNodesLen ∧ ctx'.planNConsts = ctx.planNConsts ∧
        ctx'.planNFeatures = ctx.planNFeatures) := by
  obtain ⟨hc, hk, t, hn, hwf, hlim⟩ := hok
  subst hc
  obtain ⟨expr, X, opts, kind⟩ := j
  cases kind with
  | diff dir =>
    refine ⟨(if opts.earlyExit && !dflagSpecD ops X expr.consts dir opts t then
            List.replicate X.cols Scalar.nan
          else (List.range X.cols).map fun r => rowEval ops X expr.consts r t,
        if opts.earlyExit && !dflagSpecD ops X expr.consts dir opts t then
            List.replicate X.cols Scalar.nan
          else (List.range X.cols).map fun r => rowDerivD ops X expr.consts dir r t,
        dflagSpecD ops X expr.consts dir opts t), fun ctx hr hs hcoh => ?_⟩
    exact evalDiffTreeArray_exact ops hash X expr dir opts ctx hn hwf
      hlim.1 hlim.2.1 hlim.2.2 hk hr hs hcoh
  | grad v =>
    refine ⟨(if opts.earlyExit && !gflagSpec ops X expr.consts opts t then
            List.replicate X.cols Scalar.nan
          else (List.range X.cols).map fun r => rowEval ops X expr.consts r t,
        if opts.earlyExit && !gflagSpec ops X expr.consts opts t then
            List.replicate (nDirOf X expr.consts v * X.cols) Scalar.nan
          else gradSpecX ops X expr.consts v (nDirOf X expr.consts v) t,
        gflagSpec ops X expr.consts opts t), fun ctx hr hs hcoh => ?_⟩
    exact evalGradTreeArray_exact ops hash X expr v opts ctx hn hwf
      hlim.1 hlim.2.1 hlim.2.2 hk hr hs hcoh

/-- C06 for derivative contexts, in any arithmetic (no hash collision among the expressions of the history, as
in `C06_context_reuse`): any history of directional/gradient evaluations through one context
gives exactly the results of fresh contexts. -/
theorem C06_deriv_context_any_arithmetic (ops : OpSet T) (hash : List PNode → UInt64)
    (D nRows : Nat) (jobs : List (DJob T)) (hok : ∀ j ∈ jobs, j.OK ops D nRows)
    (hinj : ∀ a ∈ jobs, ∀ b ∈ jobs, a.expr.nodes.length = b.expr.nodes.length →
      hash a.expr.nodes = hash b.expr.nodes → a.expr.nodes = b.expr.nodes) :
    runDHistory ops hash D (DContext.new nRows) jobs = jobs.map (runDFresh ops hash D) := by
  have main : ∀ (rest : List (DJob T)) (ctx : DContext T), (∀ j ∈ rest, j ∈ jobs) →
      ctx.nRows = nRows → ctx.ScratchWF →
      (ctx.plan = none ∨ ∃ j ∈ jobs, ctx.plan.isSome ∧
        ctx.plan = compilePlan hash D j.expr.nodes ctx.planNFeatures ctx.planNConsts ∧
        ctx.planNodesLen = j.expr.nodes.length) →
      runDHistory ops hash D ctx rest = rest.map (runDFresh ops hash D) := by
    intro rest
    induction rest with
    | nil => intro ctx _ _ _ _; simp [runDHistory]
    | cons j rest ih =>
      intro ctx hsub hrow hscr hplan
      have hj := hok j (hsub j (by simp))
      obtain ⟨res, hres⟩ := DJob.run_exact ops hash D nRows j hj
      obtain ⟨c1, e1, _⟩ := hres (DContext.new j.X.cols) hj.1
        (by simp [DContext.ScratchWF, DContext.new, Buf.zeros, Buf.WF])
        (Or.inl (needsRecompile_of_none rfl))
      have hpl : ctx.Coherent hash D j.expr j.X := by
        rcases Bool.eq_false_or_eq_true (ctx.needsRecompile hash j.expr j.X) with h | h
        · exact Or.inl h
        · right
          unfold DContext.needsRecompile at h
          rcases hplan with hp | ⟨j', hj', hsome, hp, hlen⟩
          · simp [hp] at h
          · obtain ⟨p, hpp⟩ := Option.isSome_iff_exists.mp hsome
            simp only [hpp] at h
            split at h
            · simp at h
            · next hne =>
              have h1 : ctx.planNodesLen = j.expr.nodes.length :=
                Decidable.byContradiction fun h => hne (Or.inl h)
              have h2 : ctx.planNConsts = j.expr.consts.length :=
                Decidable.byContradiction fun h => hne (Or.inr (Or.inl h))
              have h3 : ctx.planNFeatures = j.X.rows :=
                Decidable.byContradiction fun h => hne (Or.inr (Or.inr h))
              have hhash : p.hash = hash j'.expr.nodes := by
                rw [hpp] at hp
                unfold compilePlan at hp
                split at hp
                · split at hp
                  · simp at hp
                  · split at hp
                    · simp only [Option.some.injEq] at hp; rw [hp]
                    · simp at hp
                · simp at hp
              have hh : hash j'.expr.nodes = hash j.expr.nodes := by
                rw [← hhash]; simpa using h
              have := hinj j' hj' j (hsub j (by simp)) (by omega) hh
              rw [hp, this, h2, h3]
      obtain ⟨c2, e2, hs2, hr2, hp2, hsome2, hl2, hl2'⟩ := hres ctx hrow hscr hpl
      simp only [runDHistory, e2, List.map_cons]
      have hlens : c2.planNodesLen = j.expr.nodes.length ∧ c2.planNConsts = j.expr.consts.length ∧
          c2.planNFeatures = j.X.rows := by
        rcases Bool.eq_false_or_eq_true (ctx.needsRecompile hash j.expr j.X) with h | h
        · exact hl2 h
        · have h' := h
          unfold DContext.needsRecompile at h'
          obtain ⟨a, b, c⟩ := hl2' h
          split at h'
          · simp at h'
          · next hne =>
            refine ⟨a.trans ?_, b.trans ?_, c.trans ?_⟩
            · exact Decidable.byContradiction fun h => hne (Or.inl h)
            · exact Decidable.byContradiction fun h => hne (Or.inr (Or.inl h))
            · exact Decidable.byContradiction fun h => hne (Or.inr (Or.inr h))
      rw [ih c2 (fun x hx => hsub x (by simp [hx])) (by omega) hs2
        (Or.inr ⟨j, hsub j (by simp), hsome2, by rw [hp2, hlens.2.1, hlens.2.2], hlens.1⟩)]
      congr 1
      simp only [runDFresh, e1, Option.map_some]
  exact main jobs (DContext.new nRows) (fun _ h => h) rfl
    (by simp [DContext.ScratchWF, DContext.new, Buf.zeros, Buf.WF]) (Or.inl rfl)

/-! ## When the two evaluators, and the chain rule, agree -/

theorem chainDir_eq_chainSum [ZeroLaws T] (p : Nat → T) (ds : List (Bool × T)) :
    chainDir p ds = chainSum p (ds.map Prod.snd) := by
  unfold chainDir
  split
  · next l d =>
    split
    · next h =>
      have hz := ZeroLaws.isZero_eq d (by simp only [Bool.and_eq_true] at h; exact h.2)
      simp only [List.map_cons, List.map_nil, chain1, hz, ZeroLaws.mul_zero]
    · simp only [List.map_cons, List.map_nil, chain1]
  · simp only [List.map_cons, List.map_nil, chain2]
  · rfl

theorem chainSkip_eq_chainSum [ZeroLaws T] (p : Nat → T) (ds : List (Bool × T)) :
    chainSkip p ds = chainSum p (ds.map Prod.snd) := by
  unfold chainSkip
  split
  · next l d =>
    split
    · next h =>
      have hz := ZeroLaws.isZero_eq d (by simp only [Bool.and_eq_true] at h; exact h.2)
      simp only [List.map_cons, List.map_nil, chain1, hz, ZeroLaws.mul_zero]
    · simp only [List.map_cons, List.map_nil, chain1]
  · next l d l' d' =>
    split
    · next h =>
      simp only [Bool.and_eq_true] at h
      have hz := ZeroLaws.isZero_eq d h.2.1
      have hz' := ZeroLaws.isZero_eq d' h.2.2
      simp only [List.map_cons, List.map_nil, chain2, hz, hz', ZeroLaws.mul_zero, ZeroLaws.zero_add]
    · simp only [List.map_cons, List.map_nil, chain2]
  · rfl

theorem derivWith_eq_deriv {chain : (Nat → T) → List (Bool × T) → T}
    (h : ∀ p ds, chain p ds = chainSum p (ds.map Prod.snd)) (ops : OpSet T) (feat const sv sc : Nat → T) (t : Tree) :
    t.derivWith chain ops feat const sv sc = t.deriv ops feat const sv sc := by
  induction t using Tree.ind with
  | hv f => simp
  | hc f => simp
  | ho o ts ih =>
    rw [Tree.derivWith_op, Tree.deriv_op, h, List.map_map]
    congr 1
    exact List.map_congr_left fun t ht => ih t ht

/-- C07, C08: where products with zero are zero (in the real numbers, say), both evaluators compute the chain rule. -/
theorem C08_skips_are_sound [ZeroLaws T] (ops : OpSet T) (feat const sv sc : Nat → T) (t : Tree) :
    t.derivSkip ops feat const sv sc = t.deriv ops feat const sv sc ∧
    t.derivDir ops feat const sv sc = t.deriv ops feat const sv sc :=
  ⟨derivWith_eq_deriv chainSkip_eq_chainSum ops feat const sv sc t,
   derivWith_eq_deriv chainDir_eq_chainSum ops feat const sv sc t⟩

theorem chainSkip_eq_chainDir (p : Nat → T) (ds : List (Bool × T))
    (h : ¬ ∃ d d', ds = [(true, d), (true, d')] ∧ Scalar.isZero d = true ∧ Scalar.isZero d' = true) :
    chainSkip p ds = chainDir p ds := by
  unfold chainSkip chainDir
  split
  · rfl
  · next l d l' d' =>
    rw [if_neg]
    intro hc
    simp only [Bool.and_eq_true] at hc
    obtain ⟨⟨rfl, rfl⟩, h1, h2⟩ := hc
    exact h ⟨d, d', rfl, h1, h2⟩
  · rfl

/-- C08: the two evaluators compute the same derivative in any arithmetic, unless the expression contains an operator of
two arguments both of which are leaves of derivative zero. -/
theorem C08_agrees_any_arithmetic (ops : OpSet T) (feat const sv sc : Nat → T) (t : Tree)
    (h : ∀ o a b, Tree.op o [a, b] ∈ t.subtrees → a.isLeaf = true → b.isLeaf = true →
      Scalar.isZero (a.deriv ops feat const sv sc) = false ∨ Scalar.isZero (b.deriv ops feat const sv sc) = false) :
    t.derivSkip ops feat const sv sc = t.derivDir ops feat const sv sc := by
  induction t using Tree.ind with
  | hv f => simp
  | hc f => simp
  | ho o ts ih =>
    have hm : ts.map (fun t => (t.isLeaf, t.derivSkip ops feat const sv sc))
        = ts.map (fun t => (t.isLeaf, t.derivDir ops feat const sv sc)) := by
      apply List.map_congr_left
      intro t ht
      rw [ih t ht]
      intro o' a b hab
      refine h o' a b ?_
      rw [Tree.subtrees_op]
      exact List.mem_append_left _ (List.mem_flatten.mpr ⟨_, List.mem_map.mpr ⟨t, ht, rfl⟩, hab⟩)
    have hleaf : ∀ a : Tree, a.isLeaf = true → a.derivDir ops feat const sv sc = a.deriv ops feat const sv sc := by
      intro a ha
      cases a with
      | var f => simp
      | const c => simp
      | op o us => simp [Tree.isLeaf] at ha
    rw [Tree.derivSkip, Tree.derivWith_op, hm, chainSkip_eq_chainDir]
    · rw [Tree.derivDir, Tree.derivWith_op]
    · rintro ⟨d, d', he, h1, h2⟩
      obtain ⟨a, b, rfl⟩ : ∃ a b, ts = [a, b] := by
        have hl := congrArg List.length he
        rw [List.length_map] at hl
        match ts, hl with
        | [a, b], _ => exact ⟨a, b, rfl⟩
      · simp only [List.map_cons, List.map_nil, List.cons.injEq, Prod.mk.injEq, and_true] at he
        obtain ⟨⟨ha, rfl⟩, hb, rfl⟩ := he
        rw [hleaf a ha] at h1
        rw [hleaf b hb] at h2
        rcases h o a b (by simp) ha hb with h | h
        · rw [h1] at h; exact Bool.noConfusion h
        · rw [h2] at h; exact Bool.noConfusion h

/-! ## A concrete case -/

namespace Demo

/-- An operator of two arguments with value zero and an infinite slope in its first argument, as `pow` has at base 0
and exponent 1/2. -/
def steepOps : OpSet (Fl ℚ) where
  eval
    | 2, 0, [_, _] => .fin 0
    | _, _, _ => .nan
  partial_
    | 2, 0, [_, _], 0 => .pinf
    | 2, 0, [_, _], _ => .fin 0
    | _, _, _, _ => .nan
  known
    | 2, 0 => true
    | _, _ => false

/-- Three features, one row. -/
def steepData : Mat (Fl ℚ) := ⟨3, 1, fun _ _ => .fin 0⟩

end Demo

/-- C08: the exception is real.  On one expression and one row, with binary64 arithmetic, finite values and both
completion flags set, the derivative in the direction of a feature that does not occur in the expression is NaN
according to the directional evaluator and zero according to the gradient evaluator. -/
theorem C08_evaluators_differ (hash : List PNode → UInt64) :
    let _ : Scalar (Fl ℚ) := (flScalar binary64).toScalar
    let e : PostfixExpr (Fl ℚ) := ⟨(Tree.op 0 [.var 0, .var 1]).toPostfix, []⟩
    ((evalDiffTreeArray Demo.steepOps hash 2 e Demo.steepData 2 (DContext.new 1) ⟨true, true⟩).map
      fun r => (r.1, r.2.1, r.2.2.1)) = some ([.fin 0], [.nan], true) ∧
    ((evalGradTreeArray Demo.steepOps hash 2 e Demo.steepData true (DContext.new 1) ⟨true, true⟩).map
      fun r => (r.1, (r.2.1).drop 2, r.2.2.1)) = some ([.fin 0], [.fin 0], true) := by
  constructor <;> rfl

end SR
