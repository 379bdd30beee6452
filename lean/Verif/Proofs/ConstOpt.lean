import Verif.Spec.Member
import Verif.Proofs.GradErase
import Verif.Props.Optim
/-
Evaluation of members, the loss and gradient used by constant optimisation, and `optimize_constants`.
-/
namespace SR
variable {K : Type} [Field K] [LinearOrder K] [E : Env K]

theorem loss_some (o : SOptions K) (d : Dataset K) (hd : d.WF) {yhat : List (Fl K)} (h : yhat.length = d.x.cols) :
    ∃ v, o.loss.loss E.RT E.lossLib yhat d.y d.weights = some v := by
  have hm : ∀ pl, ∃ v, meanLoss E.RT pl yhat d.y d.weights = some v := by
    intro pl
    cases hw : d.weights with
    | none =>
      simp only [meanLoss]
      rw [if_neg (by rw [h, hd.y]; simp)]
      split <;> exact ⟨_, rfl⟩
    | some w =>
      simp only [meanLoss]
      rw [if_neg (by rw [h, hd.y, hd.w w hw]; simp)]
      split <;> exact ⟨_, rfl⟩
  cases o.loss with
  | mean l => exact hm _
  | rmse =>
    obtain ⟨v, hv⟩ := hm (PointLoss.squared.loss E.RT E.lossLib)
    exact ⟨_, by rw [LossKind.loss, hv]; rfl⟩

theorem dloss_some (o : SOptions K) (d : Dataset K) (hd : d.WF) {yhat : List (Fl K)} (h : yhat.length = d.x.cols) :
    ∃ g, o.loss.dloss E.RT E.lossLib yhat d.y d.weights = some g ∧ g.length = d.x.cols := by
  have hy := hd.y
  cases hl : o.loss with
  | mean l =>
    simp only [LossKind.dloss]
    cases hw : d.weights with
    | none =>
      simp only [meanDloss]
      rw [if_neg (by rw [h, hd.y]; simp)]
      split
      · next hz => exact ⟨_, rfl, by simp only [List.isEmpty_iff] at hz; rw [← hy, hz]⟩
      · exact ⟨_, rfl, by simp [h, hy]⟩
    | some w =>
      have := hd.w w hw
      simp only [meanDloss]
      rw [if_neg (by rw [h, hd.y, hd.w w hw]; simp)]
      split
      · exact ⟨_, rfl, by simp [hy]⟩
      · exact ⟨_, rfl, by simp [h, hy, this]⟩
  | rmse =>
    have hm : ∃ v, meanLoss E.RT (PointLoss.squared.loss E.RT E.lossLib) yhat d.y d.weights = some v := by
      obtain ⟨v, hv⟩ := loss_some { o with loss := .mean .squared } d hd h
      exact ⟨v, hv⟩
    obtain ⟨v, hv⟩ := hm
    simp only [LossKind.dloss, hv, Option.bind_eq_bind, Option.bind_some]
    split
    · exact ⟨_, rfl, by simp [hy]⟩
    · cases hw : d.weights with
      | none => exact ⟨_, rfl, by simp [h, hy]⟩
      | some w =>
        have := hd.w w hw
        simp only
        split
        · exact ⟨_, rfl, by simp [hy]⟩
        · exact ⟨_, rfl, by simp [h, hy, this]⟩

theorem strictFlag_iff {d : Dataset K} {t : Tree} {consts : List (Fl K)} (h : 0 < d.x.cols) :
    flagSpec E.ops d.x consts strictOpts t = true ↔ Computable d t consts := by
  simp only [flagSpec, strictOpts, Bool.not_true, Bool.false_or, Bool.and_eq_true, Computable]
  rw [treeFin_iff _ _ _ _ h, rootFin_iff]

theorem strictGFlag_iff {d : Dataset K} {t : Tree} {consts : List (Fl K)} :
    gflagSpec E.ops d.x consts strictOpts t = true ↔ Computable d t consts := by
  simp only [gflagSpec, strictOpts, Bool.not_true, Bool.false_or, Bool.and_eq_true, Computable]
  rw [rootFin_iff]
  refine and_congr_left fun _ => ?_
  simp only [List.all_eq_true, AllOpsFinite]
  constructor
  · intro h o ts hm r hr
    have := h _ hm
    simp only [nodeGFin, List.all_eq_true, List.mem_range] at this
    exact this r hr
  · intro h s hs
    cases s with
    | var f => rfl
    | const c => rfl
    | op o ts =>
      simp only [nodeGFin, List.all_eq_true, List.mem_range]
      exact fun r hr => h o ts hs r hr

theorem predictions_length (d : Dataset K) (t : Tree) (consts : List (Fl K)) :
    (predictions d t consts).length = d.x.cols := by simp [predictions]

/-- The plan evaluator on a member's expression, from any evaluator sized for the data set. -/
theorem evalStrict_spec {d : Dataset K} {e : PostfixExpr (Fl K)} {t : Tree} {plan : EvalPlan} (hs : ExprSetting d e t)
    (hp : PlanOf d e plan) {ev : Evaluator K} (hev : ev.Ready d) :
    ∃ yhat ok scratch, evalPlanArrayInto E.ops ev.yhat plan e.consts d.x ev.scratch strictOpts = some (yhat, ok, scratch) ∧
      (Evaluator.mk yhat scratch).Ready d ∧ (ok = true ↔ Computable d t e.consts) ∧
      (ok = true → yhat = predictions d t e.consts) := by
  obtain ⟨p, hp', -, key⟩ := evalPlanArrayInto_correct E.ops E.hash d.x e.consts strictOpts hs.wf hs.lim.1 hs.lim.2.1
    hs.lim.2.2
  rw [← hs.nodes] at hp'
  unfold PlanOf at hp
  rw [hp'] at hp
  cases hp
  obtain ⟨out, scratch, h1, h2, -, -, h3⟩ := key ev.yhat ev.scratch hev.1 hev.2
  refine ⟨out, _, scratch, h1, ⟨?_, h2⟩, strictFlag_iff hs.rows, ?_⟩
  · rw [h3]; split
    · exact hev.1
    · simp [colSpec]
  · intro hf
    rw [h3, hf]
    rfl

theorem lossOnly_spec (o : SOptions K) {d : Dataset K} {e : PostfixExpr (Fl K)} {t : Tree} {plan : EvalPlan}
    (hs : ExprSetting d e t) (hp : PlanOf d e plan) {ev : Evaluator K} (hev : ev.Ready d) :
    ∃ ev', lossOnly o d plan e ev = some (exprLoss o d t e.consts, ev') ∧ ev'.Ready d := by
  obtain ⟨yhat, ok, scratch, h1, h2, h3, h4⟩ := evalStrict_spec hs hp hev
  refine ⟨_, ?_, h2⟩
  unfold lossOnly exprLoss
  rw [h1]
  simp only [Option.bind_eq_bind, Option.bind_some]
  cases ok with
  | false =>
    have hnc : ¬ Computable d t e.consts := by rw [← h3]; simp
    rw [if_neg hnc]; rfl
  | true =>
    rw [if_pos (h3.mp rfl), h4 rfl]
    obtain ⟨v, hv⟩ := loss_some o d hs.data (predictions_length d t e.consts)
    rw [hv]
    simp only [Bool.not_true, Bool.false_eq_true, if_false, Option.bind_some, Option.filter_some]

/-- What `evaluate` does to a member. -/
theorem evaluate_spec (o : SOptions K) {d : Dataset K} {m : Member K} {t : Tree} (hs : ExprSetting d m.expr t)
    (hp : PlanOf d m.expr m.plan) {ev : Evaluator K} (hev : ev.Ready d) {c : Nat}
    (hc : computeComplexity o.cx m.expr.nodes = some c) :
    ∃ ev', m.evaluate o d ev = some ({ m with
          complexity := c
          loss := (exprLoss o d t m.expr.consts).getD .pinf
          cost := match exprLoss o d t m.expr.consts with
            | none => .pinf
            | some l => lossToCost E.RT l c o.parsimony o.useBaseline d.baseline },
        (exprLoss o d t m.expr.consts).isSome, ev') ∧ ev'.Ready d := by
  obtain ⟨yhat, ok, scratch, h1, h2, h3, h4⟩ := evalStrict_spec hs hp hev
  refine ⟨_, ?_, h2⟩
  unfold Member.evaluate exprLoss
  rw [h1, hc]
  simp only [Option.bind_eq_bind, Option.bind_some]
  cases ok with
  | false =>
    have hnc : ¬ Computable d t m.expr.consts := by rw [← h3]; simp
    rw [if_neg hnc]; simp [Member.score]
  | true =>
    rw [if_pos (h3.mp rfl), h4 rfl]
    obtain ⟨v, hv⟩ := loss_some o d hs.data (predictions_length d t m.expr.consts)
    rw [hv]
    simp only [if_true, Option.bind_some, Member.score, Bool.not_true, Bool.false_or, Option.filter_some]
    cases hf : v.isFinite <;> simp

theorem gradOut_some {n : Nat} {dl dydc : List (Fl K)} :
    ∀ (cs : List Nat), (∀ c ∈ cs, c * n + n ≤ dydc.length) → ∃ g, gradOut n dl dydc cs = some g ∧ g.length = cs.length
  | [], _ => ⟨[], rfl, rfl⟩
  | c :: cs, h => by
    obtain ⟨g, hg, hl⟩ := gradOut_some (dl := dl) cs fun c hc => h c (by simp [hc])
    have hcol : ∃ col, slice? dydc (c * n) n = some col := by
      unfold slice?
      rw [if_pos (h c (by simp))]
      exact ⟨_, rfl⟩
    obtain ⟨col, hcol⟩ := hcol
    exact ⟨_, by simp only [gradOut, hcol, hg, Option.bind_eq_bind, Option.bind_some]; rfl, by simp [hl]⟩

/-- The gradient context is usable for the expression: right number of rows, buffers of consistent shape, and either
empty, about to be refreshed, or holding the plan of this expression. -/
def CtxReady (d : Dataset K) (e : PostfixExpr (Fl K)) (ctx : DContext (Fl K)) : Prop :=
  ctx.nRows = d.x.cols ∧ ctx.ScratchWF ∧ ctx.Coherent E.hash E.D e d.x

/-- Value and gradient do not depend on the context, the value is the loss of the expression, and the context stays
usable. -/
theorem lossAndGrad_spec (o : SOptions K) {d : Dataset K} {e : PostfixExpr (Fl K)} {t : Tree}
    (hs : ExprSetting d e t) :
    ∃ out : Option (Fl K × List (Fl K)), (∀ v g, out = some (v, g) → exprLoss o d t e.consts = some v ∧
        g.length = e.consts.length) ∧
      ∀ ctx, CtxReady d e ctx → ∃ ctx', lossAndGrad o d e ctx = some (out, ctx') ∧ CtxReady d e ctx' := by
  have hn : d.x.cols ≠ 0 := by have := hs.rows; omega
  obtain ⟨res, hres⟩ := evalGradTreeArray_free E.ops E.hash d.x e false strictOpts hs.nodes hs.wf hs.lim.1 hs.lim.2.1
    hs.lim.2.2 hn
  by_cases hex : ∃ ctx, CtxReady d e ctx
  swap
  · exact ⟨none, by simp, fun ctx h => (hex ⟨ctx, h⟩).elim⟩
  have hvals : ∀ ctx, CtxReady d e ctx → ∃ g ctx',
      evalGradTreeArray E.ops E.hash E.D e d.x false ctx strictOpts
      = some (if strictOpts.earlyExit && !gflagSpec E.ops d.x e.consts strictOpts t then
            List.replicate d.x.cols Scalar.nan
          else colSpec E.ops d.x e.consts t, g, gflagSpec E.ops d.x e.consts strictOpts t, ctx') ∧
      g.length = e.consts.length * d.x.cols ∧ CtxReady d e ctx' := by
    intro ctx h
    obtain ⟨g, ctx', h1, h2, h3, h4, h5, -⟩ := evalGradTreeArray_values E.ops E.hash d.x e false strictOpts ctx hs.nodes
      hs.wf hs.lim.1 hs.lim.2.1 hs.lim.2.2 hn h.1 h.2.1 h.2.2
    exact ⟨g, ctx', h1, h2, h4, h3, .inr h5⟩
  have hcol : colSpec E.ops d.x e.consts t = predictions d t e.consts := rfl
  obtain ⟨c0, hc0⟩ := hex
  obtain ⟨g, c1, hg, hgl, -⟩ := hvals c0 hc0
  -- every context gives the same gradient block
  have hall : ∀ ctx, CtxReady d e ctx → ∃ ctx',
      evalGradTreeArray E.ops E.hash E.D e d.x false ctx strictOpts
      = some (if strictOpts.earlyExit && !gflagSpec E.ops d.x e.consts strictOpts t then
            List.replicate d.x.cols Scalar.nan
          else colSpec E.ops d.x e.consts t, g, gflagSpec E.ops d.x e.consts strictOpts t, ctx') ∧
      CtxReady d e ctx' := by
    intro ctx h
    obtain ⟨g', ctx', h1, h2, h3⟩ := hvals ctx h
    have e1 := hres ctx h.1 h.2.1 h.2.2
    have e2 := hres c0 hc0.1 hc0.2.1 hc0.2.2
    rw [h1] at e1
    rw [hg] at e2
    rw [← e2] at e1
    simp only [Option.map_some, Option.some.injEq, Prod.mk.injEq] at e1
    rw [e1.2.1] at h1
    exact ⟨ctx', h1, h3⟩
  generalize hfl : gflagSpec E.ops d.x e.consts strictOpts t = fl at *
  cases fl with
  | false =>
    refine ⟨none, by simp, fun ctx h => ?_⟩
    obtain ⟨ctx', h1, h2⟩ := hall ctx h
    refine ⟨ctx', ?_, h2⟩
    unfold lossAndGrad
    rw [h1]
    rfl
  | true =>
    have hcomp : Computable d t e.consts := strictGFlag_iff.mp hfl
    simp only [Bool.not_true, Bool.and_false, Bool.false_eq_true, if_false, hcol] at hall
    by_cases hany : (predictions d t e.consts).any (fun v => !v.isFinite) = true
    · refine ⟨none, by simp, fun ctx h => ?_⟩
      obtain ⟨ctx', h1, h2⟩ := hall ctx h
      refine ⟨ctx', ?_, h2⟩
      unfold lossAndGrad
      rw [h1]
      simp only [Option.bind_eq_bind, Option.bind_some, Bool.not_true, Bool.false_eq_true, if_false, hany, if_true]
    · obtain ⟨v, hv⟩ := loss_some o d hs.data (predictions_length d t e.consts)
      cases hvf : v.isFinite with
      | false =>
        refine ⟨none, by simp, fun ctx h => ?_⟩
        obtain ⟨ctx', h1, h2⟩ := hall ctx h
        refine ⟨ctx', ?_, h2⟩
        unfold lossAndGrad
        rw [h1]
        simp only [Option.bind_eq_bind, Option.bind_some, Bool.not_true, Bool.false_eq_true, if_false, hany, hv, hvf,
          Bool.not_false, if_true]
      | true =>
        obtain ⟨dl, hdl, -⟩ := dloss_some o d hs.data (predictions_length d t e.consts)
        obtain ⟨go, hgo, hgol⟩ := gradOut_some (n := d.x.cols) (dl := dl) (dydc := g) (List.range e.consts.length) (by
          intro c hc
          rw [hgl]
          have : c + 1 ≤ e.consts.length := by simpa using hc
          calc c * d.x.cols + d.x.cols = (c + 1) * d.x.cols := by ring
            _ ≤ _ := Nat.mul_le_mul_right _ this)
        refine ⟨some (v, go), ?_, fun ctx h => ?_⟩
        · rintro v' g' h
          cases h
          refine ⟨?_, by simpa using hgol⟩
          unfold exprLoss
          rw [if_pos hcomp, hv]
          simp [Option.filter_some, hvf]
        · obtain ⟨ctx', h1, h2⟩ := hall ctx h
          refine ⟨ctx', ?_, h2⟩
          unfold lossAndGrad
          rw [h1]
          simp only [Option.bind_eq_bind, Option.bind_some, Bool.not_true, Bool.false_eq_true, if_false, hany, hv, hvf,
            hdl, hgo]

/-! ## The objective of constant optimisation -/

variable [IsStrictOrderedRing K]

omit [IsStrictOrderedRing K] in
theorem rep_div {R : Rounding K} (hR : R.Lawful) (a b : Fl K) : (R.div a b).Rep R := by
  have h0 : (Fl.fin (0 : K)).Rep R := by intro x h; cases h; exact hR.zero
  have hs : ∀ x : K, (Rounding.signInf x).Rep R := by
    intro x y h; unfold Rounding.signInf at h; split at h
    · cases h
    · split at h <;> cases h
  cases a <;> cases b <;> simp only [Rounding.div] <;> try (first | exact h0 | (intro x h; cases h))
  · split <;> (intro x h; cases h)
  · split
    · exact hs _
    · exact fun x h => hR.idem h
  · split <;> (intro x h; cases h)

omit [IsStrictOrderedRing K] in
theorem rep_loss (hF : Env.Formats K) (o : SOptions K) {d : Dataset K} {yhat : List (Fl K)} {v : Fl K}
    (h : o.loss.loss E.RT E.lossLib yhat d.y d.weights = some v) : v.Rep E.R := by
  apply hF.embed
  have h0 : (Fl.fin (0 : K)).Rep E.RT := by intro x h; cases h; exact hF.lawfulT.zero
  cases hl : o.loss with
  | mean l =>
    rw [hl] at h
    simp only [LossKind.loss] at h
    cases hw : d.weights with
    | none =>
      rw [hw] at h
      simp only [meanLoss] at h
      split at h
      · cases h
      · split at h
        · cases h; exact h0
        · cases h; exact rep_div hF.lawfulT _ _
    | some w =>
      rw [hw] at h
      simp only [meanLoss] at h
      split at h
      · cases h
      · split at h
        · cases h; exact h0
        · cases h; exact rep_div hF.lawfulT _ _
  | rmse =>
    rw [hl] at h
    simp only [LossKind.loss, Option.map_eq_some_iff] at h
    obtain ⟨m, -, rfl⟩ := h
    exact hF.sqrt m

omit [IsStrictOrderedRing K] in
theorem rep_exprLoss (hF : Env.Formats K) {o : SOptions K} {d : Dataset K} {t : Tree} {consts : List (Fl K)} {v : Fl K}
    (h : exprLoss o d t consts = some v) : v.Rep E.R ∧ v.isFinite = true := by
  unfold exprLoss at h
  split at h
  · rw [Option.filter_eq_some_iff] at h
    exact ⟨rep_loss hF o h.1, h.2⟩
  · cases h

omit [IsStrictOrderedRing K] in
theorem ExprSetting.withConsts {d : Dataset K} {e : PostfixExpr (Fl K)} {t : Tree} (hs : ExprSetting d e t)
    {x : List (Fl K)} (hx : x.length = e.consts.length) : ExprSetting d (e.withConsts x) t where
  nodes := hs.nodes
  wf := by simpa [PostfixExpr.withConsts, hx] using hs.wf
  lim := by simpa [PostfixExpr.withConsts, hx] using hs.lim
  data := hs.data
  rows := hs.rows

omit [IsStrictOrderedRing K] in
theorem PlanOf.withConsts {d : Dataset K} {e : PostfixExpr (Fl K)} {plan : EvalPlan} (hp : PlanOf d e plan)
    {x : List (Fl K)} (hx : x.length = e.consts.length) : PlanOf d (e.withConsts x) plan := by
  simpa [PlanOf, PostfixExpr.withConsts, hx] using hp

omit [IsStrictOrderedRing K] in
theorem CtxReady.withConsts {d : Dataset K} {e : PostfixExpr (Fl K)} {ctx : DContext (Fl K)} (h : CtxReady d e ctx)
    {x : List (Fl K)} (hx : x.length = e.consts.length) : CtxReady d (e.withConsts x) ctx := by
  refine ⟨h.1, h.2.1, ?_⟩
  simpa [DContext.Coherent, DContext.needsRecompile, PostfixExpr.withConsts, hx] using h.2.2

omit [IsStrictOrderedRing K] in
theorem CtxReady.withoutConsts {d : Dataset K} {e : PostfixExpr (Fl K)} {ctx : DContext (Fl K)}
    {x : List (Fl K)} (hx : x.length = e.consts.length) (h : CtxReady d (e.withConsts x) ctx) : CtxReady d e ctx := by
  refine ⟨h.1, h.2.1, ?_⟩
  simpa [DContext.Coherent, DContext.needsRecompile, PostfixExpr.withConsts, hx] using h.2.2

/-- Everything `optimize_constants` starts from. -/
structure OptSetting (d : Dataset K) (e : PostfixExpr (Fl K)) (t : Tree) (plan : EvalPlan) (ev : Evaluator K) :
    Prop where
  expr : ExprSetting d e t
  plan : PlanOf d e plan
  ev : ev.Ready d

section
variable {o : SOptions K} {d : Dataset K} {e : PostfixExpr (Fl K)} {t : Tree} {plan : EvalPlan} {ev : Evaluator K}
  {ctx : DContext (Fl K)}

omit [IsStrictOrderedRing K] in
theorem constObjective_fOnly (hs : OptSetting d e t plan ev) {x : List (Fl K)} :
    (constObjective o d plan e ev ctx).fOnly x
      = if x.length = e.consts.length then exprLoss o d t (x.map toT) else none := by
  unfold constObjective
  simp only
  split
  · next hx =>
    obtain ⟨ev', h, -⟩ := lossOnly_spec o (hs.expr.withConsts hx) (hs.plan.withConsts hx) hs.ev
    rw [h]; rfl
  · rfl

omit [IsStrictOrderedRing K] in
theorem constObjective_fg (hs : OptSetting d e t plan ev) (hctx : CtxReady d e ctx) {x : List (Fl K)} {v : Fl K}
    {g : List (Fl K)} (h : (constObjective o d plan e ev ctx).fg x = some (v, g)) :
    x.length = e.consts.length ∧ g.length = x.length ∧ exprLoss o d t (x.map toT) = some v := by
  unfold constObjective at h
  simp only at h
  split at h
  · next hx =>
    obtain ⟨out, h1, h2⟩ := lossAndGrad_spec o (hs.expr.withConsts hx)
    obtain ⟨ctx', h3, -⟩ := h2 ctx (hctx.withConsts hx)
    rw [h3] at h
    obtain ⟨h4, h5⟩ := h1 v g h
    exact ⟨hx, by simpa [PostfixExpr.withConsts] using h5, h4⟩
  · cases h

omit [IsStrictOrderedRing K] in
theorem constObjective_ok (hF : Env.Formats K) (hs : OptSetting d e t plan ev) (hctx : CtxReady d e ctx) :
    (constObjective o d plan e ev ctx).Ok E.R where
  glen x v g h := (constObjective_fg hs hctx h).2.1
  rep x v g h := (rep_exprLoss hF (constObjective_fg hs hctx h).2.2).1
  consistent x v g w h h' := by
    obtain ⟨h1, -, h2⟩ := constObjective_fg hs hctx h
    rw [constObjective_fOnly hs, if_pos h1, h2] at h'
    cases h'; rfl

/-- Bound on the objective calls of one run of a minimiser. -/
def callBound (o : SOptions K) : Nat :=
  1 + o.optimizerIterations * (o.lineSearch.finiteMax + o.lineSearch.iterations + 3)

theorem runMinimiser_spec (hF : Env.Formats K) (hls : LsOk o) (hs : OptSetting d e t plan ev) (hctx : CtxReady d e ctx)
    {start : List (Fl K)} (hst : start.length = e.consts.length) :
    runMinimiser o (constObjective o d plan e ev ctx) start ≠ .panic ∧
    ∀ r, runMinimiser o (constObjective o d plan e ev ctx) start = .ok r → r.fCalls ≤ callBound o ∧
      (r.minimum = .pinf ∨ (r.minimizer.length = e.consts.length ∧
        exprLoss o d t (r.minimizer.map toT) = some r.minimum)) := by
  have hok := constObjective_ok (o := o) hF hs hctx
  unfold runMinimiser
  split
  · next h1 =>
    obtain ⟨k1, k2, -, k4⟩ := C38_newton_calls hF.lawful (constObjective o d plan e ev ctx) (optimOptions o) o.lineSearch
      hls.maxstep (start.headD (.fin 0))
    refine ⟨k1, fun r hr => ⟨?_, ?_⟩⟩
    · rw [k4 r hr]
      refine k2.trans ?_
      simp [callBound, optimOptions]
    · have hms' : NN o.lineSearch.maxstep := by
        unfold NN; have := hls.maxstep; cases hm : o.lineSearch.maxstep <;> simp_all [Fl.le, Fl.lt]
      have key : (newtonMinimize E.R (start.headD (.fin 0)) (constObjective o d plan e ev ctx) (optimOptions o)
          o.lineSearch).Sat 0 (fun _ => True) (fun r => r.minimum = .pinf ∨ (r.minimizer.length = e.consts.length ∧
            exprLoss o d t (r.minimizer.map toT) = some r.minimum)) := by
        unfold newtonMinimize
        refine OptM.Sat.bind (newtonLoop_sat hF.lawful _ (optimOptions o) o.lineSearch hms' _ _ _ .pinf _ 0
          (.inl ⟨rfl, rfl⟩) (fun _ => rfl)) (fun _ _ => trivial) ?_
        rintro ⟨f, x⟩ c1 ⟨h1, -⟩ -
        refine ⟨by simp, trivial, ?_⟩
        rintro _ h
        cases h
        rcases h1 with ⟨h, -⟩ | ⟨h1, ⟨g, h3⟩, h4⟩
        · exact .inl h
        · obtain ⟨j1, -, j3⟩ := constObjective_fg hs hctx h3
          exact .inr ⟨j1, j3⟩
      exact key.2.2 r hr
  · obtain ⟨k1, k2, -, k4⟩ := C38_bfgs_calls hF.lawful (constObjective o d plan e ev ctx) hok (optimOptions o) o.lineSearch
      hls.maxstep hls.c1 start
    refine ⟨k1, fun r hr => ⟨?_, .inr ?_⟩⟩
    · rw [k4 r hr]
      refine k2.trans ?_
      unfold callBound optimOptions
      exact Nat.add_le_add_left (Nat.mul_le_mul_left _ (by omega)) _
    · obtain ⟨j1, j2, ⟨g, j3⟩, -⟩ := C38_bfgs hF.lawful _ hok (optimOptions o) o.lineSearch hls.maxstep hls.c1 start r _
        (Prod.ext hr rfl)
      obtain ⟨i1, -, i3⟩ := constObjective_fg hs hctx j3
      exact ⟨i1, i3⟩

omit [IsStrictOrderedRing K] in
theorem ctxAfter_ready (hs : OptSetting d e t plan ev) (hctx : CtxReady d e ctx) {start : List (Fl K)}
    (hst : start.length = e.consts.length) : CtxReady d e (ctxAfter o d e start ctx) := by
  unfold ctxAfter
  split
  · exact hctx
  · obtain ⟨out, -, h2⟩ := lossAndGrad_spec o (hs.expr.withConsts hst)
    obtain ⟨ctx', h3, h4⟩ := h2 ctx (hctx.withConsts hst)
    rw [h3]
    exact h4.withoutConsts hst

/-- Invariant of the best point: finite, never above the loss of the original constants, and if below then it is the
loss at the remembered point. -/
structure BestInv (o : SOptions K) (d : Dataset K) (e : PostfixExpr (Fl K)) (t : Tree) (baseline : Fl K) (n : Nat)
    (b : BestPoint K) : Prop where
  le : b.f.le baseline = true
  pt : b.f.lt baseline = true → b.x.length = e.consts.length ∧ exprLoss o d t (b.x.map toT) = some b.f
  evals : b.evals ≤ n * callBound o

theorem optimizeFromStart_spec (hF : Env.Formats K) (hls : LsOk o) (hs : OptSetting d e t plan ev)
    (hctx : CtxReady d e ctx) {start : List (Fl K)} (hst : start.length = e.consts.length) {baseline : Fl K} {n : Nat}
    {b : BestPoint K} (hb : BestInv o d e t baseline n b) :
    ∃ b' ctx', optimizeFromStart o d plan e ev start b ctx = some (b', ctx') ∧
      BestInv o d e t baseline (n + 1) b' ∧ b'.f.le b.f = true ∧ CtxReady d e ctx' := by
  have hbb : b.f.le b.f = true := by
    have := hb.le
    revert this; cases b.f <;> cases baseline <;> simp [Fl.le]
  obtain ⟨h1, h2⟩ := runMinimiser_spec (o := o) hF hls hs hctx hst
  have hc := ctxAfter_ready (o := o) hs hctx hst
  have hmono : BestInv o d e t baseline (n + 1) b :=
    ⟨hb.le, hb.pt, hb.evals.trans (Nat.mul_le_mul_right _ (by omega))⟩
  unfold optimizeFromStart
  cases hr : runMinimiser o (constObjective o d plan e ev ctx) start with
  | panic => exact (h1 hr).elim
  | fail => exact ⟨b, _, rfl, hmono, hbb, hc⟩
  | ok r =>
    obtain ⟨h3, h4⟩ := h2 r hr
    have hev : satAdd b.evals r.fCalls ≤ (n + 1) * callBound o := by
      have : satAdd b.evals r.fCalls ≤ b.evals + r.fCalls := by unfold satAdd; omega
      have := hb.evals
      rw [Nat.add_mul]; omega
    refine ⟨_, _, rfl, ?_, ?_, hc⟩
    · unfold BestPoint.take
      simp only
      split
      · next hlt =>
        have hle : r.minimum.le baseline = true := Fl.le_trans (Fl.le_of_lt hlt) hb.le
        refine ⟨hle, fun _ => ?_, hev⟩
        rcases h4 with h4 | h4
        · rw [h4] at hlt; cases hbf : b.f <;> simp [hbf, Fl.lt] at hlt
        · exact h4
      · exact ⟨hb.le, hb.pt, hev⟩
    · unfold BestPoint.take
      simp only
      split
      · next hlt => exact Fl.le_of_lt hlt
      · exact hbb

omit [IsStrictOrderedRing K] in
theorem perturb_length : ∀ x : List (Fl K), Rand.Total (perturb x) (fun y => y.length = x.length)
  | [] => Rand.Total.pure rfl
  | v :: vs => by
    unfold perturb
    refine Rand.Total.bind (Rand.Total.float (P := fun _ => True) fun _ => trivial) fun _ _ => ?_
    refine Rand.Total.bind (Rand.Total.float (P := fun _ => True) fun _ => trivial) fun _ _ => ?_
    refine Rand.Total.bind (perturb_length vs) fun r hr => ?_
    exact Rand.Total.pure (by simp [hr])

theorem restarts_spec (hF : Env.Formats K) (hls : LsOk o) (hs : OptSetting d e t plan ev) {x0 : List (Fl K)}
    (hx0 : x0.length = e.consts.length) {baseline : Fl K} :
    ∀ (k n : Nat) (b : BestPoint K) (ctx : DContext (Fl K)), CtxReady d e ctx → BestInv o d e t baseline n b →
      Rand.Total (restarts o d plan e ev x0 k b ctx) fun r =>
        BestInv o d e t baseline (n + k) r.1 ∧ r.1.f.le b.f = true ∧ CtxReady d e r.2
  | 0, n, b, ctx, hctx, hb => Rand.Total.pure ⟨hb, by
      have := hb.le
      revert this; cases b.f <;> cases baseline <;> simp [Fl.le], hctx⟩
  | k + 1, n, b, ctx, hctx, hb => by
    unfold restarts
    refine Rand.Total.bind (perturb_length x0) fun xt hxt => ?_
    obtain ⟨b', ctx', h1, h2, h3, h4⟩ := optimizeFromStart_spec hF hls hs hctx (hxt.trans hx0) hb
    refine Rand.Total.bind (Rand.Total.lift (P := fun r => r = (b', ctx')) ⟨_, h1, rfl⟩) ?_
    rintro _ rfl
    refine (restarts_spec hF hls hs hx0 k (n + 1) b' ctx' h4 h2).mono ?_
    rintro ⟨b2, c2⟩ ⟨i1, i2, i3⟩
    exact ⟨by rw [show n + (k + 1) = n + 1 + k by omega]; exact i1, Fl.le_trans i2 h3, i3⟩

end

end SR
