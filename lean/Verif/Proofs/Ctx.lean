import Verif.Spec.NoPanic
import Verif.Props.Iterate
/-
The gradient context shared by the members of a population: usable for all of them.
-/
namespace SR
variable {K : Type} [Field K] [LinearOrder K] [E : Env K]
variable {o : SOptions K} {d : Dataset K} {cur : Nat} {ops : List OpId} {N : Nat}

/-- The gradient context is safe for every expression: its buffers have consistent shapes and a stored plan is the plan
of some expression of the recorded shape (not necessarily of the one that is evaluated next: the key under which plans
are remembered is a 64-bit hash). -/
structure CtxSafe (d : Dataset K) (ctx : DContext (Fl K)) : Prop where
  scratch : ctx.ScratchWF
  plan : ctx.plan = none ∨ ∃ (e : PostfixExpr (Fl K)) (t : Tree), ExprSetting d e t ∧
    ctx.planNodesLen = e.nodes.length ∧ ctx.planNConsts = e.consts.length ∧ ctx.planNFeatures = d.x.rows ∧
    ctx.plan = compilePlan E.hash E.D e.nodes d.x.rows e.consts.length

theorem compilePlan_hash {nodes : List PNode} {nf nc : Nat} {p : EvalPlan}
    (h : compilePlan E.hash E.D nodes nf nc = some p) : p.hash = E.hash nodes := by
  unfold compilePlan at h
  split at h
  · split at h
    · cases h
    · split at h
      · cases h; rfl
      · cases h
  · cases h

theorem ExprSetting.compiles {e : PostfixExpr (Fl K)} {t : Tree} (hs : ExprSetting d e t) :
    ∃ p, compilePlan E.hash E.D e.nodes d.x.rows e.consts.length = some p := by
  obtain ⟨p, h, -⟩ := evalPlanArrayInto_correct E.ops E.hash d.x e.consts strictOpts hs.wf hs.lim.1 hs.lim.2.1
    hs.lim.2.2
  exact ⟨p, hs.nodes ▸ h⟩

/-- What the evaluator really does with an expression and a context: it evaluates that expression, or, after a hash
collision, another expression with the same number of nodes and the same constants. -/
theorem CtxSafe.evaluated {e : PostfixExpr (Fl K)} {t : Tree} (hs : ExprSetting d e t) {ctx : DContext (Fl K)}
    (hc : CtxSafe d ctx) :
    ∃ (e1 : PostfixExpr (Fl K)) (t1 : Tree), ExprSetting d e1 t1 ∧ e1.consts = e.consts ∧
      e1.nodes.length = e.nodes.length ∧ ctx.Coherent E.hash E.D e1 d.x ∧
      evalGradTreeArray E.ops E.hash E.D e d.x false ctx strictOpts =
        evalGradTreeArray E.ops E.hash E.D e1 d.x false ctx strictOpts := by
  by_cases hn : ctx.needsRecompile E.hash e d.x = true
  · exact ⟨e, t, hs, rfl, rfl, .inl hn, rfl⟩
  have hn : ctx.needsRecompile E.hash e d.x = false := by simpa using hn
  have hn' := hn
  unfold DContext.needsRecompile at hn'
  split at hn'
  · cases hn'
  next hh =>
  push Not at hh
  obtain ⟨hh1, hh2, hh3⟩ := hh
  rcases hc.plan with h0 | ⟨e0, t0, s0, f1, f2, f3, f4⟩
  · rw [h0] at hn'; cases hn'
  have hcl : e.consts.length = e0.consts.length := by rw [← hh2, f2]
  have s1 : ExprSetting d ⟨e0.nodes, e.consts⟩ t0 :=
    ⟨s0.nodes, by simpa [hcl] using s0.wf, by simpa [hcl] using s0.lim, s0.data, s0.rows⟩
  have hn1 : ctx.needsRecompile E.hash ⟨e0.nodes, e.consts⟩ d.x = false := by
    unfold DContext.needsRecompile
    rw [if_neg (by simp [f1, hh2, f3])]
    obtain ⟨p, hp⟩ := s0.compiles
    rw [f4, hp]
    simp [compilePlan_hash hp]
  refine ⟨_, t0, s1, rfl, by simp [← f1, hh1], .inr (by rw [f4, hcl]), ?_⟩
  have hset : ∀ m, ctx.setup E.hash E.D e d.x m = ctx.setup E.hash E.D ⟨e0.nodes, e.consts⟩ d.x m := by
    intro m
    simp only [DContext.setup]
    rw [if_neg (by simp [hn]), if_neg (by simp [hn1])]
  simp only [evalGradTreeArray, hset]

theorem lossAndGrad_safe (o : SOptions K) {e : PostfixExpr (Fl K)} {t : Tree} (hs : ExprSetting d e t)
    {ctx : DContext (Fl K)} (hc : CtxSafe d ctx) (hr : ctx.nRows = d.x.cols) :
    ∃ out ctx', lossAndGrad o d e ctx = some (out, ctx') ∧
      (∀ v g, out = some (v, g) → g.length = e.consts.length) ∧ CtxSafe d ctx' ∧ ctx'.nRows = d.x.cols := by
  obtain ⟨e1, t1, s1, ec, -, hcoh, heq⟩ := hc.evaluated hs
  have heq : lossAndGrad o d e ctx = lossAndGrad o d e1 ctx := by unfold lossAndGrad; rw [heq, ec]
  rw [heq, ← ec]
  obtain ⟨out, hout, hall⟩ := lossAndGrad_spec o s1
  obtain ⟨ctx', h, hrdy⟩ := hall ctx ⟨hr, hc.scratch, hcoh⟩
  refine ⟨out, ctx', h, fun v g hv => (hout v g hv).2, ?_, hrdy.1⟩
  obtain ⟨g, c1, h1, -, h3, h4, h5, h6, h7⟩ := evalGradTreeArray_values E.ops E.hash d.x e1 false strictOpts ctx s1.nodes
      s1.wf s1.lim.1 s1.lim.2.1 s1.lim.2.2 (by have := s1.rows; omega) hr hc.scratch hcoh
  have hctx : ctx' = c1 := by
    unfold lossAndGrad at h
    rw [h1] at h
    generalize (if (strictOpts.earlyExit && !gflagSpec E.ops d.x e1.consts strictOpts t1) = true then
      List.replicate d.x.cols Scalar.nan else colSpec E.ops d.x e1.consts t1) = ys at h
    simp only [Option.bind_eq_bind, Option.bind_some] at h
    split at h
    · cases h; rfl
    split at h
    · cases h; rfl
    simp only [Option.bind_eq_some_iff] at h
    obtain ⟨l, -, h⟩ := h
    split at h
    · cases h; rfl
    simp only [Option.bind_eq_some_iff] at h
    obtain ⟨_, -, _, -, h⟩ := h
    cases h; rfl
  subst hctx
  have hfields : ctx'.planNodesLen = e1.nodes.length ∧ ctx'.planNConsts = e1.consts.length ∧
      ctx'.planNFeatures = d.x.rows := by
    cases hn : ctx.needsRecompile E.hash e1 d.x with
    | true => exact h6 hn
    | false =>
      obtain ⟨a, b, c⟩ := h7 hn
      unfold DContext.needsRecompile at hn
      split at hn
      · cases hn
      · next hh => push Not at hh; rw [a, b, c]; exact hh
  exact ⟨h3, .inr ⟨e1, t1, s1, hfields.1, hfields.2.1, hfields.2.2, h5⟩⟩

section
variable {e : PostfixExpr (Fl K)} {t : Tree} {plan : EvalPlan} {ev : Evaluator K} {ctx : DContext (Fl K)}

theorem ctxAfter_safe (hs : ExprSetting d e t) (hc : CtxSafe d ctx) (hr : ctx.nRows = d.x.cols) {start : List (Fl K)}
    (hst : start.length = e.consts.length) :
    CtxSafe d (ctxAfter o d e start ctx) ∧ (ctxAfter o d e start ctx).nRows = d.x.cols := by
  unfold ctxAfter
  split
  · exact ⟨hc, hr⟩
  obtain ⟨out, ctx', h, -, h2, h3⟩ := lossAndGrad_safe o (hs.withConsts hst) hc hr
  rw [h]
  exact ⟨h2, h3⟩

variable [IsStrictOrderedRing K]

/-- The minimisers do not panic and return a point of the right dimension. -/
theorem runMinimiser_safe (hF : Env.Formats K) (hls : LsOk o) (hs : ExprSetting d e t) (hc : CtxSafe d ctx)
    (hr : ctx.nRows = d.x.cols) {start : List (Fl K)} (hst : start.length = e.consts.length) :
    runMinimiser o (constObjective o d plan e ev ctx) start ≠ .panic ∧
    ∀ r, runMinimiser o (constObjective o d plan e ev ctx) start = .ok r → r.minimizer.length = e.consts.length := by
  have hms : NN o.lineSearch.maxstep := by
    unfold NN; have := hls.maxstep; cases hm : o.lineSearch.maxstep <;> simp_all [Fl.le, Fl.lt]
  have glen : ∀ x v g, (constObjective o d plan e ev ctx).fg x = some (v, g) → g.length = x.length := by
    intro x v g h
    unfold constObjective at h
    simp only at h
    split at h
    · next hx =>
      obtain ⟨out, ctx', h1, h2, -⟩ := lossAndGrad_safe o (hs.withConsts hx) hc hr
      rw [h1] at h
      exact (h2 v g h).trans (by simp [PostfixExpr.withConsts])
    · cases h
  unfold runMinimiser
  split
  · next h1 =>
    obtain ⟨k1, -⟩ := C38_newton_calls hF.lawful (constObjective o d plan e ev ctx) (optimOptions o) o.lineSearch
      hls.maxstep (start.headD (.fin 0))
    refine ⟨k1, fun r hr => ?_⟩
    have key : (newtonMinimize E.R (start.headD (.fin 0)) (constObjective o d plan e ev ctx) (optimOptions o)
        o.lineSearch).Sat 0 (fun _ => True) (fun r => r.minimizer.length = 1) := by
      unfold newtonMinimize
      refine OptM.Sat.bind (newtonLoop_sat hF.lawful _ (optimOptions o) o.lineSearch hms _ _ _ .pinf _ 0
        (.inl ⟨rfl, rfl⟩) (fun _ => rfl)) (fun _ _ => trivial) ?_
      rintro ⟨f, x⟩ c1 - -
      exact ⟨by simp, trivial, by rintro _ h; cases h; rfl⟩
    rw [key.2.2 r hr, ← hst, h1]
  · obtain ⟨k1, -, k3⟩ := bfgsMinimize_safe hF.lawful _ glen (optimOptions o) o.lineSearch hms start
    exact ⟨k1, fun r hr => (k3 r hr).trans hst⟩

/-- A best point of the right dimension. -/
theorem optimizeFromStart_safe (hF : Env.Formats K) (hls : LsOk o) (hs : ExprSetting d e t) (hc : CtxSafe d ctx)
    (hr : ctx.nRows = d.x.cols) {start : List (Fl K)} (hst : start.length = e.consts.length) {b : BestPoint K}
    (hb : b.x.length = e.consts.length) :
    ∃ b' ctx', optimizeFromStart o d plan e ev start b ctx = some (b', ctx') ∧ b'.x.length = e.consts.length ∧
      CtxSafe d ctx' ∧ ctx'.nRows = d.x.cols := by
  obtain ⟨h1, h2⟩ := runMinimiser_safe (plan := plan) (ev := ev) hF hls hs hc hr hst
  obtain ⟨c1, c2⟩ := ctxAfter_safe (o := o) hs hc hr hst
  unfold optimizeFromStart
  cases hq : runMinimiser o (constObjective o d plan e ev ctx) start with
  | panic => exact (h1 hq).elim
  | fail => exact ⟨b, _, rfl, hb, c1, c2⟩
  | ok r =>
    refine ⟨_, _, rfl, ?_, c1, c2⟩
    unfold BestPoint.take
    simp only
    split
    · exact h2 r hq
    · exact hb

theorem restarts_safe (hF : Env.Formats K) (hls : LsOk o) (hs : ExprSetting d e t) {x0 : List (Fl K)}
    (hx : x0.length = e.consts.length) : ∀ (k : Nat) (b : BestPoint K) (ctx : DContext (Fl K)),
    CtxSafe d ctx → ctx.nRows = d.x.cols → b.x.length = e.consts.length →
    Rand.Total (restarts o d plan e ev x0 k b ctx) fun r =>
      r.1.x.length = e.consts.length ∧ CtxSafe d r.2 ∧ r.2.nRows = d.x.cols
  | 0, _, _, hc, hr, hb => Rand.Total.pure ⟨hb, hc, hr⟩
  | k + 1, b, ctx, hc, hr, hb => by
    unfold restarts
    refine Rand.Total.bind (perturb_length x0) fun y hy => ?_
    obtain ⟨b', ctx', h1, h2, h3, h4⟩ := optimizeFromStart_safe (plan := plan) (ev := ev) hF hls hs hc hr (hy.trans hx) hb
    refine Rand.Total.bind (Rand.Total.lift (P := fun r => r = (b', ctx')) ⟨_, h1, rfl⟩) ?_
    rintro _ rfl
    exact restarts_safe hF hls hs hx k b' ctx' h3 h4 h2

/-- Optimising the constants of a member never panics, whatever plan the context remembers, and leaves the context safe
for the other members. -/
theorem optimizeConstants_safe (hF : Env.Formats K) (hls : LsOk o) {m : Member K} (hs : ExprSetting d m.expr t)
    (hp : PlanOf d m.expr m.plan) (hw : o.cx.WF) (hD : t.ArityLe o.cx.D) (hev : ev.Ready d) (hc : CtxSafe d ctx)
    (hr : ctx.nRows = d.x.cols) (nb : Nat) :
    Rand.Total (optimizeConstants o d ev ctx nb m) fun r =>
      r.ev.Ready d ∧ CtxSafe d r.ctx ∧ r.ctx.nRows = d.x.cols := by
  have hcx := C24_complexity o.cx hw t hD
  rw [← hs.nodes] at hcx
  unfold optimizeConstants
  split
  · exact Rand.Total.pure ⟨hev, hc, hr⟩
  split
  · exact Rand.Total.pure ⟨hev, hc, hr⟩
  obtain ⟨ev1, h1, hev1⟩ := lossOnly_spec o hs hp hev
  refine Rand.Total.bind (Rand.Total.lift (P := fun r => r = _) ⟨_, h1, rfl⟩) ?_
  rintro _ rfl
  cases hb : exprLoss o d t m.expr.consts with
  | none => exact Rand.Total.pure ⟨hev1, hc, hr⟩
  | some baseline =>
    obtain ⟨b1, c1, i1, i2, i3, i4⟩ := optimizeFromStart_safe (plan := m.plan) (ev := ev1) (b := ⟨baseline, m.expr.consts, 0⟩)
      hF hls hs hc hr rfl rfl
    refine Rand.Total.bind (Rand.Total.lift (P := fun r => r = _) ⟨_, i1, rfl⟩) ?_
    rintro _ rfl
    refine Rand.Total.bind (restarts_safe hF hls hs rfl o.optimizerNRestarts b1 c1 i3 i4 i2) ?_
    rintro ⟨b2, c2⟩ ⟨j1, j2, j3⟩
    apply Rand.Total.lift
    unfold finishOptimize
    simp only
    split
    · obtain ⟨ev3, e1, e2⟩ := evaluate_spec o (m := { m with expr := m.expr.withConsts b2.x }) (hs.withConsts j1)
        (hp.withConsts j1) hev1 (show computeComplexity o.cx (m.expr.withConsts b2.x).nodes = _ from hcx)
      rw [e1]
      simp only [Option.bind_eq_bind, Option.bind_some]
      split
      · exact ⟨_, rfl, e2, j2, j3⟩
      · exact ⟨_, rfl, e2, j2, j3⟩
    · exact ⟨_, rfl, hev1, j2, j3⟩
end

variable [IsStrictOrderedRing K]

/-- The optimisation loop never panics. -/
theorem optimizeAll_total (hF : Env.Formats K) (hls : LsOk o) (S : EvolSetting o d cur ops N) :
    ∀ (p : Population K) (st : OptState K), (∀ m ∈ p, m.Good d ops N) → st.ev.Ready d → CtxSafe d st.ctx →
    st.ctx.nRows = d.x.cols →
    Rand.Total (optimizeAll o d p st) fun r => CtxSafe d r.2.ctx ∧ r.2.ctx.nRows = d.x.cols
  | [], st, _, _, hc, hr => Rand.Total.pure ⟨hc, hr⟩
  | m :: ms, st, hp, hev, hc, hr => by
    unfold optimizeAll
    refine Rand.Total.bind (Rand.Total.float (P := fun _ => True) fun _ => trivial) fun u _ => ?_
    split
    · have hg := hp m (by simp)
      obtain ⟨⟨t, hn, hu, hsz, hcs⟩, hpl⟩ := id hg
      have hset := S.exprSetting hn hu hsz hcs
      refine Rand.Total.bind (optimizeConstants_safe hF hls hset hpl S.cx (S.arityLe hu) hev hc hr st.nextBirth) fun r hr1 => ?_
      refine Rand.Total.bind (optimizeAll_total hF hls S ms _ (fun x hx => hp x (by simp [hx])) hr1.1 hr1.2.1 hr1.2.2)
        fun q hq => ?_
      exact Rand.Total.pure hq
    · refine Rand.Total.bind (optimizeAll_total hF hls S ms _ (fun x hx => hp x (by simp [hx])) hev hc hr) fun q hq => ?_
      exact Rand.Total.pure hq

/-- The simplification, constant optimisation and re-evaluation phase never panics. -/
theorem optimizeAndSimplify_total (hF : Env.Formats K) (hls : LsOk o) (S : EvolSetting o d cur ops N)
    (ctx : DContext (Fl K)) (st : EvolState K)
    (hpop : ∀ m ∈ st.pop, m.Good d ops N) (hev : st.ev.scratch.WF)
    (hc : o.shouldOptimizeConstants = true → CtxSafe d ctx) :
    Rand.Total (optimizeAndSimplify o d d ctx st) fun r => o.shouldOptimizeConstants = true → CtxSafe d r.2 := by
  have hsimp : ∃ p1, (if o.shouldSimplify then st.pop.mapM (simplifyMember d.x.rows) else some st.pop) = some p1 ∧
      ∀ m ∈ p1, m.Good d ops N := by
    split
    · obtain ⟨p', h1, h2⟩ := simplifyAll_spec S st.pop hpop
      refine ⟨p', h1, fun m hm => ?_⟩
      obtain ⟨i, hi, rfl⟩ := List.mem_iff_getElem.mp hm
      have := (List.forall₂_iff_get.mp h2)
      exact (this.2 i (this.1 ▸ hi) hi).1
    · exact ⟨st.pop, rfl, hpop⟩
  obtain ⟨p1, h1, h2⟩ := hsimp
  unfold optimizeAndSimplify
  refine Rand.Total.bind (Rand.Total.lift (P := fun r => r = p1) ⟨_, h1, rfl⟩) ?_
  rintro p1 rfl
  have hopt : Rand.Total (optimizePhase o d ctx { st with pop := p1 }) fun r =>
      (o.shouldOptimizeConstants = true → CtxSafe d r.2) ∧ r.1.ev.scratch.WF ∧ ∀ m ∈ r.1.pop, m.Good d ops N := by
    unfold optimizePhase
    split
    · next hon =>
      rw [Bool.and_eq_true] at hon
      have hcc := hc hon.1
      refine Rand.Total.bind ((optimizeAll_total hF hls S p1 ⟨st.ev.ensure d.x.cols,
        { ctx with nRows := d.x.cols }, st.counters.nextBirth, st.evals⟩ h2 (ensure_ready _ _ hev)
        ⟨hcc.scratch, hcc.plan⟩ rfl).and_post (optimizeAll_spec S d S.data rfl S.rows p1 _ h2 (ensure_ready _ _ hev))) ?_
      rintro ⟨pop, r⟩ ⟨⟨a, -⟩, b, -, -, c⟩
      refine Rand.Total.pure ⟨fun _ => a, b.2, fun m hm => ?_⟩
      have := (List.forall₂_iff_get.mp c)
      obtain ⟨i, hi, rfl⟩ := List.mem_iff_getElem.mp hm
      have h := this.2 i (this.1 ▸ hi) hi
      exact (h2 _ (List.getElem_mem (this.1 ▸ hi))).of_shape h.1 h.2.1 h.2.2.1
    · exact Rand.Total.pure ⟨hc, hev, h2⟩
  refine Rand.Total.bind hopt ?_
  rintro ⟨st2, ctx2⟩ ⟨g1, g2, g3⟩
  obtain ⟨p3, ev3, k1, -, -⟩ := evaluateAll_spec S st2.pop (st2.ev.ensure d.x.cols) g3 (ensure_ready _ _ g2)
  exact Rand.Total.bind (Rand.Total.lift (P := fun r => r = (p3, ev3)) ⟨_, k1, rfl⟩) fun _ _ => Rand.Total.pure g1

end SR
