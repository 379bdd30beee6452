import Verif.Spec.Rows
import Verif.Proofs.Weights
import Verif.Proofs.GradExact
import Verif.Proofs.Ctx
/-
Lemmas for C95: a search without mini-batches sees the data only through the losses and loss gradients of expressions.
-/
namespace SR
variable {K : Type} [Field K] [LinearOrder K] [E : Env K]

/-! ## Evaluation -/

theorem slice_flatMap {T : Type} [Scalar T] {k n : Nat} (f : Nat → Nat → T) {c : Nat} (hc : c < k) :
    slice? ((List.range k).flatMap fun c => (List.range n).map (f c)) (c * n) n = some ((List.range n).map (f c)) := by
  have hl : ((List.range k).flatMap fun c => (List.range n).map (f c)).length = k * n := by
    rw [List.length_flatMap]; simp
  have hb : c * n + n ≤ k * n := by
    calc c * n + n = (c + 1) * n := by ring
      _ ≤ _ := Nat.mul_le_mul_right _ hc
  unfold slice?
  rw [if_pos (by rw [hl]; exact hb)]
  congr 1
  apply List.ext_getElem?
  intro i
  rw [List.getElem?_take]
  split
  · next hi =>
    rw [List.getElem?_drop, flatMap_getElem f hc hi]
    simp [hi]
  · next hi => simp [hi]

theorem gradOut_exact {n k : Nat} {dl : List (Fl K)} (f : Nat → Nat → Fl K) : ∀ cs : List Nat, (∀ c ∈ cs, c < k) →
    gradOut n dl ((List.range k).flatMap fun c => (List.range n).map (f c)) cs
      = some (cs.map fun c => (List.zipWith E.RT.mul dl ((List.range n).map (f c))).foldl E.RT.add (.fin 0))
  | [], _ => rfl
  | c :: cs, h => by
    simp only [gradOut, slice_flatMap f (h c (by simp)), gradOut_exact f cs (fun c hc => h c (by simp [hc])),
      Option.bind_eq_bind, Option.bind_some, List.map_cons]

theorem any_not_finite (l : List (Fl K)) : l.any (fun v => !v.isFinite) = !l.all Fl.isFinite := by
  induction l with
  | nil => rfl
  | cons v l ih => simp only [List.any_cons, List.all_cons, ih]; cases v.isFinite <;> rfl

/-- Loss and gradient, exactly. -/
theorem lossAndGrad_exact (o : SOptions K) {d : Dataset K} {e : PostfixExpr (Fl K)} {t : Tree} (hs : ExprSetting d e t)
    {ctx : DContext (Fl K)} (h : CtxReady d e ctx) :
    ∃ ctx', lossAndGrad o d e ctx = some (exprSlope o d t e.consts, ctx') ∧
      ctx'.plan = compilePlan E.hash E.D e.nodes d.x.rows e.consts.length ∧
      (ctx.needsRecompile E.hash e d.x = true →
        ctx'.planNodesLen = e.nodes.length ∧ ctx'.planNConsts = e.consts.length ∧ ctx'.planNFeatures = d.x.rows) ∧
      (ctx.needsRecompile E.hash e d.x = false →
        ctx'.planNodesLen = ctx.planNodesLen ∧ ctx'.planNConsts = ctx.planNConsts ∧ ctx'.planNFeatures = ctx.planNFeatures) := by
  have hn : d.x.cols ≠ 0 := by have := hs.rows; omega
  obtain ⟨ctx', h1, -, -, q1, -, q2, q3⟩ := evalGradTreeArray_exact E.ops E.hash d.x e false strictOpts ctx hs.nodes
    hs.wf hs.lim.1 hs.lim.2.1 hs.lim.2.2 hn h.1 h.2.1 h.2.2
  refine ⟨ctx', ?_, q1, q2, q3⟩
  unfold lossAndGrad
  rw [h1]
  have hcol : ((List.range d.x.cols).map fun r => rowEval E.ops d.x e.consts r t) = predictions d t e.consts := rfl
  rw [hcol]
  simp only [Option.bind_eq_bind, Option.bind_some]
  generalize hfl : gflagSpec E.ops d.x e.consts strictOpts t = fl
  cases fl with
  | false =>
    have hnc : ¬ Computable d t e.consts := by rw [← strictGFlag_iff, hfl]; simp
    have he : exprSlope o d t e.consts = none := by
      unfold exprSlope exprLoss
      rw [if_neg hnc]
      split <;> rfl
    rw [he]; rfl
  | true =>
    have hc : Computable d t e.consts := strictGFlag_iff.mp hfl
    simp only [Bool.not_true, Bool.and_false, Bool.false_eq_true, if_false, any_not_finite]
    cases hall : (predictions d t e.consts).all Fl.isFinite with
    | false =>
      have he : exprSlope o d t e.consts = none := by
        unfold exprSlope
        rw [if_neg (by rw [hall]; simp)]
      rw [he]; rfl
    | true =>
      obtain ⟨v, hv⟩ := loss_some o d hs.data (predictions_length d t e.consts)
      have he : exprSlope o d t e.consts = (if v.isFinite then
          some (v, (List.range e.consts.length).map (lossSlope o d t e.consts)) else none) := by
        unfold exprSlope exprLoss
        rw [if_pos (by rw [hall]), if_pos hc, hv]
        simp only [Option.filter_some]
        split <;> rfl
      rw [he]
      simp only [Bool.not_true, Bool.false_eq_true, if_false, hv, Option.bind_some]
      cases hvf : v.isFinite with
      | false => simp
      | true =>
        obtain ⟨dl, hdl, -⟩ := dloss_some o d hs.data (predictions_length d t e.consts)
        simp only [Bool.not_true, Bool.false_eq_true, if_false, if_true, hdl, Option.bind_some]
        have hg : gradSpecX E.ops d.x e.consts false (nDirOf d.x e.consts false) t
            = (List.range e.consts.length).flatMap fun c => (List.range d.x.cols).map fun r =>
                rowGradX E.ops d.x e.consts false c r t := rfl
        rw [hg, gradOut_exact (fun c r => rowGradX E.ops d.x e.consts false c r t) _ (by simp)]
        simp only [Option.bind_some]
        have : (List.range e.consts.length).map (lossSlope o d t e.consts)
            = (List.range e.consts.length).map fun c => (List.zipWith E.RT.mul dl ((List.range d.x.cols).map fun r =>
                rowGradX E.ops d.x e.consts false c r t)).foldl E.RT.add (.fin 0) := by
          refine List.map_congr_left fun c _ => ?_
          unfold lossSlope
          rw [hdl]
          rfl
        rw [this]

/-! ## Constant optimisation -/

/-- Two gradient contexts that are safe for their data sets and remember the same plan. -/
structure CtxTwin (d d' : Dataset K) (c c' : DContext (Fl K)) : Prop where
  safe : CtxSafe d c
  safe' : CtxSafe d' c'
  nRows : c.nRows = d.x.cols
  nRows' : c'.nRows = d'.x.cols
  plan : c'.plan = c.plan
  len : c'.planNodesLen = c.planNodesLen
  consts : c'.planNConsts = c.planNConsts
  feats : c'.planNFeatures = c.planNFeatures

section
variable {o : SOptions K} {d d' : Dataset K} (V : SameVerdicts o d d')
include V

omit V in
theorem needsRecompile_twin {c c' : DContext (Fl K)} (h : CtxTwin d d' c c') (hr : d'.x.rows = d.x.rows) (e : PostfixExpr (Fl K)) :
    c'.needsRecompile E.hash e d'.x = c.needsRecompile E.hash e d.x := by
  unfold DContext.needsRecompile
  rw [h.plan, h.len, h.consts, h.feats, hr]

/-- What the evaluators really do with an expression and two contexts that remember the same plan: they evaluate that expression, or,
after a hash collision, both evaluate another expression. -/
theorem CtxTwin.evaluated {e : PostfixExpr (Fl K)} {t : Tree} (hs : ExprSetting d e t) (hs' : ExprSetting d' e t)
    {c c' : DContext (Fl K)} (h : CtxTwin d d' c c') :
    ∃ (e1 : PostfixExpr (Fl K)) (t1 : Tree), ExprSetting d e1 t1 ∧ ExprSetting d' e1 t1 ∧ e1.consts = e.consts ∧
      c.Coherent E.hash E.D e1 d.x ∧ c'.Coherent E.hash E.D e1 d'.x ∧
      evalGradTreeArray E.ops E.hash E.D e d.x false c strictOpts = evalGradTreeArray E.ops E.hash E.D e1 d.x false c strictOpts ∧
      evalGradTreeArray E.ops E.hash E.D e d'.x false c' strictOpts = evalGradTreeArray E.ops E.hash E.D e1 d'.x false c' strictOpts := by
  have hk := needsRecompile_twin h V.rows
  by_cases hn : c.needsRecompile E.hash e d.x = true
  · exact ⟨e, t, hs, hs', rfl, .inl hn, .inl (by rw [hk]; exact hn), rfl, rfl⟩
  have hn : c.needsRecompile E.hash e d.x = false := by simpa using hn
  have hn' := hn
  unfold DContext.needsRecompile at hn'
  split at hn'
  · cases hn'
  next hh =>
  push Not at hh
  obtain ⟨hh1, hh2, hh3⟩ := hh
  rcases h.safe.plan with h0 | ⟨e0, t0, s0, f1, f2, f3, f4⟩
  · rw [h0] at hn'; cases hn'
  have hcl : e.consts.length = e0.consts.length := by rw [← hh2, f2]
  have s1 : ExprSetting d ⟨e0.nodes, e.consts⟩ t0 :=
    ⟨s0.nodes, by simpa [hcl] using s0.wf, by simpa [hcl] using s0.lim, s0.data, s0.rows⟩
  have s1' : ExprSetting d' ⟨e0.nodes, e.consts⟩ t0 :=
    ⟨s0.nodes, by rw [V.rows]; exact s1.wf, by rw [V.rows]; exact s1.lim, hs'.data, hs'.rows⟩
  have hn1 : c.needsRecompile E.hash ⟨e0.nodes, e.consts⟩ d.x = false := by
    unfold DContext.needsRecompile
    rw [if_neg (by simp [f1, hh2, f3])]
    obtain ⟨p, hp⟩ := s0.compiles
    rw [f4, hp]
    simp [compilePlan_hash hp]
  have hset : ∀ m, c.setup E.hash E.D e d.x m = c.setup E.hash E.D ⟨e0.nodes, e.consts⟩ d.x m := by
    intro m
    simp only [DContext.setup]
    rw [if_neg (by simp [hn]), if_neg (by simp [hn1])]
  have hset' : ∀ m, c'.setup E.hash E.D e d'.x m = c'.setup E.hash E.D ⟨e0.nodes, e.consts⟩ d'.x m := by
    intro m
    simp only [DContext.setup]
    rw [if_neg (by simp [hk, hn]), if_neg (by simp [hk, hn1])]
  refine ⟨_, t0, s1, s1', rfl, .inr (by rw [f4, hcl]), .inr (by rw [h.plan, f4, hcl, V.rows]), ?_, ?_⟩
  · simp only [evalGradTreeArray, hset]
  · simp only [evalGradTreeArray, hset']

theorem lossAndGrad_twin {e : PostfixExpr (Fl K)} {t : Tree} (hs : ExprSetting d e t) (hs' : ExprSetting d' e t)
    {c c' : DContext (Fl K)} (h : CtxTwin d d' c c') :
    ∃ out c1 c1', lossAndGrad o d e c = some (out, c1) ∧ lossAndGrad o d' e c' = some (out, c1') ∧ CtxTwin d d' c1 c1' := by
  obtain ⟨e1, t1, s1, s1', ec, k1, k1', q, q'⟩ := h.evaluated V hs hs'
  have heq : lossAndGrad o d e c = lossAndGrad o d e1 c := by unfold lossAndGrad; rw [q, ec]
  have heq' : lossAndGrad o d' e c' = lossAndGrad o d' e1 c' := by unfold lossAndGrad; rw [q', ec]
  obtain ⟨c1, a1, a2, a3, a4⟩ := lossAndGrad_exact o s1 ⟨h.nRows, h.safe.scratch, k1⟩
  obtain ⟨c2, b1, b2, b3, b4⟩ := lossAndGrad_exact o s1' ⟨h.nRows', h.safe'.scratch, k1'⟩
  rw [V.slope t1 e1.consts s1.wf] at b1
  obtain ⟨_, x1, g1, -, g2, g3⟩ := lossAndGrad_safe o hs h.safe h.nRows
  obtain ⟨_, x2, g1', -, g2', g3'⟩ := lossAndGrad_safe o hs' h.safe' h.nRows'
  rw [heq, a1] at g1
  rw [heq', b1] at g1'
  cases g1
  cases g1'
  refine ⟨_, c1, c2, by rw [heq, a1], by rw [heq', b1], ⟨g2, g2', g3, g3', by rw [a2, b2, V.rows], ?_, ?_, ?_⟩⟩ <;>
  · have hk := needsRecompile_twin h V.rows e1
    cases hn : c.needsRecompile E.hash e1 d.x with
    | true =>
      rw [hn] at hk
      obtain ⟨y1, y2, y3⟩ := a3 hn
      obtain ⟨z1, z2, z3⟩ := b3 hk
      first | rw [y1, z1] | rw [y2, z2] | rw [y3, z3, V.rows]
    | false =>
      rw [hn] at hk
      obtain ⟨y1, y2, y3⟩ := a4 hn
      obtain ⟨z1, z2, z3⟩ := b4 hk
      first | rw [y1, z1, h.len] | rw [y2, z2, h.consts] | rw [y3, z3, h.feats]

theorem constObjective_twin {e : PostfixExpr (Fl K)} {t : Tree} {plan : EvalPlan} {ev ev' : Evaluator K} {ctx ctx' : DContext (Fl K)}
    (hs : OptSetting d e t plan ev) (hs' : OptSetting d' e t plan ev') (hc : CtxTwin d d' ctx ctx') :
    constObjective o d' plan e ev' ctx' = constObjective o d plan e ev ctx := by
  have h1 : (constObjective o d' plan e ev' ctx').fOnly = (constObjective o d plan e ev ctx).fOnly := by
    funext x
    rw [constObjective_fOnly hs, constObjective_fOnly hs']
    split
    · next hx => exact V.loss t _ (by simpa [hx] using hs.expr.wf)
    · rfl
  have h2 : (constObjective o d' plan e ev' ctx').fg = (constObjective o d plan e ev ctx).fg := by
    funext x
    unfold constObjective
    simp only
    split
    · next hx =>
      obtain ⟨out, c1, c2, k1, k2, -⟩ := lossAndGrad_twin V (hs.expr.withConsts hx) (hs'.expr.withConsts hx) hc
      rw [k1, k2]; rfl
    · rfl
  generalize constObjective o d' plan e ev' ctx' = a at *
  generalize constObjective o d plan e ev ctx = b at *
  cases a; cases b
  simp only at h1 h2
  rw [h1, h2]

theorem ctxAfter_twin {e : PostfixExpr (Fl K)} {t : Tree} (hs : ExprSetting d e t) (hs' : ExprSetting d' e t) {ctx ctx' : DContext (Fl K)}
    (hc : CtxTwin d d' ctx ctx') {start : List (Fl K)} (hst : start.length = e.consts.length) :
    CtxTwin d d' (ctxAfter o d e start ctx) (ctxAfter o d' e start ctx') := by
  unfold ctxAfter
  split
  · exact hc
  · obtain ⟨out, c1, c2, k1, k2, k3⟩ := lossAndGrad_twin V (hs.withConsts hst) (hs'.withConsts hst) hc
    rw [k1, k2]
    exact k3

/-- One run of a minimiser: the same best point. -/
theorem optimizeFromStart_twin {e : PostfixExpr (Fl K)} {t : Tree} {plan : EvalPlan} {ev ev' : Evaluator K} {ctx ctx' : DContext (Fl K)}
    (hs : OptSetting d e t plan ev) (hs' : OptSetting d' e t plan ev') (hc : CtxTwin d d' ctx ctx')
    {start : List (Fl K)} (hst : start.length = e.consts.length) (b : BestPoint K) :
    Option.Rel (fun r r' => r'.1 = r.1 ∧ CtxTwin d d' r.2 r'.2) (optimizeFromStart o d plan e ev start b ctx)
      (optimizeFromStart o d' plan e ev' start b ctx') := by
  unfold optimizeFromStart
  rw [constObjective_twin V hs hs' hc]
  have hk := ctxAfter_twin V hs.expr hs'.expr hc hst
  cases runMinimiser o (constObjective o d plan e ev ctx) start with
  | panic => exact .none
  | fail => exact .some ⟨rfl, hk⟩
  | ok r => exact .some ⟨rfl, hk⟩

omit V in
theorem Rand.Alike.with_post {α β : Type} {P : α → β → Prop} {A : α → Prop} {B : β → Prop} {m : Rand (Fl K) α} {m' : Rand (Fl K) β}
    (h : Rand.Alike P m m') (ha : Rand.Post m A) (hb : Rand.Post m' B) : Rand.Alike (fun a b => P a b ∧ A a ∧ B b) m m' := by
  intro g
  have hg := h g
  have ha' := ha g
  have hb' := hb g
  revert hg ha' hb'
  generalize m g = x
  generalize m' g = y
  intro hg ha' hb'
  cases hg with
  | none => exact .none
  | some hg => exact .some ⟨⟨hg.1, ha' _ _ rfl, hb' _ _ rfl⟩, hg.2⟩

omit V in
theorem Rand.Alike.mono {α β : Type} {P Q : α → β → Prop} {m : Rand (Fl K) α} {m' : Rand (Fl K) β}
    (h : Rand.Alike P m m') (hpq : ∀ a b, P a b → Q a b) : Rand.Alike Q m m' :=
  fun g => (h g).weaken fun _ _ k => ⟨hpq _ _ k.1, k.2⟩

theorem restarts_twin {e : PostfixExpr (Fl K)} {t : Tree} {plan : EvalPlan} {ev ev' : Evaluator K}
    (hs : OptSetting d e t plan ev) (hs' : OptSetting d' e t plan ev') {x0 : List (Fl K)} (hx0 : x0.length = e.consts.length) :
    ∀ (k : Nat) (b : BestPoint K) (ctx ctx' : DContext (Fl K)), CtxTwin d d' ctx ctx' →
    Rand.Alike (fun r r' => r'.1 = r.1 ∧ CtxTwin d d' r.2 r'.2) (restarts o d plan e ev x0 k b ctx)
      (restarts o d' plan e ev' x0 k b ctx') := by
  intro k
  induction k with
  | zero => intro b ctx ctx' hc; exact Rand.Alike.pure ⟨rfl, hc⟩
  | succ k ih =>
    intro b ctx ctx' hc
    unfold restarts
    refine Rand.Alike.bind ((Rand.Alike.refl (perturb x0)).with_post (perturb_length x0).post (perturb_length x0).post) ?_
    rintro xt xt' ⟨rfl, hx, -⟩
    refine Rand.Alike.bind (Rand.Alike.lift (optimizeFromStart_twin V hs hs' hc (hx.trans hx0) b)) ?_
    rintro ⟨b1, c1⟩ ⟨b2, c2⟩ ⟨h1, h2⟩
    simp only at h1 h2
    subst h1
    exact ih _ _ _ h2

/-- Evaluating a member: the same scores. -/
theorem evaluate_twin {m : Member K} {t : Tree} (hs : ExprSetting d m.expr t) (hs' : ExprSetting d' m.expr t)
    (hp : PlanOf d m.expr m.plan) {ev ev' : Evaluator K} (hev : ev.Ready d) (hev' : ev'.Ready d') {c : Nat}
    (hc : computeComplexity o.cx m.expr.nodes = some c) :
    Option.Rel (fun r r' => r'.1 = r.1 ∧ r'.2.1 = r.2.1 ∧ r.2.2.Ready d ∧ r'.2.2.Ready d') (m.evaluate o d ev) (m.evaluate o d' ev') := by
  have hp' : PlanOf d' m.expr m.plan := by unfold PlanOf; rw [V.rows]; exact hp
  obtain ⟨e1, h1, r1⟩ := evaluate_spec o hs hp hev hc
  obtain ⟨e2, h2, r2⟩ := evaluate_spec o hs' hp' hev' hc
  rw [h1, h2, V.loss t _ hs.wf, V.baseline]
  exact .some ⟨rfl, rfl, r1, r2⟩

omit V in
/-- The same results of constant optimisation. -/
structure OptTwin (d d' : Dataset K) (r r' : OptOut K) : Prop where
  member : r'.member = r.member
  improved : r'.improved = r.improved
  evals : r'.evals = r.evals
  nextBirth : r'.nextBirth = r.nextBirth
  ev : r.ev.Ready d
  ev' : r'.ev.Ready d'
  ctx : CtxTwin d d' r.ctx r'.ctx

theorem finishOptimize_twin {m : Member K} {t : Tree} {ev ev' : Evaluator K} (hs : OptSetting d m.expr t m.plan ev)
    (hs' : OptSetting d' m.expr t m.plan ev')
    {c : Nat} (hc : computeComplexity o.cx m.expr.nodes = some c) (baseline : Fl K) {ctx ctx' : DContext (Fl K)}
    (hctx : CtxTwin d d' ctx ctx') (nb : Nat) {b : BestPoint K} (hx : b.x.length = m.expr.consts.length) :
    Option.Rel (OptTwin d d') (finishOptimize o d m baseline ev ctx nb b) (finishOptimize o d' m baseline ev' ctx' nb b) := by
  unfold finishOptimize
  split
  · have h := evaluate_twin V (m := { m with expr := m.expr.withConsts b.x }) (t := t) (hs.expr.withConsts hx) (hs'.expr.withConsts hx)
      (hs.plan.withConsts hx) hs.ev hs'.ev (c := c) hc
    revert h
    generalize Member.evaluate o d ev { m with expr := m.expr.withConsts b.x } = a
    generalize Member.evaluate o d' ev' { m with expr := m.expr.withConsts b.x } = a'
    intro h
    cases h with
    | none => exact .none
    | @some a a' h =>
      obtain ⟨m1, ok1, e1⟩ := a
      obtain ⟨m2, ok2, e2⟩ := a'
      obtain ⟨h1, h2, h3, h4⟩ := h
      simp only at h1 h2 h3 h4
      subst h1 h2
      simp only [Option.bind_eq_bind, Option.bind_some]
      split
      · exact .some ⟨rfl, rfl, rfl, rfl, h3, h4, hctx⟩
      · exact .some ⟨rfl, rfl, rfl, rfl, h3, h4, hctx⟩
  · exact .some ⟨rfl, rfl, rfl, rfl, hs.ev, hs'.ev, hctx⟩

variable [IsStrictOrderedRing K]

theorem optimizeConstants_twin (hF : Env.Formats K) (hls : LsOk o) {m : Member K} {t : Tree} (hs : ExprSetting d m.expr t)
    (hs' : ExprSetting d' m.expr t) (hp : PlanOf d m.expr m.plan) {c : Nat} (hc : computeComplexity o.cx m.expr.nodes = some c)
    {ev ev' : Evaluator K} (hev : ev.Ready d) (hev' : ev'.Ready d') {ctx ctx' : DContext (Fl K)} (hctx : CtxTwin d d' ctx ctx') (nb : Nat) :
    Rand.Alike (OptTwin d d') (optimizeConstants o d ev ctx nb m) (optimizeConstants o d' ev' ctx' nb m) := by
  have hp' : PlanOf d' m.expr m.plan := by unfold PlanOf; rw [V.rows]; exact hp
  unfold optimizeConstants
  split
  · exact Rand.Alike.pure ⟨rfl, rfl, rfl, rfl, hev, hev', hctx⟩
  split
  · exact Rand.Alike.pure ⟨rfl, rfl, rfl, rfl, hev, hev', hctx⟩
  obtain ⟨e1, h1, r1⟩ := lossOnly_spec o hs hp hev
  obtain ⟨e2, h2, r2⟩ := lossOnly_spec o hs' hp' hev'
  rw [h1, h2, V.loss t _ hs.wf]
  refine Rand.Alike.bind (P := fun a b => a = (exprLoss o d t m.expr.consts, e1) ∧ b = (exprLoss o d t m.expr.consts, e2))
    (Rand.Alike.lift (.some ⟨rfl, rfl⟩)) ?_
  rintro _ _ ⟨rfl, rfl⟩
  cases hb : exprLoss o d t m.expr.consts with
  | none => exact Rand.Alike.pure ⟨rfl, rfl, rfl, rfl, r1, r2, hctx⟩
  | some baseline =>
    have S1 : OptSetting d m.expr t m.plan e1 := ⟨hs, hp, r1⟩
    have S2 : OptSetting d' m.expr t m.plan e2 := ⟨hs', hp', r2⟩
    obtain ⟨b1, c1, i1, i2, i3, i4⟩ := optimizeFromStart_safe (plan := m.plan) (ev := e1) (b := ⟨baseline, m.expr.consts, 0⟩)
      hF hls hs hctx.safe hctx.nRows rfl rfl
    have k := optimizeFromStart_twin V S1 S2 hctx (start := m.expr.consts) rfl ⟨baseline, m.expr.consts, 0⟩
    rw [i1] at k
    refine Rand.Alike.bind (P := fun a b => a = (b1, c1) ∧ b.1 = b1 ∧ CtxTwin d d' c1 b.2) (Rand.Alike.lift ?_) ?_
    · rw [i1]
      revert k
      generalize optimizeFromStart o d' m.plan m.expr e2 m.expr.consts ⟨baseline, m.expr.consts, 0⟩ ctx' = y
      intro k
      cases k with
      | some k => exact .some ⟨rfl, k.1, k.2⟩
    rintro _ ⟨b2, c2⟩ ⟨rfl, k1, k2⟩
    simp only at k1 k2
    subst k1
    refine Rand.Alike.bind ((restarts_twin V S1 S2 rfl o.optimizerNRestarts b2 c1 c2 k2).with_post
      (restarts_safe hF hls hs rfl o.optimizerNRestarts b2 c1 i3 i4 i2).post Rand.Post.true) ?_
    rintro ⟨b3, c3⟩ ⟨b4, c4⟩ ⟨⟨j1, j2⟩, ⟨j3, -⟩, -⟩
    simp only at j1 j2 j3
    subst j1
    exact Rand.Alike.lift (finishOptimize_twin V S1 S2 hc baseline j2 nb j3)

end
end SR
