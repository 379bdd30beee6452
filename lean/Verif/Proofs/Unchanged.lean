import Verif.Props.Member
import Verif.Props.Simplify
/-
What the "changed" flag of the simplifier guarantees when it is false, and the shape of results of the minimisers
whatever the gradient context contains.
-/
namespace SR

section
variable {T : Type}

theorem combineAddMul_false [Scalar T] (f : T → T → T) {id arity o : Nat} {children : List Nat} {A A' : List ANode}
    {consts consts' : List T} {ch : Bool} {id' : Nat}
    (h : combineAddMul f id arity o children A consts ch = some (id', A', consts', false)) :
    ch = false ∧ id' = id ∧ consts' = consts := by
  unfold combineAddMul at h
  simp only at h
  have fin : ∀ {b : Bool} {A1 : List ANode}, (id, A1, consts, ch || b) = (id', A', consts', false) →
      ch = false ∧ id' = id ∧ consts' = consts := by
    intro b A1 h
    simp only [Prod.mk.injEq, Bool.or_eq_false_iff] at h
    exact ⟨h.2.2.2.1, h.1.symm, h.2.2.1.symm⟩
  repeat' split at h
  all_goals first
    | (cases h; done)
    | exact fin (Option.some.inj h)
    | (simp only [Option.some.injEq, Prod.mk.injEq, Bool.true_eq_false, and_false] at h; done)
  
theorem subRewrite_true [Scalar T] {id arity o : Nat} {children : List Nat} {A : List ANode} {consts : List T}
    {a b v : T} {leaf c0 c1 : Nat} {r : CombRes T}
    (h : subRewrite id arity o children A consts a b v leaf c0 c1 = some r) : r.2.2.2 = true := by
  unfold subRewrite at h
  split at h
  · split at h
    · cases h
    · cases h; rfl
  · cases h

theorem combineSubLeft_true [SubScalar T] {id arity o : Nat} {children : List Nat} {A : List ANode} {consts : List T}
    {left right : Nat} {r : CombRes T}
    (h : combineSubLeft id arity o children A consts left right = some (some r)) : r.2.2.2 = true := by
  unfold combineSubLeft at h
  repeat' split at h
  all_goals first
    | (cases h; done)
    | exact subRewrite_true (Option.some.inj h)

theorem combineSubRight_true [SubScalar T] {id arity o : Nat} {children : List Nat} {A : List ANode} {consts : List T}
    {left right : Nat} {r : CombRes T}
    (h : combineSubRight id arity o children A consts left right = some (some r)) : r.2.2.2 = true := by
  unfold combineSubRight at h
  repeat' split at h
  all_goals first
    | (cases h; done)
    | exact subRewrite_true (Option.some.inj h)

theorem combineTop_false [SubScalar T] {cfg : CombineCfg} {id arity o : Nat} {children : List Nat} {A A' : List ANode}
    {consts consts' : List T} {ch : Bool} {id' : Nat}
    (h : combineTop cfg id arity o children A consts ch = some (id', A', consts', false)) :
    ch = false ∧ id' = id ∧ consts' = consts := by
  unfold combineTop at h
  repeat' split at h
  all_goals first
    | (cases h; done)
    | (cases h; exact ⟨rfl, rfl, rfl⟩)
    | exact combineAddMul_false _ h
    | (next h1 => cases h; have := combineSubLeft_true h1; cases this)
    | (next h1 => cases h; have := combineSubRight_true h1; cases this)

mutual
theorem combineNode_false [SubScalar T] (cfg : CombineCfg) : ∀ (fuel id : Nat) (A : List ANode) (consts : List T)
    (ch : Bool) (id' : Nat) (A' : List ANode) (consts' : List T),
    combineNode cfg fuel id A consts ch = some (id', A', consts', false) → ch = false ∧ id' = id ∧ consts' = consts
  | 0, _, _, _, _, _, _, _, h => by simp [combineNode] at h
  | fuel + 1, id, A, consts, ch, id', A', consts', h => by
    unfold combineNode at h
    split at h
    · cases h
    · split at h
      · cases h
      · next h1 =>
        obtain ⟨rfl, rfl, rfl⟩ := combineTop_false h
        obtain ⟨rfl, rfl⟩ := combineKids_false cfg fuel _ _ _ _ _ _ _ h1
        exact ⟨rfl, rfl, rfl⟩
    · cases h; exact ⟨rfl, rfl, rfl⟩
theorem combineKids_false [SubScalar T] (cfg : CombineCfg) : ∀ (fuel : Nat) (cs : List Nat) (A : List ANode)
    (consts : List T) (ch : Bool) (cs' : List Nat) (A' : List ANode) (consts' : List T),
    combineKids cfg fuel cs A consts ch = some (cs', A', consts', false) → ch = false ∧ consts' = consts
  | 0, _, _, _, _, _, _, _, h => by simp [combineKids] at h
  | _ + 1, [], _, _, _, _, _, _, h => by simp [combineKids] at h; exact ⟨h.2.2.2, h.2.2.1.symm⟩
  | fuel + 1, c :: cs, A, consts, ch, cs', A', consts', h => by
    unfold combineKids at h
    split at h
    · cases h
    · next h1 =>
      split at h
      · cases h
      · next h2 =>
        cases h
        obtain ⟨rfl, rfl⟩ := combineKids_false cfg fuel _ _ _ _ _ _ _ h2
        obtain ⟨rfl, -, rfl⟩ := combineNode_false cfg fuel _ _ _ _ _ _ _ h1
        exact ⟨rfl, rfl⟩
end

theorem combineOperators_false [SubScalar T] {cfg : CombineCfg} {D : Nat} {e e' : PostfixExpr T}
    (h : combineOperators cfg D e = some (e', false)) : e' = e := by
  unfold combineOperators at h
  split at h
  · cases h
  · cases h; rfl
  · split at h
    · cases h
    · next h1 =>
      split at h
      · next hc =>
        simp only [Bool.and_eq_true, Bool.not_eq_true', beq_iff_eq] at hc
        rw [hc.1] at h1
        obtain ⟨-, -, rfl⟩ := combineNode_false _ _ _ _ _ _ _ _ _ h1
        cases h; rfl
      · next hc =>
        split at h
        · cases h
        · cases h
          obtain ⟨-, rfl, -⟩ := combineNode_false _ _ _ _ _ _ _ _ _ h1
          simp at hc

theorem compressConstants_false {e e' : PostfixExpr T} (h : compressConstants e = some (e', false)) :
    e'.nodes = e.nodes ∧ e'.consts.length = e.consts.length := by
  have key : ∀ (l : List PNode) (st st' : CompressState T), l.foldlM (compressStep e.consts) st = some st' →
      st'.changed = false → st.changed = false ∧ st'.nodes = st.nodes ++ l := by
    intro l
    induction l with
    | nil => intro st st' h hs; cases h; exact ⟨hs, by simp⟩
    | cons n ns ih =>
      intro st st' h hs
      rw [List.foldlM_cons, Option.bind_eq_bind, Option.bind_eq_some_iff] at h
      obtain ⟨st1, h1, h2⟩ := h
      obtain ⟨h3, h4⟩ := ih st1 st' h2 hs
      rw [h4]
      clear * - h1 h3
      unfold compressStep at h1
      repeat' split at h1
      all_goals first
        | (cases h1; done)
        | (cases h1; simp at h3; obtain ⟨h3, rfl⟩ := h3; exact ⟨h3, by simp⟩)
        | (cases h1; exact ⟨h3, by simp⟩)
  unfold compressConstants at h
  rw [Option.map_eq_some_iff] at h
  obtain ⟨st, h1, h2⟩ := h
  simp only [Prod.mk.injEq, Bool.or_eq_false_iff, bne_eq_false_iff_eq] at h2
  obtain ⟨rfl, h2, h3⟩ := h2
  obtain ⟨-, h4⟩ := key _ _ _ h1 h2
  exact ⟨by simpa using h4, h3⟩

/-- A simplification that reports no change leaves the nodes and the number of constants alone. -/
theorem simplifyInPlace_false [SubScalar T] {ops : OpSet T} {cfg : CombineCfg} {D nf : Nat} {opts : EvalOptions} {t : Tree}
    {consts : List T} {e' : PostfixExpr T} (hwf : t.WF ops D nf consts.length)
    (h : simplifyInPlace ops cfg D opts ⟨t.toPostfix, consts⟩ = some (e', false)) :
    e'.nodes = t.toPostfix ∧ e'.consts.length = consts.length := by
  unfold simplifyInPlace at h
  split at h
  · cases h
  · next e1 c1 h1 =>
    split at h
    · cases h
    · next e2 c2 h2 =>
      split at h
      · cases h
      · next e3 c3 h3 =>
        simp only [Option.some.injEq, Prod.mk.injEq, Bool.or_eq_false_iff] at h
        obtain ⟨rfl, ⟨rfl, rfl⟩, rfl⟩ := h
        obtain ⟨t', new, changed, k1, -, -, -, k2⟩ := C13_fold_exact ops D nf opts t consts hwf
        rw [h1] at k1
        simp only [Option.some.injEq, Prod.mk.injEq] at k1
        obtain ⟨rfl, rfl⟩ := k1
        simp only [Bool.false_eq_true, false_iff, not_not] at k2
        rw [k2] at h2
        rw [combineOperators_false h2] at h3
        exact compressConstants_false h3
end

section
variable {K : Type} [Field K] [LinearOrder K]

theorem OptM.bind_ok {α β : Type} {m : OptM α} {f : α → OptM β} {c c' : Nat} {b : β}
    (h : (m >>= f) c = (.ok b, c')) : ∃ a c1, m c = (.ok a, c1) ∧ f a c1 = (.ok b, c') := by
  change (OptM.bind m f) c = _ at h
  unfold OptM.bind at h
  split at h
  · next a c1 h1 => exact ⟨a, c1, h1, h⟩
  · cases h
  · cases h

theorem callFg_ok {obj : Objective K} {x : List (Fl K)} {r : Fl K × List (Fl K)} {c c' : Nat}
    (h : callFg obj x c = (.ok r, c')) : obj.fg x = some r := by
  unfold callFg at h
  split at h
  · next r' h1 => cases h; exact h1
  · cases h

/-- The point returned by BFGS is one at which the objective could be evaluated. -/
theorem bfgsLoop_point (R : Rounding K) (obj : Objective K) (opts : OptimOptions K) (ls : BackTracking K)
    (P : List (Fl K) → Prop) (hP : ∀ x r, obj.fg x = some r → P x) : ∀ (n : Nat) (x : List (Fl K)) (fx : Fl K)
    (g h : List (Fl K)) (c c' : Nat) (r : List (Fl K) × Fl K), P x →
    bfgsLoop R obj opts ls n x fx g h c = (.ok r, c') → P r.1
  | 0, x, fx, g, h, c, c', r, hx, e => by cases e; exact hx
  | n + 1, x, fx, g, h, c, c', r, hx, e => by
    unfold bfgsLoop at e
    split at e
    · cases e; exact hx
    split at e
    · cases e; exact hx
    obtain ⟨⟨s, d, h1⟩, c1, -, e⟩ := OptM.bind_ok e
    simp only at e
    split at e
    · cases e; exact hx
    obtain ⟨⟨a, b, x'⟩, c2, -, e⟩ := OptM.bind_ok e
    simp only at e
    obtain ⟨⟨fx', g'⟩, c3, e1, e⟩ := OptM.bind_ok e
    have hx' := hP _ _ (callFg_ok e1)
    simp only at e
    split at e
    · cases e; exact hx'
    obtain ⟨dx, c4, -, e⟩ := OptM.bind_ok e
    obtain ⟨dg, c5, -, e⟩ := OptM.bind_ok e
    obtain ⟨h2, c6, -, e⟩ := OptM.bind_ok e
    exact bfgsLoop_point R obj opts ls P hP n _ _ _ _ _ _ _ hx' e

theorem bfgsMinimize_point {R : Rounding K} {x0 : List (Fl K)} {obj : Objective K} {opts : OptimOptions K}
    {ls : BackTracking K} (P : List (Fl K) → Prop) (hP : ∀ x r, obj.fg x = some r → P x) {c c' : Nat} {r : OptimResult K}
    (h : bfgsMinimize R x0 obj opts ls c = (.ok r, c')) : P r.minimizer := by
  unfold bfgsMinimize at h
  obtain ⟨⟨fx, g⟩, c1, e1, e⟩ := OptM.bind_ok h
  have h0 := hP _ _ (callFg_ok e1)
  simp only at e
  split at e
  · cases e
  obtain ⟨⟨x, f⟩, c2, e2, e⟩ := OptM.bind_ok e
  have := bfgsLoop_point R obj opts ls P hP _ _ _ _ _ _ _ _ h0 e2
  cases e
  exact this

theorem newtonMinimize_point {R : Rounding K} {x0 : Fl K} {obj : Objective K} {opts : OptimOptions K}
    {ls : BackTracking K} {c c' : Nat} {r : OptimResult K}
    (h : newtonMinimize R x0 obj opts ls c = (.ok r, c')) : r.minimizer.length = 1 := by
  unfold newtonMinimize at h
  obtain ⟨⟨f, x⟩, c1, -, e⟩ := OptM.bind_ok h
  cases e; rfl

variable [E : Env K]

theorem runMinimiser_length {o : SOptions K} {d : Dataset K} {plan : EvalPlan} {e : PostfixExpr (Fl K)} {ev : Evaluator K}
    {ctx : DContext (Fl K)} {start : List (Fl K)} (hstart : start.length = e.consts.length) {r : OptimResult K}
    (h : runMinimiser o (constObjective o d plan e ev ctx) start = .ok r) : r.minimizer.length = e.consts.length := by
  unfold runMinimiser at h
  split at h
  · next h1 =>
    rw [← hstart, h1]
    exact newtonMinimize_point (Prod.ext h rfl)
  · refine bfgsMinimize_point (fun x => x.length = e.consts.length) (fun x r hx => ?_) (Prod.ext h rfl)
    unfold constObjective at hx
    simp only at hx
    split at hx
    · assumption
    · cases hx

theorem optimizeFromStart_length {o : SOptions K} {d : Dataset K} {plan : EvalPlan} {e : PostfixExpr (Fl K)}
    {ev : Evaluator K} {ctx ctx' : DContext (Fl K)} {start : List (Fl K)} (hstart : start.length = e.consts.length)
    {b b' : BestPoint K} (hb : b.x.length = e.consts.length)
    (h : optimizeFromStart o d plan e ev start b ctx = some (b', ctx')) : b'.x.length = e.consts.length := by
  unfold optimizeFromStart at h
  split at h
  · cases h
  · cases h; exact hb
  · next r hr =>
    cases h
    unfold BestPoint.take
    simp only
    split
    · exact runMinimiser_length hstart hr
    · exact hb

theorem perturb_length' (x : List (Fl K)) : Rand.Post (perturb x) (fun y => y.length = x.length) := by
  induction x with
  | nil => exact Rand.Post.pure rfl
  | cons v vs ih =>
    unfold perturb
    refine Rand.Post.bind Rand.Post.true fun _ _ => Rand.Post.bind Rand.Post.true fun _ _ => Rand.Post.bind ih fun y hy => ?_
    exact Rand.Post.pure (by simp [hy])

theorem restarts_length (o : SOptions K) (d : Dataset K) (plan : EvalPlan) (e : PostfixExpr (Fl K))
    (ev : Evaluator K) {x0 : List (Fl K)} (h0 : x0.length = e.consts.length) : ∀ (n : Nat) (b : BestPoint K)
    (ctx : DContext (Fl K)), b.x.length = e.consts.length →
    Rand.Post (restarts o d plan e ev x0 n b ctx) (fun r => r.1.x.length = e.consts.length)
  | 0, b, ctx, hb => Rand.Post.pure hb
  | n + 1, b, ctx, hb => by
    unfold restarts
    refine Rand.Post.bind (perturb_length' x0) fun y hy => ?_
    refine Rand.Post.bind (Rand.Post.lift fun r h => optimizeFromStart_length (hy.trans h0) hb h) fun r hr => ?_
    exact restarts_length o d plan e ev h0 n r.1 r.2 hr

/-- Whatever the gradient context contains: optimisation keeps nodes, plan, identity and number of constants. -/
theorem optimizeConstants_struct (o : SOptions K) (d : Dataset K) (m : Member K) (t : Tree)
    (hs : ExprSetting d m.expr t) (hp : PlanOf d m.expr m.plan) (ev : Evaluator K) (hev : ev.Ready d)
    (ctx : DContext (Fl K)) (hw : o.cx.WF) (hD : t.ArityLe o.cx.D) (nb : Nat) :
    Rand.Post (optimizeConstants o d ev ctx nb m) fun r =>
      r.ev.Ready d ∧ r.member.expr.nodes = m.expr.nodes ∧ r.member.expr.consts.length = m.expr.consts.length ∧
      r.member.plan = m.plan ∧ r.member.id = m.id ∧ r.member.parent = m.parent ∧
      (r.improved = true → r.member.birth = nb ∧ r.nextBirth = nb + 1) ∧
      (r.improved = false → r.member.expr = m.expr ∧ r.member.birth = m.birth ∧ r.member.loss = m.loss ∧
        r.member.cost = m.cost ∧ r.nextBirth = nb) := by
  have hc := C24_complexity o.cx hw t hD
  rw [← hs.nodes] at hc
  unfold optimizeConstants
  split
  · exact Rand.Post.pure ⟨hev, rfl, rfl, rfl, rfl, rfl, by simp, fun _ => ⟨rfl, rfl, rfl, rfl, rfl⟩⟩
  split
  · exact Rand.Post.pure ⟨hev, rfl, rfl, rfl, rfl, rfl, by simp, fun _ => ⟨rfl, rfl, rfl, rfl, rfl⟩⟩
  obtain ⟨ev1, h1, hev1⟩ := lossOnly_spec o hs hp hev
  refine Rand.Post.bind (P := fun r => r = (exprLoss o d t m.expr.consts, ev1))
    (Rand.Post.lift fun r hr => by rw [h1] at hr; exact (Option.some.inj hr).symm) ?_
  rintro _ rfl
  simp only
  split
  · exact Rand.Post.pure ⟨hev1, rfl, rfl, rfl, rfl, rfl, by simp, fun _ => ⟨rfl, rfl, rfl, rfl, rfl⟩⟩
  next baseline hb =>
  refine Rand.Post.bind (P := fun r => r.1.x.length = m.expr.consts.length)
    (Rand.Post.lift fun r hr => optimizeFromStart_length rfl rfl hr) fun r1 hr1 => ?_
  refine Rand.Post.bind (restarts_length o d m.plan m.expr ev1 rfl o.optimizerNRestarts r1.1 r1.2 hr1) fun r2 hr2 => ?_
  refine Rand.Post.lift fun r hr => ?_
  unfold finishOptimize at hr
  split at hr
  · obtain ⟨ev3, e1, e2⟩ := evaluate_spec o (m := { m with expr := m.expr.withConsts r2.1.x }) (hs.withConsts hr2)
      (hp.withConsts hr2) hev1 (show computeComplexity o.cx (m.expr.withConsts r2.1.x).nodes = _ from hc)
    rw [e1] at hr
    simp only [Option.bind_eq_bind, Option.bind_some] at hr
    split at hr
    · cases hr
      exact ⟨e2, rfl, rfl, rfl, rfl, rfl, by simp, fun _ => ⟨rfl, rfl, rfl, rfl, rfl⟩⟩
    · cases hr
      exact ⟨e2, rfl, by simp [PostfixExpr.withConsts, hr2], rfl, rfl, rfl, fun _ => ⟨rfl, rfl⟩, by simp⟩
  · cases hr
    exact ⟨hev1, rfl, rfl, rfl, rfl, rfl, by simp, fun _ => ⟨rfl, rfl, rfl, rfl, rfl⟩⟩

end
end SR
