import Verif.Proofs.ConstOpt
import Verif.Props.Constraints
import Verif.Spec.Demo
/-
C55 (evaluation of members) and C37 (optimisation of constants).
-/
namespace SR
variable {K : Type} [Field K] [LinearOrder K] [E : Env K]

/-! ## C55 -/

/-- C55: evaluating a member on a data set, from any evaluator sized for it (whatever its buffers contain): no panic;
nothing but complexity, loss and cost changes; the complexity is the sum of the node weights; if every intermediate
value is finite and the loss of the predictions is finite, that loss is recorded, the cost is the cost formula, and
the evaluation is reported as successful; otherwise loss and cost are infinite and it is reported as failed. -/
theorem C55_evaluate (o : SOptions K) (d : Dataset K) (m : Member K) (t : Tree) (hs : ExprSetting d m.expr t)
    (hp : PlanOf d m.expr m.plan) (ev : Evaluator K) (hev : ev.Ready d)
    (hw : o.cx.WF) (hD : t.ArityLe o.cx.D) :
    ∃ m' ok ev', m.evaluate o d ev = some (m', ok, ev') ∧ ev'.Ready d ∧
      (m'.expr = m.expr ∧ m'.plan = m.plan ∧ m'.id = m.id ∧ m'.parent = m.parent ∧ m'.birth = m.birth) ∧
      (m'.complexity = if o.cx.usesDefault then (t.toPostfix.map o.cx.weights.node).sum
        else min ((t.toPostfix.map o.cx.weights.node).sum) usizeMax) ∧
      (∃ l, o.loss.loss E.RT E.lossLib (predictions d t m.expr.consts) d.y d.weights = some l ∧
        (ok = true ↔ Computable d t m.expr.consts ∧ l.isFinite = true) ∧
        (ok = true → m'.loss = l ∧
          m'.cost = lossToCost E.RT l m'.complexity o.parsimony o.useBaseline d.baseline)) ∧
      (ok = false → m'.loss = .pinf ∧ m'.cost = .pinf) := by
  have hc := C24_complexity o.cx hw t hD
  rw [← hs.nodes] at hc
  obtain ⟨ev', h1, h2⟩ := evaluate_spec o hs hp hev hc
  obtain ⟨l, hl⟩ := loss_some o d hs.data (predictions_length d t m.expr.consts)
  refine ⟨_, _, ev', h1, h2, ⟨rfl, rfl, rfl, rfl, rfl⟩, by simp only [hs.nodes], ⟨l, hl, ?_, ?_⟩, ?_⟩
  · unfold exprLoss
    split
    · next h => rw [hl, Option.filter_some]; cases l.isFinite <;> simp [h]
    · next h => simp [h]
  · unfold exprLoss
    split
    · rw [hl, Option.filter_some]
      split <;> simp
    · simp
  · intro hok
    have : exprLoss o d t m.expr.consts = none := by
      cases h : exprLoss o d t m.expr.consts with
      | none => rfl
      | some v => rw [h] at hok; cases hok
    simp [this]

/-- C55: a member built from a well-formed expression has the plan of its expression, no loss yet, and does not
panic. -/
theorem C55_from_expr (d : Dataset K) (e : PostfixExpr (Fl K)) (t : Tree) (hs : ExprSetting d e t) (id birth : Nat)
    (parent : Option Nat) :
    ∃ m : Member K, Member.fromExpr id parent birth e d.x.rows = some m ∧ PlanOf d m.expr m.plan ∧
      m.expr = e ∧ m.id = id ∧ m.parent = parent ∧ m.birth = birth ∧ m.loss = .pinf ∧ m.cost = .pinf := by
  obtain ⟨p, hp, -⟩ := evalPlanArrayInto_correct E.ops E.hash d.x e.consts strictOpts hs.wf hs.lim.1 hs.lim.2.1
    hs.lim.2.2
  rw [← hs.nodes] at hp
  exact ⟨⟨id, parent, birth, e, p, 0, .pinf, .pinf⟩, by rw [Member.fromExpr, hp]; rfl, hp, rfl, rfl, rfl, rfl, rfl, rfl⟩

/-! ## C37 -/

variable [IsStrictOrderedRing K]

/-- C37: optimising the constants of a member, for every data set, loss, restart noise and optimiser settings, from any
scratch state: no panic; the nodes, the plan, the identity and the number of constants never change.  If it reports an
improvement, the new constants have a finite loss on the data set, strictly below that of the old constants, which
is the recorded loss, and cost and complexity belong to it, and the member takes the next birth number.  Otherwise the
member is exactly as before and no birth number is used. -/
theorem C37_optimize (hF : Env.Formats K) (o : SOptions K) (hls : LsOk o) (d : Dataset K) (m : Member K) (t : Tree)
    (hs : ExprSetting d m.expr t) (hp : PlanOf d m.expr m.plan) (ev : Evaluator K) (hev : ev.Ready d)
    (ctx : DContext (Fl K)) (hctx : CtxReady d m.expr ctx) (hw : o.cx.WF) (hD : t.ArityLe o.cx.D) (nb : Nat) :
    Rand.Total (optimizeConstants o d ev ctx nb m) fun r =>
      r.ev.Ready d ∧ CtxReady d m.expr r.ctx ∧
      r.member.expr.nodes = m.expr.nodes ∧ r.member.expr.consts.length = m.expr.consts.length ∧
      r.member.plan = m.plan ∧ r.member.id = m.id ∧ r.member.parent = m.parent ∧
      (r.improved = true → ∃ l0 l1, exprLoss o d t m.expr.consts = some l0 ∧
        exprLoss o d t r.member.expr.consts = some l1 ∧ l1.lt l0 = true ∧ r.member.loss = l1 ∧
        some r.member.complexity = computeComplexity o.cx m.expr.nodes ∧
        r.member.cost = lossToCost E.RT l1 r.member.complexity o.parsimony o.useBaseline d.baseline ∧
        r.member.birth = nb ∧ r.nextBirth = nb + 1) ∧
      (r.improved = false → r.member = m ∧ r.nextBirth = nb) ∧
      r.evals ≤ (o.optimizerNRestarts + 1) * callBound o + 1 := by
  have hc := C24_complexity o.cx hw t hD
  rw [← hs.nodes] at hc
  unfold optimizeConstants
  split
  · exact Rand.Total.pure ⟨hev, hctx, rfl, rfl, rfl, rfl, rfl, by simp, fun _ => ⟨rfl, rfl⟩, Nat.zero_le _⟩
  split
  · exact Rand.Total.pure ⟨hev, hctx, rfl, rfl, rfl, rfl, rfl, by simp, fun _ => ⟨rfl, rfl⟩, Nat.zero_le _⟩
  obtain ⟨ev1, h1, hev1⟩ := lossOnly_spec o hs hp hev
  refine Rand.Total.bind (Rand.Total.lift (P := fun r => r = _) ⟨_, h1, rfl⟩) ?_
  rintro _ rfl
  cases hb : exprLoss o d t m.expr.consts with
  | none =>
    exact Rand.Total.pure ⟨hev1, hctx, rfl, rfl, rfl, rfl, rfl, by simp, fun _ => ⟨rfl, rfl⟩, Nat.zero_le _⟩
  | some baseline =>
    have hset : OptSetting d m.expr t m.plan ev1 := ⟨hs, hp, hev1⟩
    have hfin := (rep_exprLoss hF hb).2
    have hbi : BestInv o d m.expr t baseline 0 ⟨baseline, m.expr.consts, 0⟩ := by
      refine ⟨?_, ?_, Nat.zero_le _⟩
      · cases baseline <;> simp [Fl.isFinite, Fl.le] at hfin ⊢
      · intro h; rw [Fl.lt_irrefl] at h; cases h
    obtain ⟨b1, c1, i1, i2, -, i4⟩ := optimizeFromStart_spec hF hls hset hctx rfl hbi
    refine Rand.Total.bind (Rand.Total.lift (P := fun r => r = _) ⟨_, i1, rfl⟩) ?_
    rintro _ rfl
    refine Rand.Total.bind (restarts_spec hF hls hset rfl o.optimizerNRestarts 1 b1 c1 i4 (by simpa using i2)) ?_
    rintro ⟨b2, c2⟩ ⟨j1, -, j3⟩
    apply Rand.Total.lift
    have hev2 : b2.evals ≤ (o.optimizerNRestarts + 1) * callBound o := by
      rw [Nat.add_comm]; exact j1.evals
    unfold finishOptimize
    simp only
    split
    · next hlt =>
      obtain ⟨k1, k2⟩ := j1.pt hlt
      obtain ⟨ev3, e1, e2⟩ := evaluate_spec o (m := { m with expr := m.expr.withConsts b2.x }) (hs.withConsts k1)
        (hp.withConsts k1) hev1 (show computeComplexity o.cx (m.expr.withConsts b2.x).nodes = _ from hc)
      rw [e1]
      simp only [PostfixExpr.withConsts, k2, Option.isSome_some, Option.getD_some, Option.bind_eq_bind,
        Option.bind_some, Bool.not_true, Bool.false_eq_true, if_false]
      refine ⟨_, rfl, e2, j3, rfl, by simp [k1], rfl, rfl, rfl, fun _ => ?_, by simp, ?_⟩
      · exact ⟨baseline, b2.f, rfl, k2, hlt, rfl, hc.symm, rfl, rfl, rfl⟩
      · have : satAdd b2.evals 1 ≤ b2.evals + 1 := by unfold satAdd; omega
        simp only; omega
    · exact ⟨_, rfl, hev1, j3, rfl, rfl, rfl, rfl, rfl, by simp, fun _ => ⟨rfl, rfl⟩, by simp only; omega⟩

/-- C37: in particular the loss never gets worse, for a member whose recorded loss is that of its expression on this
data set. -/
theorem C37_not_worse (hF : Env.Formats K) (o : SOptions K) (hls : LsOk o) (d : Dataset K) (m : Member K) (t : Tree)
    (hs : ExprSetting d m.expr t) (hp : PlanOf d m.expr m.plan) (ev : Evaluator K) (hev : ev.Ready d)
    (ctx : DContext (Fl K)) (hctx : CtxReady d m.expr ctx) (hw : o.cx.WF) (hD : t.ArityLe o.cx.D) (nb : Nat)
    (hloss : m.loss = (exprLoss o d t m.expr.consts).getD .pinf) :
    Rand.Total (optimizeConstants o d ev ctx nb m) fun r =>
      r.member.loss.le m.loss = true ∧ r.member.loss = (exprLoss o d t r.member.expr.consts).getD .pinf := by
  refine (C37_optimize hF o hls d m t hs hp ev hev ctx hctx hw hD nb).mono ?_
  rintro r ⟨-, -, -, -, -, -, -, h1, h2, -⟩
  cases hi : r.improved with
  | false =>
    obtain ⟨rfl, -⟩ := h2 hi
    refine ⟨?_, hloss⟩
    rw [hloss]
    cases h : exprLoss o d t r.member.expr.consts with
    | none => rfl
    | some v => have := (rep_exprLoss hF h).2; cases v <;> simp [Fl.isFinite, Fl.le] at this ⊢
  | true =>
    obtain ⟨l0, l1, e0, e1, hlt, hl, -⟩ := h1 hi
    rw [hloss, e0, hl, e1]
    exact ⟨Fl.le_of_lt hlt, rfl⟩

/-! ### A concrete case -/

namespace Demo
local instance : Env ℚ := env

theorem formats : Env.Formats ℚ where
  lawful := Rounding.exact_lawful ℚ
  lawfulT := Rounding.exact_lawful ℚ
  embed _ h := h
  sqrt _ _ _ := rfl

theorem lsOk : LsOk opts := ⟨rfl, by decide +kernel⟩

theorem cx_wf : opts.cx.WF := by
  constructor <;> simp [opts, cx]

theorem setting : ExprSetting data expr tree where
  nodes := rfl
  wf := by
    simp only [tree, Tree.WF, expr, data, Tree.all_op, List.length_cons, List.length_nil]
    exact ⟨⟨by decide, by decide, rfl⟩, by simp⟩
  lim := by simp [InLimits, tree, expr, data, u16Max, Tree.numOps]
  data := data_wf
  rows := by decide

/-- The hypotheses of C55 and C37 hold for `c0 * x0` on the two rows, with a fresh evaluator and gradient context. -/
example : ∃ m : Member ℚ, Member.fromExpr 5 none 7 expr 1 = some m ∧ ExprSetting data m.expr tree ∧
    PlanOf data m.expr m.plan ∧ (Evaluator.new 2 : Evaluator ℚ).Ready data ∧
    CtxReady data m.expr (DContext.new 2) ∧ tree.ArityLe opts.cx.D := by
  obtain ⟨m, h1, h2, h3, -⟩ := C55_from_expr data expr tree setting 5 7 none
  refine ⟨m, h1, h3 ▸ setting, h2, ?_, ?_, ?_⟩
  · simp [Evaluator.Ready, Evaluator.new, data, Buf.WF, Buf.zeros]
  · exact ⟨rfl, by simp [DContext.ScratchWF, DContext.new, Buf.zeros, Buf.WF],
      .inl (by unfold DContext.needsRecompile; split <;> rfl)⟩
  · simp [tree, Tree.ArityLe, opts, cx]

/-- And they are not vacuous: on this member the optimiser finds the exact constant 2, with loss 0 instead of 5/2. -/
example : ((Member.fromExpr 5 none 7 expr 1).bind fun m =>
    (optimizeConstants opts data (Evaluator.new 2) (DContext.new 2) 9 m ⟨fun _ => 0, fun _ => .fin 0⟩).map fun r =>
      (r.1.improved, r.1.member.expr.consts, r.1.member.loss, r.1.member.birth)) =
    some (true, [.fin 2], .fin 0, 9) := by decide +kernel

end Demo
end SR
