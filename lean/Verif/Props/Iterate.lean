import Verif.Props.Evolve
import Verif.Proofs.Unchanged
import Mathlib.Data.List.Forall2
/-
C58: the simplification, constant optimisation and re-evaluation phase at the end of an iteration.
-/
namespace SR
variable {K : Type} [Field K] [LinearOrder K] [E : Env K]

/-- What the phase does to one member. -/
structure Finished (o : SOptions K) (full : Dataset K) (ops : List OpId) (N : Nat) (m m' : Member K) : Prop where
  /-- its nodes are those of the (simplified) expression, with as many constants (the same constants if
  constant optimisation is off) -/
  shape : ∃ e : PostfixExpr (Fl K), m'.expr.nodes = e.nodes ∧ m'.expr.consts.length = e.consts.length ∧
    (if o.shouldSimplify then ∃ ch, simplifyInPlace E.ops E.cfg E.D strictOpts m.expr = some (e, ch) else e = m.expr) ∧
    ((o.shouldOptimizeConstants && Fl.lt (.fin 0) o.optimizerProbability) = false → m'.expr = e)
  /-- the phase does not change who it is -/
  identity : m'.id = m.id ∧ m'.parent = m.parent
  good : m'.Good full ops N
  /-- loss, cost and complexity are those of its expression on the full data set -/
  scored : m'.Scored o full

section
variable {o : SOptions K} {full : Dataset K} {cur : Nat} {ops : List OpId} {N : Nat}

theorem Member.Good.of_shape {m m' : Member K} (h : m.Good full ops N) (h1 : m'.expr.nodes = m.expr.nodes)
    (h2 : m'.expr.consts.length = m.expr.consts.length) (h3 : m'.plan = m.plan) : m'.Good full ops N := by
  obtain ⟨⟨t, a1, a2, a3, a4⟩, hp⟩ := h
  refine ⟨⟨t, h1.trans a1, by rw [h2]; exact a2, a3, by rw [h2]; exact a4⟩, ?_⟩
  unfold PlanOf at hp ⊢
  rw [h1, h2, h3]; exact hp

/-- Simplification of one member. -/
theorem simplifyMember_spec (S : EvolSetting o full cur ops N) (m : Member K) (hm : m.Good full ops N) :
    ∃ m', simplifyMember full.x.rows m = some m' ∧ m'.Good full ops N ∧ m'.id = m.id ∧ m'.parent = m.parent ∧
      m'.birth = m.birth ∧ ∃ ch, simplifyInPlace E.ops E.cfg E.D strictOpts m.expr = some (m'.expr, ch) := by
  obtain ⟨⟨t, hn, hu, hs, hc⟩, hp⟩ := hm
  have hroom := S.room
  have hset := S.exprSetting hn hu hs hc
  have he : m.expr = ⟨t.toPostfix, m.expr.consts⟩ := by rw [← hn]
  obtain ⟨t', cs', ch, h1, h2, h3, -, -, h6, h7⟩ := C15_simplify_shape E.ops E.cfg E.D full.x.rows strictOpts t
    m.expr.consts hset.wf (by unfold u16Max; omega)
  have hu' := Tree.all_iff.mp hu
  have hu2 : t'.Uses ops full.x.rows cs'.length :=
    Tree.all_iff.mpr ⟨(Tree.all_iff.mp h2).1, (Tree.all_iff.mp h2).2.1, fun p hp => hu'.2.2 p (h6 p hp)⟩
  have hcs : cs'.length ≤ t'.size := by
    have hr := (numberedFrom_iff _ 0 cs'.length).mp h7
    have hr' : firstUses t'.constIdxs = List.range cs'.length := by simpa [firstUses] using hr
    have h4 := firstUses_length_le t'.constIdxs
    rw [hr', List.length_range] at h4
    have := t'.constIdxs_length_le
    omega
  rw [← he] at h1
  unfold simplifyMember
  rw [h1]
  simp only [Option.bind_eq_bind, Option.bind_some]
  cases ch with
  | false =>
    have hf := simplifyInPlace_false (nf := full.x.rows) hset.wf (he ▸ h1)
    refine ⟨{ m with expr := ⟨t'.toPostfix, cs'⟩ }, rfl, ⟨⟨t', rfl, hu2, by omega, show cs'.length ≤ N by omega⟩, ?_⟩, rfl, rfl, rfl,
      false, rfl⟩
    show PlanOf full ⟨t'.toPostfix, cs'⟩ m.plan
    unfold PlanOf at hp ⊢
    rw [show (⟨t'.toPostfix, cs'⟩ : PostfixExpr (Fl K)).nodes = t.toPostfix from hf.1, hf.2, ← hn]
    exact hp
  | true =>
    have hset' := S.exprSetting (e := ⟨t'.toPostfix, cs'⟩) rfl hu2 (by omega) (show cs'.length ≤ N by omega)
    obtain ⟨b, k1, k2, k3, -⟩ := C55_from_expr full ⟨t'.toPostfix, cs'⟩ t' hset' 0 0 none
    have k2' : compilePlan E.hash E.D t'.toPostfix full.x.rows cs'.length = some b.plan := by
      rw [k3] at k2; exact k2
    refine ⟨{ m with expr := ⟨t'.toPostfix, cs'⟩, plan := b.plan }, ?_, ⟨⟨t', rfl, hu2, by omega, show cs'.length ≤ N by omega⟩, ?_⟩,
      rfl, rfl, rfl, true, rfl⟩
    · simp only [if_true, Member.rebuildPlan]
      rw [k2']; rfl
    · exact k2'

theorem simplifyAll_spec (S : EvolSetting o full cur ops N) : ∀ (p : Population K), (∀ m ∈ p, m.Good full ops N) →
    ∃ p', p.mapM (simplifyMember full.x.rows) = some p' ∧ List.Forall₂ (fun m m' => m'.Good full ops N ∧ m'.id = m.id ∧
      m'.parent = m.parent ∧ ∃ ch, simplifyInPlace E.ops E.cfg E.D strictOpts m.expr = some (m'.expr, ch)) p p'
  | [], _ => ⟨[], rfl, .nil⟩
  | m :: ms, h => by
    obtain ⟨m', h1, h2, h3, h4, -, h5⟩ := simplifyMember_spec S m (h m (by simp))
    obtain ⟨p', k1, k2⟩ := simplifyAll_spec S ms fun x hx => h x (by simp [hx])
    exact ⟨m' :: p', by rw [List.mapM_cons, h1, k1]; rfl, .cons ⟨h2, h3, h4, h5⟩ k2⟩

/-- The optimisation loop. -/
theorem optimizeAll_spec (S : EvolSetting o full cur ops N) (d : Dataset K) (hd : d.WF) (hrows : d.x.rows = full.x.rows)
    (hcols : 0 < d.x.cols) : ∀ (p : Population K) (st : OptState K), (∀ m ∈ p, m.Good full ops N) → st.ev.Ready d →
    Rand.Post (optimizeAll o d p st) fun r =>
      r.2.ev.Ready d ∧ st.nextBirth ≤ r.2.nextBirth ∧ st.evals ≤ r.2.evals ∧
      List.Forall₂ (fun m m' : Member K => m'.expr.nodes = m.expr.nodes ∧
        m'.expr.consts.length = m.expr.consts.length ∧ m'.plan = m.plan ∧ m'.id = m.id ∧ m'.parent = m.parent) p r.1
  | [], st, _, hev => Rand.Post.pure ⟨hev, Nat.le_refl _, Nat.le_refl _, .nil⟩
  | m :: ms, st, hp, hev => by
    unfold optimizeAll
    refine Rand.Post.bind Rand.Post.true fun u _ => ?_
    split
    · obtain ⟨⟨t, hn, hu, hs, hc⟩, hpl⟩ := hp m (by simp)
      have hset0 := S.exprSetting hn hu hs hc
      have hset : ExprSetting d m.expr t := ⟨hn, by rw [hrows]; exact hset0.wf, by rw [hrows]; exact hset0.lim, hd, hcols⟩
      have hpl' : PlanOf d m.expr m.plan := by unfold PlanOf; rw [hrows]; exact hpl
      refine Rand.Post.bind (optimizeConstants_struct o d m t hset hpl' st.ev hev st.ctx S.cx
        (S.arityLe hu) st.nextBirth) fun r hr => ?_
      obtain ⟨r1, r2, r3, r4, r5, r6, r7, r8⟩ := hr
      refine Rand.Post.bind (optimizeAll_spec S d hd hrows hcols ms _ (fun x hx => hp x (by simp [hx])) r1) fun q hq => ?_
      obtain ⟨q1, q2, q3, q4⟩ := hq
      refine Rand.Post.pure ⟨q1, Nat.le_trans ?_ q2, Nat.le_trans (Nat.le_add_right _ _) q3, .cons ⟨r2, r3, r4, r5, r6⟩ q4⟩
      show st.nextBirth ≤ r.nextBirth
      cases hi : r.improved
      · rw [(r8 hi).2.2.2.2]
      · rw [(r7 hi).2]; omega
    · refine Rand.Post.bind (optimizeAll_spec S d hd hrows hcols ms _ (fun x hx => hp x (by simp [hx])) hev) fun q hq => ?_
      obtain ⟨q1, q2, q3, q4⟩ := hq
      exact Rand.Post.pure ⟨q1, q2, q3, .cons ⟨rfl, rfl, rfl, rfl, rfl⟩ q4⟩

theorem evaluateAll_spec (S : EvolSetting o full cur ops N) : ∀ (p : Population K) (ev : Evaluator K),
    (∀ m ∈ p, m.Good full ops N) → ev.Ready full →
    ∃ p' ev', evaluateAll o full p ev = some (p', ev') ∧ ev'.Ready full ∧
      List.Forall₂ (fun m m' : Member K => m'.expr = m.expr ∧ m'.plan = m.plan ∧ m'.id = m.id ∧ m'.parent = m.parent ∧
        m'.birth = m.birth ∧ m'.Scored o full) p p'
  | [], ev, _, hev => ⟨[], ev, rfl, hev, .nil⟩
  | m :: ms, ev, hp, hev => by
    obtain ⟨⟨t, hn, hu, hs, hc⟩, hpl⟩ := hp m (by simp)
    have hset := S.exprSetting hn hu hs hc
    have hcx := C24_complexity o.cx S.cx t (S.arityLe hu)
    rw [← hn] at hcx
    obtain ⟨ev1, h1, h2⟩ := evaluate_spec o hset hpl hev hcx
    obtain ⟨p', ev', k1, k2, k3⟩ := evaluateAll_spec S ms ev1 (fun x hx => hp x (by simp [hx])) h2
    generalize hm1 : ({ m with complexity := _, loss := _, cost := _ } : Member K) = m1 at h1
    refine ⟨m1 :: p', ev', by unfold evaluateAll; rw [h1]; simp only [Option.bind_eq_bind, Option.bind_some]; rw [k1]; rfl, k2,
      .cons ?_ k3⟩
    subst hm1
    refine ⟨rfl, rfl, rfl, rfl, rfl, t, hn, hcx, rfl, ?_⟩
    simp only
    cases exprLoss o full t m.expr.consts <;> simp

omit [LinearOrder K] E in
theorem ensure_ready (ev : Evaluator K) (d : Dataset K) (h : ev.scratch.WF) : (ev.ensure d.x.cols).Ready d := by
  unfold Evaluator.ensure
  split
  · refine ⟨?_, h⟩
    simp only [List.length_append, List.length_take, List.length_replicate]
    omega
  · next hne => exact ⟨by simpa using hne, h⟩

/-- C58: after the simplification and constant optimisation at the end of an iteration, whatever the random stream and
the state of the gradient scratch memory: the population has the same members in the same order (identities and
parents), each with the nodes of its simplified expression, and each carries exactly the loss, cost and complexity of
its expression on the full data set, even when the constants were optimised on a batch. -/
theorem C58_rescored (S : EvolSetting o full cur ops N) (dOpt : Dataset K) (hd : dOpt.WF)
    (hrows : dOpt.x.rows = full.x.rows) (hcols : 0 < dOpt.x.cols) (ctx : DContext (Fl K)) (st : EvolState K)
    (hpop : ∀ m ∈ st.pop, m.Good full ops N) (hev : st.ev.scratch.WF) :
    Rand.Post (optimizeAndSimplify o full dOpt ctx st) fun r =>
      List.Forall₂ (Finished o full ops N) st.pop r.1.pop ∧ r.1.ev.Ready full ∧
      r.1.counters.nextId = st.counters.nextId ∧ st.counters.nextBirth ≤ r.1.counters.nextBirth ∧
      st.evals + st.pop.length ≤ r.1.evals := by
  have hsimp : ∃ p1, (if o.shouldSimplify then st.pop.mapM (simplifyMember full.x.rows) else some st.pop) = some p1 ∧
      List.Forall₂ (fun m m' : Member K => m'.Good full ops N ∧ m'.id = m.id ∧ m'.parent = m.parent ∧
        (if o.shouldSimplify then ∃ ch, simplifyInPlace E.ops E.cfg E.D strictOpts m.expr = some (m'.expr, ch)
          else m'.expr = m.expr)) st.pop p1 := by
    cases hsw : o.shouldSimplify with
    | true =>
      obtain ⟨p', h1, h2⟩ := simplifyAll_spec S st.pop hpop
      exact ⟨p', by simpa using h1, by simpa using h2⟩
    | false =>
      refine ⟨st.pop, rfl, ?_⟩
      rw [List.forall₂_same]
      exact fun m hm => ⟨hpop m hm, rfl, rfl, by simp⟩
  obtain ⟨p1, h1, h2⟩ := hsimp
  unfold optimizeAndSimplify
  refine Rand.Post.bind (P := fun r => r = p1) (Rand.Post.lift fun r hr => by rw [h1] at hr; exact (Option.some.inj hr).symm) ?_
  rintro p1 rfl
  have hp1 : ∀ m ∈ p1, m.Good full ops N := by
    have := (List.forall₂_iff_get.mp h2)
    intro m hm
    obtain ⟨i, hi, rfl⟩ := List.mem_iff_getElem.mp hm
    exact (this.2 i (this.1 ▸ hi) hi).1
  have hopt : Rand.Post (optimizePhase o dOpt ctx { st with pop := p1 }) fun r => r.1.ev.scratch.WF ∧
      r.1.counters.nextId = st.counters.nextId ∧ st.counters.nextBirth ≤ r.1.counters.nextBirth ∧
      st.evals ≤ r.1.evals ∧
      List.Forall₂ (fun m m' : Member K => m'.expr.nodes = m.expr.nodes ∧
        m'.expr.consts.length = m.expr.consts.length ∧ m'.plan = m.plan ∧ m'.id = m.id ∧ m'.parent = m.parent)
        p1 r.1.pop ∧
      ((o.shouldOptimizeConstants && Fl.lt (.fin 0) o.optimizerProbability) = false → r.1.pop = p1) := by
    unfold optimizePhase
    split
    · next hon =>
      refine Rand.Post.bind (optimizeAll_spec S dOpt hd hrows hcols p1 _ hp1 (ensure_ready _ _ hev)) fun r hr => ?_
      exact Rand.Post.pure ⟨hr.1.2, rfl, hr.2.1, hr.2.2.1, hr.2.2.2, fun h => by rw [hon] at h; cases h⟩
    · exact Rand.Post.pure ⟨hev, rfl, Nat.le_refl _, Nat.le_refl _,
        List.forall₂_same.mpr fun m _ => ⟨rfl, rfl, rfl, rfl, rfl⟩, fun _ => rfl⟩
  refine Rand.Post.bind hopt ?_
  rintro ⟨st2, ctx2⟩ ⟨g1, g2, g3, g4, g5, g6⟩
  simp only at g1 g2 g3 g4 g5 g6 ⊢
  have hp2 : ∀ m ∈ st2.pop, m.Good full ops N := by
    have := (List.forall₂_iff_get.mp g5)
    intro m hm
    obtain ⟨i, hi, rfl⟩ := List.mem_iff_getElem.mp hm
    have h := this.2 i (this.1 ▸ hi) hi
    exact (hp1 _ (List.getElem_mem (this.1 ▸ hi))).of_shape h.1 h.2.1 h.2.2.1
  obtain ⟨p3, ev3, k1, k2, k3⟩ := evaluateAll_spec S st2.pop (st2.ev.ensure full.x.cols) hp2 (ensure_ready _ _ g1)
  refine Rand.Post.bind (P := fun r => r = (p3, ev3))
    (Rand.Post.lift fun r hr => by rw [k1] at hr; exact (Option.some.inj hr).symm) ?_
  rintro _ rfl
  have l2 := h2.length_eq
  have l5 := g5.length_eq
  have l3 := k3.length_eq
  refine Rand.Post.pure ⟨?_, k2, g2, g3, show st.evals + st.pop.length ≤ st2.evals + p3.length by omega⟩
  show List.Forall₂ _ st.pop p3
  rw [List.forall₂_iff_get]
  refine ⟨by omega, fun i hi hi3 => ?_⟩
  have a := (List.forall₂_iff_get.mp h2).2 i hi (by omega)
  have b := (List.forall₂_iff_get.mp g5).2 i (by omega) (by omega)
  have c := (List.forall₂_iff_get.mp k3).2 i (by omega) hi3
  obtain ⟨c1, c2, c3, c4, -, c5⟩ := c
  obtain ⟨b1, b2, b3, b4, b5⟩ := b
  obtain ⟨a1, a2, a3, a4⟩ := a
  refine ⟨⟨_, by rw [c1, b1], by rw [c1, b2], a4, fun h => ?_⟩, ⟨by rw [c3, b4, a2], by rw [c4, b5, a3]⟩, ?_, c5⟩
  · rw [c1]
    have := g6 h
    subst this; rfl
  exact a1.of_shape (by rw [c1, b1]) (by rw [c1, b2]) (by rw [c2, b3])

/-- C58: without constant optimisation the phase never fails. -/
theorem C58_total (S : EvolSetting o full cur ops N) (dOpt : Dataset K) (ctx : DContext (Fl K)) (st : EvolState K)
    (hpop : ∀ m ∈ st.pop, m.Good full ops N) (hev : st.ev.scratch.WF)
    (hoff : (o.shouldOptimizeConstants && Fl.lt (.fin 0) o.optimizerProbability) = false) :
    Rand.Total (optimizeAndSimplify o full dOpt ctx st) fun _ => True := by
  have hsimp : ∃ p1, (if o.shouldSimplify then st.pop.mapM (simplifyMember full.x.rows) else some st.pop) = some p1 ∧
      ∀ m ∈ p1, m.Good full ops N := by
    split
    · obtain ⟨p', h1, h2⟩ := simplifyAll_spec S st.pop hpop
      refine ⟨p', h1, fun m hm => ?_⟩
      obtain ⟨i, hi, rfl⟩ := List.mem_iff_getElem.mp hm
      have := (List.forall₂_iff_get.mp h2)
      exact (this.2 i (this.1 ▸ hi) hi).1
    · exact ⟨st.pop, rfl, hpop⟩
  obtain ⟨p1, h1, h2⟩ := hsimp
  unfold optimizeAndSimplify
  refine Rand.Total.bind (Rand.Total.lift (P := fun r => r = p1) ⟨_, h1, rfl⟩) ?_
  rintro p1 rfl
  unfold optimizePhase
  rw [hoff]
  refine Rand.Total.bind (P := fun r => r = ({ st with pop := p1 }, ctx)) (Rand.Total.pure rfl) ?_
  rintro _ rfl
  obtain ⟨p3, ev3, k1, -, -⟩ := evaluateAll_spec S p1 (st.ev.ensure full.x.cols) h2 (ensure_ready _ _ hev)
  exact Rand.Total.bind (Rand.Total.lift (P := fun r => r = (p3, ev3)) ⟨_, k1, rfl⟩) fun _ _ => Rand.Total.pure trivial

end
end SR

namespace SR.Demo
open SR

/-- Options whose only constraint is that the left argument of `-` has complexity at most 1, without constant
optimisation. -/
def tightOpts : SOptions ℚ :=
  { opts with cx := { cx with opLimits := [(⟨2, 2⟩, fun j => if j = 0 then some 1 else none)] },
              shouldOptimizeConstants := false }

/-- `c0 - (c1 - x0 * x0)` with constants 1 and 5. -/
def tightTree : Tree := .op 2 [.const 0, .op 2 [.const 1, .op 1 [.var 0, .var 0]]]
def tightExpr : PostfixExpr (Fl ℚ) := ⟨tightTree.toPostfix, [.fin 1, .fin 5]⟩
/-- `x0 * x0 - c0`. -/
def tightResult : Tree := .op 2 [.op 1 [.var 0, .var 0], .const 0]

local instance : Env ℚ := env

theorem tightSetting : ExprSetting data tightExpr tightTree where
  nodes := rfl
  wf := by
    simp only [tightTree, Tree.WF, tightExpr, data, Tree.all_op, List.length_cons, List.length_nil]
    exact ⟨⟨by decide, by decide, rfl⟩, by simp; exact ⟨⟨by decide, rfl⟩, by decide, rfl⟩⟩
  lim := by simp [InLimits, tightTree, tightExpr, data, u16Max, Tree.numOps]
  data := data_wf
  rows := by decide

theorem tightEvolSetting : EvolSetting tightOpts data 7 opIds 7 where
  operators := by decide
  ops_ok := by decide
  cxD := rfl
  cx := by constructor <;> simp [tightOpts, cx]
  data := data_wf
  rows := by decide
  nf_pos := by decide
  nf_le := by decide
  cur_lt := by decide
  maxsize_le := by decide
  size t _ h := by
    have h1 := h.size
    have h2 := weights_default (o := tightOpts.cx) (by decide) t
    exact h2 ▸ h1
  room := by decide
  two := by decide

end SR.Demo

namespace SR
open Demo
local instance : Env ℚ := Demo.env

/-- The end-of-iteration phase does not check the constraints: there are options (only constraint: the left argument
of `-` has complexity at most 1), a data set and a member that satisfies every constraint such that, whatever the
random stream, the phase replaces the member's expression `1 - (5 - x0 * x0)` by `x0 * x0 - 4`, which violates the
constraint. -/
theorem C58_may_break_constraints :
    FeasibleExpr tightOpts.cx 7 tightExpr ∧ ∃ m : Member ℚ, Member.fromExpr 3 none 4 tightExpr 1 = some m ∧
    Rand.Total (optimizeAndSimplify tightOpts data data (DContext.new 2) ⟨[m], Evaluator.new 2, ⟨9, 9⟩, 0⟩)
      fun r => ∃ m', r.1.pop = [m'] ∧ m'.id = 3 ∧ m'.expr = ⟨tightResult.toPostfix, [.fin 4]⟩ ∧
        ¬ FeasibleExpr tightOpts.cx 7 m'.expr := by
  have hwf : tightOpts.cx.WF := by constructor <;> simp [tightOpts, Demo.cx]
  have check : ∀ t : Tree, t.Proper → t.ArityLe 2 → ∀ b, checkConstraints tightOpts.cx 7 t.toPostfix = some b →
      (b = true ↔ (tightOpts.cx.limits 7).Allows t) := by
    intro t h1 h2 b hb
    obtain ⟨b', hb', hiff⟩ := C23_accepts_iff tightOpts.cx hwf 7 (by decide) t h1 h2
    rw [hb] at hb'
    exact (Option.some.inj hb') ▸ hiff
  refine ⟨⟨tightTree, rfl, (check tightTree (by simp [tightTree, Tree.Proper])
    (by simp [tightTree, Tree.ArityLe]) true (by decide)).mp rfl⟩, ?_⟩
  obtain ⟨m, h1, h2, h3, -⟩ := C55_from_expr data tightExpr tightTree tightSetting 3 4 none
  have hid : m.id = 3 := by
    unfold Member.fromExpr at h1
    rw [Option.map_eq_some_iff] at h1
    obtain ⟨_, _, rfl⟩ := h1; rfl
  have hg : ∀ m' ∈ [m], m'.Good data opIds 7 := by
    intro m' hm'
    rw [List.mem_singleton.mp hm']
    refine ⟨⟨tightTree, by rw [h3]; rfl, ?_, by decide, by rw [h3]; decide⟩, h2⟩
    rw [h3]
    simp only [tightTree, Tree.Uses, tightExpr, data, Tree.all_op, List.length_cons, List.length_nil]
    exact ⟨by decide, by simp [opIds]⟩
  have hev : (Evaluator.new 2 : Evaluator ℚ).scratch.WF := by simp [Evaluator.new, Buf.WF, Buf.zeros]
  refine ⟨m, h1, Rand.Total.mono (Rand.Total.and_post
    (C58_total tightEvolSetting data (DContext.new 2) ⟨[m], Evaluator.new 2, ⟨9, 9⟩, 0⟩ hg hev rfl)
    (C58_rescored tightEvolSetting data data_wf rfl (by decide) (DContext.new 2) ⟨[m], Evaluator.new 2, ⟨9, 9⟩, 0⟩
      hg hev)) ?_⟩
  rintro ⟨r, ctx⟩ ⟨-, h, -⟩
  match hr : r.pop, h with
  | [m'], h =>
  obtain ⟨⟨e, -, -, hs, he⟩, hi, -, -⟩ := (List.forall₂_cons.mp h).1
  have hs' : ∃ ch, simplifyInPlace env.ops env.cfg env.D strictOpts m.expr = some (e, ch) := hs
  rw [h3] at hs'
  obtain ⟨ch, hs'⟩ := hs'
  have hc : simplifyInPlace env.ops env.cfg env.D strictOpts tightExpr =
      some (⟨tightResult.toPostfix, [.fin 4]⟩, true) := by decide +kernel
  rw [hc] at hs'
  have hexpr : m'.expr = ⟨tightResult.toPostfix, [.fin 4]⟩ := (he rfl).trans (Prod.mk.inj (Option.some.inj hs')).1.symm
  refine ⟨m', rfl, hi.1.trans hid, hexpr, ?_⟩
  rintro ⟨t, ht, hall⟩
  have : t = tightResult := toPostfix_injective (ht.symm.trans (by rw [hexpr]))
  subst this
  exact Bool.false_ne_true ((check tightResult (by simp [tightResult, Tree.Proper])
      (by simp [tightResult, Tree.ArityLe]) false (by decide)).mpr hall)

end SR
