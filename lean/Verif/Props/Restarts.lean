import Verif.Spec.Restarts
import Verif.Props.Member
import Verif.Props.Stream
/-
C78: constant optimisation is the best of all its runs.
-/
namespace SR
variable {K : Type} [Field K] [LinearOrder K] [E : Env K]

omit E in
theorem satAdd_min (a b : Nat) : satAdd (min a usizeMax) b = min (a + b) usizeMax := by unfold satAdd; omega

theorem perturb_run : ∀ (x : List (Fl K)) (g : Rng (Fl K)), perturb x g = some (x.mapIdx fun i v =>
    E.R.mul v (E.R.add (.fin 1) (E.R.mul (E.R.rnd (1 / 2)) (E.normal (g.floats (2 * i)) (g.floats (2 * i + 1))))), g.drop 0 (2 * x.length))
  | [], g => rfl
  | v :: vs, g => by
    unfold perturb
    rw [Rand.run_bind]
    simp only [Rand.float]
    rw [Rand.run_bind]
    simp only [Rand.float]
    rw [Rand.run_bind, perturb_run vs]
    simp only [Rng.nextFloat, List.mapIdx_cons]
    show some _ = some _
    simp only [Rng.drop, List.length_cons, Nat.mul_add, Nat.mul_one, Nat.mul_zero, Nat.add_assoc, Nat.reduceAdd, Nat.zero_add]

omit [Field K] [LinearOrder K] E in
theorem lift_run {α β : Type} (a : α) (f : α → Rand (Fl K) β) (g : Rng (Fl K)) : (Rand.lift (some a) >>= f) g = f a g := rfl

/-- Taking the results of several runs into account. -/
def takeRuns (b : BestPoint K) (runs : List (Res (OptimResult K))) : BestPoint K :=
  runs.foldl (fun b r => match r with | .ok r => b.take (some r) | _ => b) b

omit E in
theorem takeRuns_spec (baseline : Fl K) (x0 : List (Fl K)) (runs : List (Res (OptimResult K))) :
    let b := takeRuns ⟨baseline, x0, 0⟩ runs
    b.evals = min (runs.map Res.calls).sum usizeMax ∧
    (((∀ r, .ok r ∈ runs → r.minimum.lt baseline = false) ∧ b.f = baseline ∧ b.x = x0) ∨
      ∃ k r, BestRun baseline runs k r ∧ b.f = r.minimum ∧ b.x = r.minimizer) := by
  induction runs using List.reverseRecOn with
  | nil => exact ⟨rfl, .inl ⟨by simp, rfl, rfl⟩⟩
  | append_singleton runs a ih =>
    simp only [takeRuns, List.foldl_append, List.foldl_cons, List.foldl_nil, List.map_append, List.map_cons, List.map_nil, List.sum_append,
      List.sum_cons, List.sum_nil, Nat.add_zero] at ih ⊢
    generalize (runs.foldl (fun b r => match r with | .ok r => b.take (some r) | _ => b) ⟨baseline, x0, 0⟩ : BestPoint K) = b at ih ⊢
    obtain ⟨h1, h2⟩ := ih
    have hlast : (runs ++ [a])[runs.length]? = some a := by simp
    have hold : ∀ (k : Nat) r, runs[k]? = some r → (runs ++ [a])[k]? = some r := by
      intro k r h
      rw [List.getElem?_append_left (List.getElem?_eq_some_iff.mp h).1, h]
    have hcases : ∀ (j : Nat) r, (runs ++ [a])[j]? = some r → runs[j]? = some r ∨ (j = runs.length ∧ a = r) := by
      intro j r h
      rcases Nat.lt_trichotomy j runs.length with hj | hj | hj
      · rw [List.getElem?_append_left hj] at h; exact .inl h
      · subst hj; rw [hlast] at h; exact .inr ⟨rfl, by simpa using h⟩
      · rw [List.getElem?_eq_none (by simp; omega)] at h; cases h
    -- a run that changes nothing
    have keep : (∀ r, a = .ok r → r.minimum.lt b.f = false) → ((∀ r, .ok r ∈ runs ++ [a] → r.minimum.lt baseline = false) ∧ b.f = baseline ∧ b.x = x0) ∨
        ∃ k r, BestRun baseline (runs ++ [a]) k r ∧ b.f = r.minimum ∧ b.x = r.minimizer := by
      intro hno
      rcases h2 with ⟨k1, k2, k3⟩ | ⟨k, r, kb, k2, k3⟩
      · refine .inl ⟨fun r hr => ?_, k2, k3⟩
        rcases List.mem_append.mp hr with hr | hr
        · exact k1 r hr
        · rw [← k2]; exact hno r (by simpa using (List.mem_singleton.mp hr).symm)
      · refine .inr ⟨k, r, ⟨hold _ _ kb.run, kb.below, ?_, ?_⟩, k2, k3⟩
        · intro j r' hj hr'
          rcases hcases j _ hr' with h | ⟨h, -⟩
          · exact kb.earlier j r' hj h
          · have := (List.getElem?_eq_some_iff.mp kb.run).1; omega
        · intro j r' hj hr'
          rcases hcases j _ hr' with h | ⟨-, h⟩
          · exact kb.later j r' hj h
          · rw [← k2]; exact hno r' h
    cases a with
    | fail => exact ⟨by simpa [Res.calls] using h1, by simpa using keep (by simp)⟩
    | panic => exact ⟨by simpa [Res.calls] using h1, by simpa using keep (by simp)⟩
    | ok r =>
      simp only [BestPoint.take]
      by_cases hlt : r.minimum.lt b.f = true
      · rw [if_pos hlt]
        refine ⟨by simp only [Res.calls]; rw [h1, satAdd_min], .inr ⟨runs.length, r, ⟨hlast, ?_, ?_, ?_⟩, rfl, rfl⟩⟩
        · rcases h2 with ⟨-, k2, -⟩ | ⟨k, r0, kb, k2, -⟩
          · rw [← k2]; exact hlt
          · rw [k2] at hlt; exact Fl.lt_trans hlt kb.below
        · intro j r' hj hr'
          rw [List.getElem?_append_left hj] at hr'
          cases hle : r'.minimum.le r.minimum with
          | false => rfl
          | true =>
            have h3 := Fl.lt_of_le_of_lt hle hlt
            rcases h2 with ⟨k1, k2, -⟩ | ⟨k, r0, kb, k2, -⟩
            · rw [k2, k1 r' (List.mem_of_getElem? hr')] at h3; cases h3
            · rw [k2] at h3
              rcases Nat.lt_trichotomy j k with hjk | hjk | hjk
              · rw [Fl.le_of_lt h3 |>.symm.trans (kb.earlier j r' hjk hr')] at *
              · subst hjk
                rw [kb.run] at hr'; cases hr'
                rw [Fl.lt_irrefl] at h3; cases h3
              · rw [kb.later j r' hjk hr'] at h3; cases h3
        · intro j r' hj hr'
          rw [List.getElem?_eq_none (by simp; omega)] at hr'; cases hr'
      · rw [if_neg hlt]
        refine ⟨by simp only [Res.calls]; rw [h1, satAdd_min], ?_⟩
        have := keep (by intro r' e; cases e; simpa using hlt)
        simpa using this

theorem freshCtx (d : Dataset K) (e : PostfixExpr (Fl K)) : CtxReady d e (DContext.new d.x.cols) :=
  ⟨rfl, by simp [DContext.ScratchWF, DContext.new, Buf.zeros, Buf.WF], .inl (by unfold DContext.needsRecompile; split <;> rfl)⟩

theorem freshEv (d : Dataset K) : (Evaluator.new d.x.cols : Evaluator K).Ready d := by
  simp [Evaluator.Ready, Evaluator.new, Buf.WF, Buf.zeros]

/-- The objective does not depend on the buffers. -/
theorem objective_fresh (o : SOptions K) {d : Dataset K} {m : Member K} {t : Tree} {ev : Evaluator K} {ctx : DContext (Fl K)}
    (hs : OptSetting d m.expr t m.plan ev) (hctx : CtxReady d m.expr ctx) :
    constObjective o d m.plan m.expr ev ctx = fitObjective o d m := by
  have hs' : OptSetting d m.expr t m.plan (Evaluator.new d.x.cols) := ⟨hs.expr, hs.plan, freshEv d⟩
  have h1 : (constObjective o d m.plan m.expr ev ctx).fOnly = (fitObjective o d m).fOnly := by
    funext x
    unfold fitObjective
    rw [constObjective_fOnly hs, constObjective_fOnly hs']
  have h2 : (constObjective o d m.plan m.expr ev ctx).fg = (fitObjective o d m).fg := by
    funext x
    unfold fitObjective constObjective
    simp only
    split
    · next hx =>
      obtain ⟨out, -, h2⟩ := lossAndGrad_spec o (hs.expr.withConsts hx)
      obtain ⟨c1, h3, -⟩ := h2 ctx (hctx.withConsts hx)
      obtain ⟨c2, h4, -⟩ := h2 _ ((freshCtx d m.expr).withConsts hx)
      rw [h3, h4]; rfl
    · rfl
  generalize constObjective o d m.plan m.expr ev ctx = a at h1 h2 ⊢
  generalize fitObjective o d m = b at h1 h2 ⊢
  cases a; cases b; simp at h1 h2; simp [h1, h2]

variable [IsStrictOrderedRing K]

theorem fromStart_run (hF : Env.Formats K) {o : SOptions K} (hls : LsOk o) {d : Dataset K} {m : Member K} {t : Tree} {ev : Evaluator K}
    {ctx : DContext (Fl K)} (hs : OptSetting d m.expr t m.plan ev) (hctx : CtxReady d m.expr ctx) {start : List (Fl K)}
    (hst : start.length = m.expr.consts.length) (b : BestPoint K) :
    ∃ ctx', CtxReady d m.expr ctx' ∧ runMinimiser o (fitObjective o d m) start ≠ .panic ∧
      optimizeFromStart o d m.plan m.expr ev start b ctx = some (takeRuns b [runMinimiser o (fitObjective o d m) start], ctx') := by
  obtain ⟨h1, -⟩ := runMinimiser_spec (o := o) hF hls hs hctx hst
  have hc := ctxAfter_ready (o := o) hs hctx hst
  unfold optimizeFromStart
  rw [objective_fresh o hs hctx] at h1 ⊢
  refine ⟨_, hc, h1, ?_⟩
  cases hr : runMinimiser o (fitObjective o d m) start with
  | panic => exact (h1 hr).elim
  | fail => rfl
  | ok r => rfl

/-- The starting point of restart `k`. -/
def noisyStart (g : Rng (Fl K)) (x0 : List (Fl K)) (k : Nat) : List (Fl K) :=
  x0.mapIdx fun i v => E.R.mul v (E.R.add (.fin 1) (E.R.mul (E.R.rnd (1 / 2)) (restartNoise g x0.length k i)))

omit [IsStrictOrderedRing K] in
theorem noisyStart_zero (g : Rng (Fl K)) (x0 : List (Fl K)) : perturb x0 g = some (noisyStart g x0 0, g.drop 0 (2 * x0.length)) := by
  rw [perturb_run]
  simp [noisyStart, restartNoise]

omit [IsStrictOrderedRing K] in
theorem noisyStart_succ (g : Rng (Fl K)) (x0 : List (Fl K)) (k : Nat) :
    noisyStart (g.drop 0 (2 * x0.length)) x0 k = noisyStart g x0 (k + 1) := by
  unfold noisyStart restartNoise Rng.drop
  simp only
  congr 1
  funext i v
  rw [show 2 * (k * x0.length + i) + 2 * x0.length = 2 * ((k + 1) * x0.length + i) by ring,
    show 2 * (k * x0.length + i) + 1 + 2 * x0.length = 2 * ((k + 1) * x0.length + i) + 1 by ring]

theorem restarts_run (hF : Env.Formats K) {o : SOptions K} (hls : LsOk o) {d : Dataset K} {m : Member K} {t : Tree} {ev : Evaluator K}
    (hs : OptSetting d m.expr t m.plan ev) : ∀ (k : Nat) (ctx : DContext (Fl K)) (b : BestPoint K) (g : Rng (Fl K)),
    CtxReady d m.expr ctx →
    ∃ ctx', restarts o d m.plan m.expr ev m.expr.consts k b ctx g = some ((takeRuns b ((List.range k).map fun j =>
      runMinimiser o (fitObjective o d m) (noisyStart g m.expr.consts j)), ctx'), g.drop 0 (2 * m.expr.consts.length * k)) ∧
      (∀ j < k, runMinimiser o (fitObjective o d m) (noisyStart g m.expr.consts j) ≠ .panic)
  | 0, ctx, b, g, _ => ⟨ctx, rfl, by simp⟩
  | k + 1, ctx, b, g, hctx => by
    obtain ⟨c1, h1, hp, h2⟩ := fromStart_run hF hls hs hctx (start := noisyStart g m.expr.consts 0) (by simp [noisyStart]) b
    obtain ⟨c2, h3, h4⟩ := restarts_run hF hls hs k c1 (takeRuns b [runMinimiser o (fitObjective o d m) (noisyStart g m.expr.consts 0)])
      (g.drop 0 (2 * m.expr.consts.length)) h1
    refine ⟨c2, ?_, ?_⟩
    · unfold restarts
      rw [Rand.run_bind, noisyStart_zero]
      simp only
      rw [Rand.run_bind, h2]
      simp only [Rand.lift, Option.map_some]
      rw [h3]
      simp only [noisyStart_succ]
      rw [List.range_succ_eq_map, List.map_cons, List.map_map]
      congr 2
      simp only [Rng.drop]
      congr 1
      funext i
      congr 1
      ring
    · intro j hj
      cases j with
      | zero => exact hp
      | succ j => rw [← noisyStart_succ]; exact h4 j (by omega)

/-- C78: optimising the constants of a member runs the minimiser from the present constants and then, as often as
configured, from constants multiplied by `1 + noise / 2`, the noise made from the next draws (two per constant, and no
other draws).  None of the runs panics.  If no run gets below the present loss the member is unchanged; otherwise its
constants are the minimiser of the best run, the first among equals.  The evaluations reported are the objective calls
of all the runs that return a point, and one more if there was an improvement. -/
theorem C78_best_run (hF : Env.Formats K) (o : SOptions K) (hls : LsOk o) (d : Dataset K) (m : Member K) (t : Tree)
    (hs : ExprSetting d m.expr t) (hp : PlanOf d m.expr m.plan) (ev : Evaluator K) (hev : ev.Ready d)
    (ctx : DContext (Fl K)) (hctx : CtxReady d m.expr ctx) (hw : o.cx.WF) (hD : t.ArityLe o.cx.D) (nb : Nat)
    (hopt : o.shouldOptimizeConstants = true) (hne : m.expr.consts ≠ []) (baseline : Fl K)
    (hb : exprLoss o d t m.expr.consts = some baseline) (g : Rng (Fl K)) :
    let runs := (startPoints g m.expr.consts o.optimizerNRestarts).map (runMinimiser o (fitObjective o d m))
    .panic ∉ runs ∧ ∃ r, optimizeConstants o d ev ctx nb m g
      = some (r, g.drop 0 (2 * m.expr.consts.length * o.optimizerNRestarts)) ∧
    (((∀ x, .ok x ∈ runs → x.minimum.lt baseline = false) ∧ r.improved = false ∧ r.member = m ∧
        r.evals = min (runs.map Res.calls).sum usizeMax) ∨
      ∃ k x, BestRun baseline runs k x ∧ r.improved = true ∧ r.member.expr.consts = x.minimizer.map toT ∧
        r.evals = min ((runs.map Res.calls).sum + 1) usizeMax) := by
  intro runs
  obtain ⟨r, g', hr, -, -, -, -, -, -, -, him, hno, -⟩ := C37_optimize hF o hls d m t hs hp ev hev ctx hctx hw hD nb g
  have hr0 := hr
  have hfun : ∀ f, optimizeConstants o d ev ctx nb m = f → f g = some (r, g') := fun f h => h ▸ hr0
  replace hr := hfun _ (by
    unfold optimizeConstants
    rw [if_neg (show ¬ (!o.shouldOptimizeConstants) = true by simp [hopt]), if_neg (show ¬ m.expr.consts.isEmpty = true by simpa using hne)])
  obtain ⟨ev1, h1, hev1⟩ := lossOnly_spec o hs hp hev
  rw [h1, hb, lift_run] at hr
  simp only at hr
  have hset : OptSetting d m.expr t m.plan ev1 := ⟨hs, hp, hev1⟩
  obtain ⟨c1, hc1, hp1, e1⟩ := fromStart_run hF hls hset hctx (start := m.expr.consts) rfl ⟨baseline, m.expr.consts, 0⟩
  rw [e1, lift_run] at hr
  simp only at hr
  obtain ⟨c2, e2, hp2⟩ := restarts_run hF hls hset o.optimizerNRestarts c1
    (takeRuns ⟨baseline, m.expr.consts, 0⟩ [runMinimiser o (fitObjective o d m) m.expr.consts]) g hc1
  rw [Rand.run_bind, e2] at hr
  have hruns : takeRuns (takeRuns ⟨baseline, m.expr.consts, 0⟩ [runMinimiser o (fitObjective o d m) m.expr.consts])
      ((List.range o.optimizerNRestarts).map fun j => runMinimiser o (fitObjective o d m) (noisyStart g m.expr.consts j))
      = takeRuns ⟨baseline, m.expr.consts, 0⟩ runs := by
    simp only [takeRuns, ← List.foldl_append, runs, startPoints, List.map_cons, List.map_map, List.singleton_append]
    rfl
  rw [hruns] at hr
  obtain ⟨s1, s2⟩ := takeRuns_spec baseline m.expr.consts runs
  generalize takeRuns ⟨baseline, m.expr.consts, 0⟩ runs = b at hr s1 s2
  replace hr : (finishOptimize o d m baseline ev1 c2 nb b).map (fun a => (a, g.drop 0 (2 * m.expr.consts.length * o.optimizerNRestarts)))
      = some (r, g') := hr
  have hg : g' = g.drop 0 (2 * m.expr.consts.length * o.optimizerNRestarts) := by
    rw [Option.map_eq_some_iff] at hr
    obtain ⟨a, -, ha⟩ := hr
    cases ha; rfl
  refine ⟨?_, r, by rw [hr0, hg], ?_⟩
  · intro hmem
    simp only [runs, startPoints, List.map_cons, List.map_map, List.mem_cons, List.mem_map, List.mem_range] at hmem
    rcases hmem with h | ⟨j, hj, h⟩
    · exact hp1 h.symm
    · exact hp2 j hj h
  · rw [Option.map_eq_some_iff] at hr
    obtain ⟨r', hr', e⟩ := hr
    obtain rfl : r' = r := by cases e; rfl
    unfold finishOptimize at hr'
    rcases s2 with ⟨k1, k2, k3⟩ | ⟨k, x, kb, k2, k3⟩
    · rw [if_neg (by rw [k2, Fl.lt_irrefl]; simp)] at hr'
      cases hr'
      exact .inl ⟨k1, rfl, rfl, s1⟩
    · have hlt : b.f.lt baseline = true := by rw [k2]; exact kb.below
      rw [if_pos hlt] at hr'
      refine .inr ⟨k, x, kb, ?_⟩
      rw [Option.bind_eq_bind, Option.bind_eq_some_iff] at hr'
      obtain ⟨⟨m', ok, ev'⟩, he, hr'⟩ := hr'
      obtain ⟨st, hst, hrun⟩ : ∃ st ∈ startPoints g m.expr.consts o.optimizerNRestarts, runMinimiser o (fitObjective o d m) st = .ok x :=
        List.mem_map.mp (List.mem_of_getElem? kb.run)
      have hlen : st.length = m.expr.consts.length := by
        rcases List.mem_cons.mp hst with rfl | h
        · rfl
        · obtain ⟨j, -, rfl⟩ := List.mem_map.mp h
          simp
      rw [← objective_fresh o hset hctx] at hrun
      have hx := ((runMinimiser_spec (o := o) hF hls hset hctx hlen).2 x hrun).2
      obtain ⟨l1, l2⟩ : x.minimizer.length = m.expr.consts.length ∧ exprLoss o d t (x.minimizer.map toT) = some x.minimum := by
        rcases hx with h | h
        · have := kb.below
          rw [h] at this
          cases baseline <;> simp [Fl.lt] at this
        · exact h
      have hc := C24_complexity o.cx hw t hD
      rw [← hs.nodes] at hc
      obtain ⟨ev3, f1, -⟩ := evaluate_spec o (m := { m with expr := m.expr.withConsts b.x }) (hs.withConsts (by rw [k3]; exact l1))
        (hp.withConsts (by rw [k3]; exact l1)) hev1 (show computeComplexity o.cx (m.expr.withConsts b.x).nodes = _ from hc)
      rw [f1] at he
      simp only [PostfixExpr.withConsts, k3, l2, Option.isSome_some, Option.some.injEq, Prod.mk.injEq] at he
      obtain ⟨rfl, rfl, -⟩ := he
      simp only [Bool.not_true, Bool.false_eq_true, if_false, Option.some.injEq] at hr'
      subst hr'
      exact ⟨rfl, rfl, by simp only; rw [s1, satAdd_min]⟩

end SR

namespace SR.Demo
local instance restartEnv : Env ℚ := env

/-- For the member `c0 * x0`, `c0 = 1`, of the demonstration the hypotheses hold; it has one restart, here from `5/4`; both
runs find the constant 2 and the first one is the best. -/
example : opts.shouldOptimizeConstants = true ∧ expr.consts ≠ [] ∧ exprLoss opts data tree expr.consts = some (.fin (5 / 2)) ∧
    startPoints ⟨fun _ => 0, fun _ => .fin (1 / 2)⟩ expr.consts opts.optimizerNRestarts = [[.fin 1], [.fin (5 / 4)]] ∧
    ∀ m : Member ℚ, Member.fromExpr 5 none 7 expr 1 = some m →
      ([[.fin 1], [.fin (5 / 4)]].map fun s => match runMinimiser opts (fitObjective opts data m) s with
        | .ok r => some (r.minimum, r.minimizer)
        | _ => none) = [some (.fin 0, [.fin 2]), some (.fin 0, [.fin 2])] := by
  refine ⟨rfl, by decide, ?_, by decide +kernel, ?_⟩
  · obtain ⟨m, h1, h2, h3, -⟩ := C55_from_expr data expr tree setting 5 7 none
    obtain ⟨ev1, k1, -⟩ := lossOnly_spec opts setting (h3 ▸ h2) (freshEv data)
    have h : (Member.fromExpr 5 none 7 expr 1).all (fun m =>
        decide ((lossOnly opts data m.plan expr (Evaluator.new 2)).map Prod.fst = some (some (.fin (5 / 2 : ℚ))))) = true := by decide +kernel
    rw [show Member.fromExpr 5 none 7 expr 1 = some m from h1] at h
    have h' := of_decide_eq_true h
    rw [show lossOnly opts data m.plan expr (Evaluator.new 2) = _ from k1] at h'
    simpa using h'
  intro m hm
  have h : (Member.fromExpr 5 none 7 expr 1).all (fun m => decide (([[.fin 1], [.fin (5 / 4)]].map fun s =>
      match runMinimiser opts (fitObjective opts data m) s with
        | .ok r => some (r.minimum, r.minimizer)
        | _ => none) = [some (.fin (0 : ℚ), [.fin 2]), some (.fin 0, [.fin 2])])) = true := by decide +kernel
  rw [hm] at h
  exact of_decide_eq_true h

end SR.Demo
