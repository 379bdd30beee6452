import Verif.Spec.Budget
import Verif.Proofs.Optim
import Verif.Props.Engine
/-
Counting evaluations, without any hypothesis on the data, the options or the arithmetic.
-/
namespace SR
variable {K : Type} [Field K] [LinearOrder K]

/-- The number of calls after the computation satisfies `Q`, whatever its outcome. -/
def OptM.Cost {α : Type} (m : OptM α) (c : Nat) (Q : Nat → Prop) : Prop := Q (m c).2

namespace OptM
variable {α β : Type}

theorem Cost.bind {m : OptM α} {f : α → OptM β} {c : Nat} {Q Q' : Nat → Prop}
    (hm : m.Cost c Q) (hq : ∀ c', Q c' → Q' c') (hf : ∀ a c', Q c' → (f a).Cost c' Q') :
    (m >>= f).Cost c Q' := by
  have e : (m >>= f) c = OptM.bind m f c := rfl
  unfold Cost at hm ⊢
  rw [e, OptM.bind]
  rcases hmc : m c with ⟨r, c'⟩
  rw [hmc] at hm
  cases r with
  | ok a => exact hf a c' hm
  | fail => exact hq _ hm
  | panic => exact hq _ hm

theorem Cost.pure {c : Nat} {Q : Nat → Prop} {a : α} (h : Q c) : (Pure.pure a : OptM α).Cost c Q := h
theorem Cost.fail {c : Nat} {Q : Nat → Prop} (h : Q c) : (OptM.fail : OptM α).Cost c Q := h
theorem Cost.mono {m : OptM α} {c : Nat} {Q Q' : Nat → Prop} (h : m.Cost c Q) (hq : ∀ c', Q c' → Q' c') :
    m.Cost c Q' := hq _ h

theorem Cost.ofOption {c : Nat} {Q : Nat → Prop} {x : Option α} (h : Q c) : (OptM.ofOption x).Cost c Q := by
  cases x <;> exact h

end OptM
open OptM

variable {R : Rounding K}

theorem zipEqM_cost {α β γ : Type} (f : α → β → γ) (a : List α) (b : List β) (c : Nat) :
    (zipEqM f a b).Cost c (fun c' => c' = c) := by
  unfold zipEqM; split <;> exact rfl

theorem axpy_cost (x : List (Fl K)) (a : Fl K) (s : List (Fl K)) (c : Nat) :
    (axpy R x a s).Cost c (fun c' => c' = c) := zipEqM_cost _ _ _ c

theorem dot_cost (a b : List (Fl K)) (c : Nat) : (dot R a b).Cost c (fun c' => c' = c) := by
  unfold dot
  exact Cost.bind (zipEqM_cost _ _ _ c) (fun _ h => h) (by rintro l _ rfl; exact Cost.pure rfl)

theorem phiAt_cost (obj : Objective K) (opts : OptimOptions K) (x : List (Fl K)) (c : Nat) :
    (phiAt obj opts x).Cost c (Within opts.fCallsLimit c 1) := (phiAt_sat obj opts x c).2.1

theorem callFg_cost (obj : Objective K) (x : List (Fl K)) (c : Nat) :
    (callFg obj x).Cost c (fun c' => c' = c + 1) := (callFg_sat obj x c).2.1

theorem lsHalve_cost (obj : Objective K) (opts : OptimOptions K) (x s : List (Fl K)) : ∀ (n : Nat) (a : Fl K) (c : Nat),
    (lsHalve R (phiAt obj opts) x s n a).Cost c (Within opts.fCallsLimit c n) := by
  intro n
  induction n with
  | zero => intro a c; exact Cost.fail (Within.refl _ _)
  | succ n ih =>
    intro a c
    unfold lsHalve
    refine Cost.bind (axpy_cost x a s c) (by rintro _ rfl; exact (Within.refl _ _).weaken (by omega)) ?_
    rintro xn _ rfl
    refine Cost.bind (phiAt_cost obj opts _ _) (fun c' h => h.weaken (by omega)) ?_
    intro ok c' hc'
    split
    · refine Cost.bind (Q := fun c'' => c'' = c') (Cost.ofOption rfl) ?_ ?_
      · rintro _ rfl; exact hc'.weaken (by omega)
      · rintro v _ rfl; exact Cost.pure (hc'.weaken (by omega))
    · simp only
      split
      · exact Cost.fail (hc'.weaken (by omega))
      · exact (ih _ c').mono fun c'' h => (hc'.trans h).weaken (by omega)

theorem lsLoop_cost (obj : Objective K) (opts : OptimOptions K) (ls : BackTracking K) (x s : List (Fl K))
    (phi0 dphi0 : Fl K) : ∀ (n : Nat) (a phi : Fl K) (xn : List (Fl K)) (prev : Option (Fl K × Fl K)) (c : Nat),
    (lsLoop R ls (phiAt obj opts) x s phi0 dphi0 n a phi xn prev).Cost c (Within opts.fCallsLimit c n) := by
  intro n
  induction n with
  | zero => intros; exact Cost.fail (Within.refl _ _)
  | succ n ih =>
    intro a phi xn prev c
    unfold lsLoop
    split
    · exact Cost.pure ((Within.refl _ _).weaken (by omega))
    · simp only
      split
      · exact Cost.fail ((Within.refl _ _).weaken (by omega))
      · refine Cost.bind (axpy_cost x _ s c) (by rintro _ rfl; exact (Within.refl _ _).weaken (by omega)) ?_
        rintro xn' _ rfl
        refine Cost.bind (phiAt_cost obj opts _ _) (fun c' h => h.weaken (by omega)) ?_
        intro ok c' hc'
        refine Cost.bind (Q := fun c'' => c'' = c') (Cost.ofOption rfl)
          (by rintro _ rfl; exact hc'.weaken (by omega)) ?_
        rintro w _ rfl
        split
        · exact Cost.fail (hc'.weaken (by omega))
        · exact (ih _ _ _ _ _).mono fun c'' h => (hc'.trans h).weaken (by omega)

theorem linesearch_cost (obj : Objective K) (opts : OptimOptions K) (ls : BackTracking K) (x s : List (Fl K))
    (a0 phi0 dphi0 : Fl K) (c : Nat) :
    (backtrackingLinesearch R ls x s a0 phi0 dphi0 (phiAt obj opts)).Cost c
      (Within opts.fCallsLimit c (ls.finiteMax + ls.iterations)) := by
  unfold backtrackingLinesearch
  split
  · exact Cost.fail ((Within.refl _ _).weaken (by omega))
  · refine Cost.bind (lsHalve_cost obj opts x s ls.finiteMax _ c) (fun c' h => h.weaken (by omega)) ?_
    rintro ⟨a, phi, xn⟩ c' hc'
    simp only
    split
    · exact Cost.fail (hc'.weaken (by omega))
    · exact (lsLoop_cost obj opts ls x s phi0 dphi0 ls.iterations a phi xn none c').mono fun c'' h => hc'.trans h

theorem bfgsDirection_cost (n : Nat) (h g : List (Fl K)) (c : Nat) :
    (bfgsDirection R n h g).Cost c (fun c' => c' = c) := by
  unfold bfgsDirection
  refine Cost.bind (dot_cost _ _ c) (fun _ h => h) ?_
  rintro d _ rfl
  split
  · exact Cost.bind (dot_cost _ _ _) (fun _ h => h) (by rintro _ _ rfl; exact Cost.pure rfl)
  · exact Cost.pure rfl

theorem bfgsUpdate_cost (n : Nat) (h dx dg : List (Fl K)) (c : Nat) :
    (bfgsUpdate R n h dx dg).Cost c (fun c' => c' = c) := by
  unfold bfgsUpdate
  refine Cost.bind (dot_cost _ _ c) (fun _ h => h) ?_
  rintro d _ rfl
  split
  · exact Cost.pure rfl
  · split
    · refine Cost.bind (dot_cost _ _ _) (fun _ h => h) ?_
      rintro d' _ rfl
      split <;> exact Cost.pure rfl
    · exact Cost.pure rfl

theorem LoopCalls.refl {limit c n k e : Nat} : LoopCalls limit c n k e c := ⟨le_rfl, by omega, fun _ => by omega⟩

theorem bfgsLoop_cost (obj : Objective K) (opts : OptimOptions K) (ls : BackTracking K) :
    ∀ (n : Nat) (x : List (Fl K)) (fx : Fl K) (g h : List (Fl K)) (c : Nat),
      (bfgsLoop R obj opts ls n x fx g h).Cost c
        (LoopCalls opts.fCallsLimit c n (ls.finiteMax + ls.iterations + 1) 1) := by
  intro n
  induction n with
  | zero => intro x fx g h c; exact Cost.pure LoopCalls.refl
  | succ n ih =>
    intro x fx g h c
    unfold bfgsLoop
    have hk : ∀ (m : OptM (List (Fl K) × Fl K)),
        (¬ exhausted opts c = true → m.Cost c (LoopCalls opts.fCallsLimit c (n + 1) (ls.finiteMax + ls.iterations + 1) 1)) →
        (OptM.Cost (fun c => if exhausted opts c = true then (Res.ok (x, fx), c)
          else if (!(infNorm g).isFinite || (infNorm g).le opts.gAbstol) = true then (Res.ok (x, fx), c)
          else m c) c (LoopCalls opts.fCallsLimit c (n + 1) (ls.finiteMax + ls.iterations + 1) 1)) := by
      intro m hm
      unfold Cost at hm ⊢
      simp only
      split
      · exact LoopCalls.refl
      · next he =>
        split
        · exact LoopCalls.refl
        · exact hm he
    apply hk
    intro he
    have hlim := not_exhausted he
    refine Cost.bind (bfgsDirection_cost _ _ _ c) (by rintro _ rfl; exact LoopCalls.refl) ?_
    rintro ⟨s, d, h1⟩ c0 hc0
    obtain rfl : c = c0 := hc0.symm
    simp only
    split
    · exact Cost.pure LoopCalls.refl
    have hmul : (n + 1) * (ls.finiteMax + ls.iterations + 1) =
        n * (ls.finiteMax + ls.iterations + 1) + (ls.finiteMax + ls.iterations + 1) := Nat.succ_mul _ _
    refine Cost.bind (linesearch_cost obj opts ls x s _ _ _ _) ?_ ?_
    · rintro c' ⟨a1, a2, a3⟩
      refine ⟨a1, by omega, fun hl => ?_⟩
      have := a3 hl; omega
    rintro ⟨a, phi, x'⟩ c1 ⟨a1, a2, a3⟩
    simp only
    have hone : LoopCalls opts.fCallsLimit c (n + 1) (ls.finiteMax + ls.iterations + 1) 1 (c1 + 1) := by
      refine ⟨by omega, by omega, fun hl => ?_⟩
      have := a3 hl; have := hlim hl; omega
    refine Cost.bind (callFg_cost obj x' c1) (by rintro _ rfl; exact hone) ?_
    rintro ⟨fx', g'⟩ _ rfl
    simp only
    split
    · exact Cost.pure hone
    · refine Cost.bind (zipEqM_cost R.sub x' x _) (by rintro _ rfl; exact hone) ?_
      rintro dx _ rfl
      refine Cost.bind (zipEqM_cost R.sub g' g _) (by rintro _ rfl; exact hone) ?_
      rintro dg _ rfl
      refine Cost.bind (bfgsUpdate_cost _ _ _ _ _) (by rintro _ rfl; exact hone) ?_
      rintro h2 _ rfl
      refine (ih _ _ _ _ _).mono ?_
      rintro c'' ⟨b1, b2, b3⟩
      refine ⟨by omega, by omega, fun hl => ?_⟩
      have := a3 hl; have := b3 hl; have := hlim hl; omega

theorem newtonLoop_cost (obj : Objective K) (opts : OptimOptions K) (ls : BackTracking K) :
    ∀ (n : Nat) (x bf bx : Fl K) (c : Nat),
      (newtonLoop R obj opts ls n x bf bx).Cost c
        (LoopCalls opts.fCallsLimit c n (ls.finiteMax + ls.iterations + 3) 2) := by
  intro n
  induction n with
  | zero => intro x bf bx c; exact Cost.pure LoopCalls.refl
  | succ n ih =>
    intro x bf bx c
    unfold newtonLoop
    have hk : ∀ (m : OptM (Fl K × Fl K)),
        (¬ exhausted opts c = true → m.Cost c (LoopCalls opts.fCallsLimit c (n + 1) (ls.finiteMax + ls.iterations + 3) 2)) →
        (OptM.Cost (fun c => if exhausted opts c = true then (Res.ok (bf, bx), c)
          else m c) c (LoopCalls opts.fCallsLimit c (n + 1) (ls.finiteMax + ls.iterations + 3) 2)) := by
      intro m hm
      unfold Cost at hm ⊢
      simp only
      split
      · exact LoopCalls.refl
      · next he => exact hm he
    apply hk
    intro he
    have hlim := not_exhausted he
    have hmul : (n + 1) * (ls.finiteMax + ls.iterations + 3) =
        n * (ls.finiteMax + ls.iterations + 3) + (ls.finiteMax + ls.iterations + 3) := Nat.succ_mul _ _
    have hj : ∀ j ≤ 3, LoopCalls opts.fCallsLimit c (n + 1) (ls.finiteMax + ls.iterations + 3) 2 (c + j) := by
      intro j hj
      refine ⟨by omega, by omega, fun hl => ?_⟩
      have := hlim hl; omega
    refine Cost.bind (callFg_cost obj _ c) (by rintro _ rfl; exact hj 1 (by omega)) ?_
    rintro ⟨f, gv⟩ _ rfl
    simp only
    split
    · exact Cost.fail (hj 1 (by omega))
    split
    · exact Cost.pure (hj 1 (by omega))
    refine Cost.bind (callFg_cost obj _ _) (by rintro _ rfl; exact hj 2 (by omega)) ?_
    rintro ⟨_, gp⟩ _ rfl
    refine Cost.bind (callFg_cost obj _ _) (by rintro _ rfl; exact hj 3 (by omega)) ?_
    rintro ⟨_, gm⟩ _ rfl
    simp only
    split
    · exact Cost.pure (hj 3 (by omega))
    refine Cost.bind (linesearch_cost obj opts ls _ _ _ _ _ _) ?_ ?_
    · rintro c' ⟨a1, a2, a3⟩
      refine ⟨by omega, by omega, fun hl => ?_⟩
      have := a3 hl; have := hlim hl; omega
    rintro ⟨a, phi, x'⟩ c1 ⟨a1, a2, a3⟩
    simp only
    refine (ih _ _ _ _).mono ?_
    rintro c'' ⟨b1, b2, b3⟩
    refine ⟨by omega, by omega, fun hl => ?_⟩
    have := a3 hl; have := b3 hl; have := hlim hl; omega

variable [E : Env K]

theorem runMinimiser_calls (o : SOptions K) (obj : Objective K) (start : List (Fl K)) (r : OptimResult K)
    (h : runMinimiser o obj start = .ok r) : r.fCalls ≤ o.runCalls := by
  have key : ∀ (k c c' n : Nat), c ≤ 1 → LoopCalls o.optimizerFCallsLimit c o.optimizerIterations k n c' → n ≤ 2 →
      k ≤ o.lineSearch.finiteMax + o.lineSearch.iterations + 3 → (n = 2 → c = 0) → c' ≤ o.runCalls := by
    intro k c c' n hc h hn hk hcn
    obtain ⟨h1, h2, h3⟩ := h
    have hm : o.optimizerIterations * k ≤ o.optimizerIterations * (o.lineSearch.finiteMax + o.lineSearch.iterations + 3) :=
      Nat.mul_le_mul_left _ hk
    unfold SOptions.runCalls
    simp only
    split
    · omega
    · next hl => have := h3 hl; omega
  unfold runMinimiser at h
  split at h
  · unfold newtonMinimize at h
    have hc := newtonLoop_cost (R := E.R) obj (optimOptions o) o.lineSearch (optimOptions o).iterations
      (start.headD (.fin 0)) .pinf (start.headD (.fin 0)) 0
    unfold Cost at hc
    change (OptM.bind (newtonLoop E.R obj (optimOptions o) o.lineSearch (optimOptions o).iterations
      (start.headD (.fin 0)) .pinf (start.headD (.fin 0))) _ 0).1 = _ at h
    unfold OptM.bind at h
    generalize newtonLoop E.R obj (optimOptions o) o.lineSearch (optimOptions o).iterations
      (start.headD (.fin 0)) .pinf (start.headD (.fin 0)) 0 = mc at h hc
    obtain ⟨res, c'⟩ := mc
    cases res with
    | ok a =>
      obtain ⟨f, x⟩ := a
      simp only [Res.ok.injEq] at h
      subst h
      exact key _ 0 _ 2 (by omega) hc le_rfl le_rfl (fun _ => rfl)
    | fail => simp at h
    | panic => simp at h
  · unfold bfgsMinimize at h
    change (OptM.bind (callFg obj start) _ 0).1 = _ at h
    unfold OptM.bind at h
    have hf := callFg_cost obj start 0
    unfold Cost at hf
    generalize callFg obj start 0 = mc at h hf
    obtain ⟨res, c1⟩ := mc
    simp only at hf
    subst hf
    cases res with
    | fail => simp at h
    | panic => simp at h
    | ok a =>
      obtain ⟨fx, g⟩ := a
      simp only at h
      split at h
      · cases h
      · have hc := bfgsLoop_cost (R := E.R) obj (optimOptions o) o.lineSearch (optimOptions o).iterations
          start fx g (identity start.length) 1
        unfold Cost at hc
        change (OptM.bind (bfgsLoop E.R obj (optimOptions o) o.lineSearch (optimOptions o).iterations
          start fx g (identity start.length)) _ 1).1 = _ at h
        unfold OptM.bind at h
        generalize bfgsLoop E.R obj (optimOptions o) o.lineSearch (optimOptions o).iterations
          start fx g (identity start.length) 1 = mc at h hc
        obtain ⟨res, c'⟩ := mc
        cases res with
        | ok a =>
          obtain ⟨x, f⟩ := a
          simp only [Res.ok.injEq] at h
          subst h
          exact key _ 1 _ 1 le_rfl hc (by omega) (by omega) (by omega)
        | fail => simp at h
        | panic => simp at h

theorem satAdd_le' (a b : Nat) : satAdd a b ≤ a + b := by unfold satAdd; omega

theorem optimizeFromStart_calls (o : SOptions K) (d : Dataset K) (plan : EvalPlan) (e : PostfixExpr (Fl K))
    (ev : Evaluator K) (start : List (Fl K)) (b : BestPoint K) (ctx : DContext (Fl K)) (r : BestPoint K × DContext (Fl K))
    (h : optimizeFromStart o d plan e ev start b ctx = some r) : r.1.evals ≤ b.evals + o.runCalls := by
  unfold optimizeFromStart at h
  cases hm : runMinimiser o (constObjective o d plan e ev ctx) start with
  | panic => rw [hm] at h; cases h
  | fail => rw [hm] at h; cases h; exact Nat.le_add_right _ _
  | ok q =>
    rw [hm] at h; cases h
    have := runMinimiser_calls o _ _ _ hm
    have := satAdd_le' b.evals q.fCalls
    simp only [BestPoint.take]
    split <;> (simp only; omega)

theorem restarts_calls (o : SOptions K) (d : Dataset K) (plan : EvalPlan) (e : PostfixExpr (Fl K)) (ev : Evaluator K)
    (x0 : List (Fl K)) : ∀ (n : Nat) (b : BestPoint K) (ctx : DContext (Fl K)),
    (restarts o d plan e ev x0 n b ctx).Post fun r => r.1.evals ≤ b.evals + n * o.runCalls := by
  intro n
  induction n with
  | zero => intro b ctx; exact Rand.Post.pure (by simp)
  | succ n ih =>
    intro b ctx
    unfold restarts
    refine Rand.Post.bind Rand.Post.true fun xt _ => ?_
    refine Rand.Post.bind (Rand.Post.lift (P := fun r => r.1.evals ≤ b.evals + o.runCalls)
      fun r h => optimizeFromStart_calls o d plan e ev xt b ctx r h) ?_
    rintro ⟨b', ctx'⟩ hb
    refine (ih b' ctx').mono ?_
    intro r hr
    simp only at hb
    have : (n + 1) * o.runCalls = n * o.runCalls + o.runCalls := Nat.succ_mul _ _
    omega

theorem optimizeConstants_calls (o : SOptions K) (d : Dataset K) (ev : Evaluator K) (ctx : DContext (Fl K)) (nb : Nat)
    (m : Member K) : (optimizeConstants o d ev ctx nb m).Post fun r => r.evals ≤ o.fitCalls := by
  unfold optimizeConstants
  split
  · exact Rand.Post.pure (Nat.zero_le _)
  split
  · exact Rand.Post.pure (Nat.zero_le _)
  next hs _ =>
  refine Rand.Post.bind Rand.Post.true ?_
  rintro ⟨base, ev⟩ -
  cases base with
  | none => exact Rand.Post.pure (Nat.zero_le _)
  | some baseline =>
    simp only
    refine Rand.Post.bind (Rand.Post.lift (P := fun r => r.1.evals ≤ 0 + o.runCalls)
      fun r h => optimizeFromStart_calls o d m.plan m.expr ev _ _ ctx r h) ?_
    rintro ⟨b, ctx⟩ hb
    refine Rand.Post.bind (restarts_calls o d m.plan m.expr ev _ _ b ctx) ?_
    rintro ⟨b', ctx'⟩ hb'
    refine Rand.Post.lift fun r hr => ?_
    simp only at hb hb'
    have hle : b'.evals + 1 ≤ o.fitCalls := by
      unfold SOptions.fitCalls
      have hs' : o.shouldOptimizeConstants = true := by simpa using hs
      rw [if_pos hs', Nat.add_mul]
      omega
    unfold finishOptimize at hr
    split at hr
    · simp only [Option.bind_eq_bind, Option.bind_eq_some_iff] at hr
      obtain ⟨⟨m', ok, ev'⟩, -, hr⟩ := hr
      split at hr
      · cases hr; simp only; omega
      · cases hr
        have := satAdd_le' b'.evals 1
        simp only; omega
    · cases hr; simp only; omega

theorem apply_calls (o : SOptions K) (d : Dataset K) (cur : Nat) (t : Fl K) (m : Member K) (ev : Evaluator K)
    (c : Mutation) : (c.apply o d cur t m ev).Post fun r => r.evals ≤ o.fitCalls := by
  have hp : ∀ (q : Rand (Fl K) (PostfixExpr (Fl K) × Bool)),
      (q >>= fun r => (pure (MutOutcome.plain ev r) : Rand (Fl K) (MutOutcome K))).Post fun r => r.evals ≤ o.fitCalls :=
    fun q => Rand.Post.bind Rand.Post.true fun r _ => Rand.Post.pure (Nat.zero_le _)
  cases c with
  | mutateConstant => exact hp _
  | mutateOperator => exact hp _
  | mutateFeature => exact hp _
  | swapOperands => exact hp _
  | rotateTree => exact hp _
  | addNode => exact hp _
  | insertNode => exact hp _
  | deleteNode => exact hp _
  | simplify => exact Rand.Post.bind Rand.Post.true fun r _ => Rand.Post.pure (Nat.zero_le _)
  | randomize =>
    exact Rand.Post.bind Rand.Post.true fun _ _ => Rand.Post.bind Rand.Post.true fun r _ =>
      Rand.Post.pure (Nat.zero_le _)
  | doNothing => exact Rand.Post.pure (Nat.zero_le _)
  | optimize =>
    refine Rand.Post.bind Rand.Post.true fun fresh _ => ?_
    refine Rand.Post.bind (optimizeConstants_calls o d ev _ 0 _) fun r hr => Rand.Post.pure hr

theorem attemptLoop_calls (o : SOptions K) (d : Dataset K) (cur : Nat) (t : Fl K) (m : Member K) (c : Mutation) :
    ∀ (k evals : Nat) (ev : Evaluator K),
    (attemptLoop o d cur t m c k evals ev).Post fun r => r.evals ≤ evals + k * o.fitCalls := by
  intro k
  induction k with
  | zero => intro evals ev; exact Rand.Post.pure (by simp)
  | succ k ih =>
    intro evals ev
    have hmul : (k + 1) * o.fitCalls = k * o.fitCalls + o.fitCalls := Nat.succ_mul _ _
    unfold attemptLoop
    refine Rand.Post.bind (apply_calls o d cur t m ev c) fun r hr => ?_
    simp only
    split
    · exact (ih _ _).mono fun a ha => by omega
    · refine Rand.Post.bind Rand.Post.true ?_
      rintro ⟨tree, _⟩ -
      refine Rand.Post.bind Rand.Post.true fun ok _ => ?_
      split
      · exact Rand.Post.pure (by simp only; omega)
      · exact (ih _ _).mono fun a ha => by omega

theorem generationWith_calls (o : SOptions K) (d : Dataset K) (cur : Nat) (t : Fl K) (s : Stats K) (ev : Evaluator K)
    (c : Counters) (m : Member K) (choice : Mutation) :
    (generationWith o d cur t s ev c m choice).Post fun r => r.evals ≤ o.passCalls := by
  unfold generationWith
  refine Rand.Post.bind (attemptLoop_calls o d cur t m choice 10 0 ev) fun a ha => ?_
  have hp : a.evals + 1 ≤ o.passCalls := by unfold SOptions.passCalls; omega
  match a.found with
  | none => exact Rand.Post.bind Rand.Post.true fun _ _ => Rand.Post.pure (Nat.zero_le _)
  | some (tree, true) => exact Rand.Post.bind Rand.Post.true fun _ _ => Rand.Post.pure (Nat.zero_le _)
  | some (tree, false) =>
    simp only
    refine Rand.Post.bind Rand.Post.true fun baby _ => Rand.Post.bind Rand.Post.true ?_
    rintro ⟨baby, ok, ev⟩ -
    simp only
    split
    · exact Rand.Post.bind Rand.Post.true fun _ _ => Rand.Post.pure (Nat.zero_le _)
    · refine Rand.Post.bind Rand.Post.true fun u _ => ?_
      split
      · exact Rand.Post.bind Rand.Post.true fun _ _ => Rand.Post.pure hp
      · exact Rand.Post.pure hp

theorem crossLoop_calls (o : SOptions K) (d : Dataset K) (cur : Nat) (ev : Evaluator K) (c : Counters)
    (m1 m2 : Member K) : ∀ k, (crossLoop o d cur ev c m1 m2 k).Post fun r => r.evals ≤ 2 := by
  intro k
  induction k with
  | zero => exact Rand.Post.pure (Nat.zero_le _)
  | succ k ih =>
    unfold crossLoop
    refine Rand.Post.bind Rand.Post.true ?_
    rintro ⟨e1, e2⟩ -
    refine Rand.Post.bind Rand.Post.true fun ok1 _ => ?_
    have hend : ∀ ok2 : Bool, (if ok2 = true then Rand.lift (crossBabies o d ev c m1 m2 e1 e2)
        else crossLoop o d cur ev c m1 m2 k : Rand (Fl K) (CrossOut K)).Post fun r => r.evals ≤ 2 := by
      intro ok2
      split
      · refine Rand.Post.lift fun r hr => ?_
        simp only [crossBabies, Option.bind_eq_bind, Option.bind_eq_some_iff] at hr
        obtain ⟨_, -, _, -, _, -, _, -, hr⟩ := hr
        cases hr; exact le_rfl
      · exact ih
    simp only
    split
    · exact Rand.Post.bind Rand.Post.true fun ok2 _ => hend ok2
    · exact Rand.Post.bind Rand.Post.true fun ok2 _ => hend ok2

/-- What a step of evolution does to the size of the population and the count. -/
def EvolState.Near (o : SOptions K) (st st' : EvolState K) (n : Nat) : Prop :=
  st'.pop.length = st.pop.length ∧ st'.evals ≤ st.evals + n * o.passCalls

theorem evolStep_calls (o : SOptions K) (d : Dataset K) (cur : Nat) (t : Fl K) (s : Stats K) (st : EvolState K) :
    (evolStep o d cur t s st).Post fun st' => st.Near o st' 1 := by
  unfold evolStep
  refine Rand.Post.bind Rand.Post.true fun u _ => ?_
  split
  · unfold mutationStep
    refine Rand.Post.bind Rand.Post.true fun allstar _ => ?_
    refine Rand.Post.bind (P := fun r => r.evals ≤ o.passCalls) ?_ fun r hr => ?_
    · unfold nextGeneration
      exact Rand.Post.bind Rand.Post.true fun choice _ => generationWith_calls o d cur t s _ _ _ _
    · simp only
      split
      · exact Rand.Post.pure ⟨rfl, by simp only; omega⟩
      · refine Rand.Post.bind (Rand.Post.lift (P := fun p => p.length = st.pop.length) fun p hp => ?_)
          fun p hp => Rand.Post.pure ⟨hp, by simp only; omega⟩
        simp only [replaceOldest, Option.bind_eq_bind, Option.bind_eq_some_iff, Option.some.injEq] at hp
        obtain ⟨i, -, rfl⟩ := hp
        simp
  · unfold crossoverStep
    refine Rand.Post.bind Rand.Post.true fun a1 _ => Rand.Post.bind Rand.Post.true fun a2 _ => ?_
    refine Rand.Post.bind (crossLoop_calls o d cur _ _ _ _ 10) fun r hr => ?_
    have h2 : 2 ≤ o.passCalls := by unfold SOptions.passCalls; omega
    simp only
    split
    · exact Rand.Post.pure ⟨rfl, by simp only; omega⟩
    · refine Rand.Post.bind (Rand.Post.lift (P := fun p => p.length = st.pop.length) fun p hp => ?_)
        fun p hp => Rand.Post.pure ⟨hp, by simp only; omega⟩
      simp only [replaceTwoOldest, Option.bind_eq_bind, Option.bind_eq_some_iff, Option.some.injEq] at hp
      obtain ⟨⟨i, j⟩, -, rfl⟩ := hp
      simp

theorem evolLoop_calls (o : SOptions K) (d : Dataset K) (cur : Nat) (t : Fl K) (s : Stats K) :
    ∀ (k : Nat) (st : EvolState K), (evolLoop o d cur t s k st).Post fun st' => st.Near o st' k := by
  intro k
  induction k with
  | zero => intro st; exact Rand.Post.pure ⟨rfl, by simp⟩
  | succ k ih =>
    intro st
    unfold evolLoop
    refine Rand.Post.bind (evolStep_calls o d cur t s st) fun st1 h1 => (ih st1).mono fun st2 h2 => ?_
    have : (k + 1) * o.passCalls = k * o.passCalls + o.passCalls := Nat.succ_mul _ _
    obtain ⟨a, b⟩ := h1
    obtain ⟨c, e⟩ := h2
    exact ⟨c.trans a, by omega⟩

theorem srLoop_calls (o : SOptions K) (d : Dataset K) (cur : Nat) (s : Stats K) (n : Nat) :
    ∀ (k : Nat) (st : EvolState K) (best : Hall K),
    (srLoop o d cur s n k st best).Post fun r => st.Near o r.1 (k * nEvolCycles st.pop.length o.tour.n) := by
  intro k
  induction k with
  | zero => intro st best; exact Rand.Post.pure ⟨rfl, by simp⟩
  | succ k ih =>
    intro st best
    unfold srLoop
    refine Rand.Post.bind (evolLoop_calls o d cur _ s _ st) fun st1 h1 => ?_
    refine Rand.Post.bind Rand.Post.true fun best _ => (ih st1 best).mono fun st2 h2 => ?_
    obtain ⟨a, b⟩ := h1
    obtain ⟨c, e⟩ := h2
    rw [a] at c e
    refine ⟨c, ?_⟩
    have : (k + 1) * nEvolCycles st.pop.length o.tour.n * o.passCalls =
      k * nEvolCycles st.pop.length o.tour.n * o.passCalls + nEvolCycles st.pop.length o.tour.n * o.passCalls := by
      rw [Nat.succ_mul, Nat.add_mul]
    omega

theorem optimizeAll_calls (o : SOptions K) (d : Dataset K) : ∀ (p : Population K) (st : OptState K),
    (optimizeAll o d p st).Post fun r => r.1.length = p.length ∧ st.evals ≤ r.2.evals ∧
      r.2.evals ≤ st.evals + p.length * o.fitCalls := by
  intro p
  induction p with
  | nil => intro st; exact Rand.Post.pure ⟨rfl, le_rfl, by simp⟩
  | cons m ms ih =>
    intro st
    have hmul : (m :: ms).length * o.fitCalls = ms.length * o.fitCalls + o.fitCalls := by
      rw [List.length_cons, Nat.succ_mul]
    unfold optimizeAll
    refine Rand.Post.bind Rand.Post.true fun u _ => ?_
    split
    · refine Rand.Post.bind (optimizeConstants_calls o d _ _ _ m) fun r hr => ?_
      refine Rand.Post.bind (ih _) ?_
      rintro ⟨rest, st'⟩ ⟨h1, h2, h3⟩
      simp only at h1 h2 h3
      exact Rand.Post.pure ⟨by simp [h1], by simp only; omega, by simp only; omega⟩
    · refine Rand.Post.bind (ih _) ?_
      rintro ⟨rest, st'⟩ ⟨h1, h2, h3⟩
      simp only at h1 h2 h3
      exact Rand.Post.pure ⟨by simp [h1], h2, by simp only; omega⟩

theorem evaluateAll_length (o : SOptions K) (d : Dataset K) : ∀ (p : Population K) (ev : Evaluator K)
    (r : Population K × Evaluator K), evaluateAll o d p ev = some r → r.1.length = p.length := by
  intro p
  induction p with
  | nil => intro ev r h; cases h; rfl
  | cons m ms ih =>
    intro ev r h
    unfold evaluateAll at h
    simp only [Option.bind_eq_bind, Option.bind_eq_some_iff] at h
    obtain ⟨⟨m', _, ev'⟩, -, ⟨rest, ev''⟩, h2, h⟩ := h
    cases h
    simpa using ih _ _ h2

theorem mapM_some_length {α β : Type} (f : α → Option β) : ∀ (l : List α) (r : List β), l.mapM f = some r →
    r.length = l.length := by
  intro l
  induction l with
  | nil => intro r h; simp at h; subst h; rfl
  | cons a l ih =>
    intro r h
    simp only [List.mapM_cons, Option.bind_eq_bind, Option.bind_eq_some_iff, Option.pure_def, Option.some.injEq] at h
    obtain ⟨b, -, r', h2, rfl⟩ := h
    simpa using ih _ h2

theorem optimizeAndSimplify_calls (o : SOptions K) (full dOpt : Dataset K) (ctx : DContext (Fl K)) (st : EvolState K)
    (hl : st.pop.length = o.populationSize) :
    (optimizeAndSimplify o full dOpt ctx st).Post fun r => r.1.pop.length = o.populationSize ∧
      st.evals + o.populationSize ≤ r.1.evals ∧ r.1.evals ≤ st.evals + o.phaseCalls + o.populationSize := by
  unfold optimizeAndSimplify
  refine Rand.Post.bind (Rand.Post.lift (P := fun p => p.length = o.populationSize) fun p hp => ?_) fun p hp => ?_
  · split at hp
    · rw [mapM_some_length _ _ _ hp, hl]
    · cases hp; exact hl
  refine Rand.Post.bind (P := fun r : EvolState K × DContext (Fl K) => r.1.pop.length = o.populationSize ∧
      st.evals ≤ r.1.evals ∧ r.1.evals ≤ st.evals + o.phaseCalls) ?_ ?_
  · unfold optimizePhase
    split
    · next h =>
      simp only [Bool.and_eq_true] at h
      refine Rand.Post.bind (optimizeAll_calls o dOpt _ _) ?_
      rintro ⟨pop, r⟩ ⟨h1, h2, h3⟩
      simp only at h1 h2 h3
      refine Rand.Post.pure ⟨h1.trans hp, h2, ?_⟩
      unfold SOptions.phaseCalls
      rw [if_pos h.2, ← hp]
      exact h3
    · exact Rand.Post.pure ⟨hp, le_rfl, Nat.le_add_right _ _⟩
  · rintro ⟨st', ctx'⟩ ⟨h1, h2, h3⟩
    simp only at h1 h2 h3 ⊢
    refine Rand.Post.bind (Rand.Post.lift (P := fun r => r.1.length = o.populationSize) fun r hr =>
      (evaluateAll_length o full _ _ _ hr).trans h1) ?_
    rintro ⟨pop, ev⟩ hr
    simp only at hr
    exact Rand.Post.pure ⟨hr, by simp only; omega, by simp only; omega⟩

theorem nEvolCycles_passes (o : SOptions K) : nEvolCycles o.populationSize o.tour.n = o.passes := rfl

/-- A task: the size of the population is kept and the count lies within the bounds. -/
theorem task_calls (o : SOptions K) (full : Dataset K) (t : Task K) (r : TaskResult K)
    (hl : t.ps.pop.length = o.populationSize) (h : t.run o full = some r) :
    r.ps.pop.length = o.populationSize ∧ o.populationSize ≤ r.evals ∧ r.evals ≤ o.cycleCalls := by
  have key : (taskBody o full t).Post fun r => r.1.pop.length = o.populationSize ∧ o.populationSize ≤ r.1.evals ∧
      r.1.evals ≤ o.cycleCalls := by
    unfold taskBody
    refine Rand.Post.bind Rand.Post.true ?_
    rintro ⟨d1, batch⟩ -
    simp only
    refine Rand.Post.bind (P := fun r => EvolState.Near o ⟨t.ps.pop, t.ps.ev, t.ps.counters, 0⟩ r.1
      (max o.ncyclesPerIteration 1 * nEvolCycles o.populationSize o.tour.n)) ?_ ?_
    · unfold srCycle
      refine Rand.Post.bind Rand.Post.true fun best _ => ?_
      have := srLoop_calls o d1 t.cur t.stats (max o.ncyclesPerIteration 1) (max o.ncyclesPerIteration 1)
        ⟨t.ps.pop, t.ps.ev, t.ps.counters, 0⟩ best
      rw [show (⟨t.ps.pop, t.ps.ev, t.ps.counters, 0⟩ : EvolState K).pop.length = o.populationSize from hl] at this
      exact this
    rintro ⟨st, seen⟩ ⟨h1, h2⟩
    simp only at h1 h2 ⊢
    refine Rand.Post.bind Rand.Post.true ?_
    rintro ⟨d2, batch2⟩ -
    simp only
    refine Rand.Post.bind (optimizeAndSimplify_calls o full d2 _ st (h1.trans hl)) ?_
    rintro ⟨st', ctx⟩ ⟨h3, h4, h5⟩
    simp only at h3 h4 h5 ⊢
    refine Rand.Post.bind Rand.Post.true fun sub _ => Rand.Post.pure ⟨h3, ?_, ?_⟩
    · simp only; omega
    · rw [nEvolCycles_passes] at h2
      unfold SOptions.cycleCalls; simp only; omega
  unfold Task.run at h
  rw [Option.map_eq_some_iff] at h
  obtain ⟨⟨b, rng⟩, hb, rfl⟩ := h
  exact key _ _ _ hb

end SR
