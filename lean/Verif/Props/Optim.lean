import Verif.Proofs.Optim
import Verif.Spec.Binary64
/-
C38: the line search, BFGS and the one dimensional Newton method.
-/
namespace SR
variable {K : Type} [Field K] [LinearOrder K] [IsStrictOrderedRing K] {R : Rounding K}

omit [IsStrictOrderedRing K] in
theorem le_zero_of_armijo {a c1 phi phi0 d : Fl K} (ha : NN a)
    (h : phi.le (R.add phi0 (R.mul (R.mul c1 a) d)) = true) : Fl.le (.fin 0) a = true := by
  cases a with
  | nan =>
    have e : R.add phi0 (R.mul (R.mul c1 .nan) d) = .nan := by
      have : R.mul c1 .nan = .nan := by cases c1 <;> rfl
      rw [this]
      have : R.mul .nan d = .nan := by cases d <;> rfl
      rw [this]; cases phi0 <;> rfl
    rw [e] at h; cases phi <;> simp [Fl.le] at h
  | pinf => rfl
  | ninf => simp [NN, Fl.lt] at ha
  | fin x => simpa [NN, Fl.lt, Fl.le] using ha

/-- C38: whatever the objective, the rounding and the budget, the line search only returns a step `α ≥ 0` whose
point is `x + α s`, whose value is the finite objective value there, and which meets the sufficient decrease
condition `φ ≤ φ₀ + c₁ α φ₀'`. -/
theorem C38_linesearch (hR : R.Lawful) (obj : Objective K) (opts : OptimOptions K) (ls : BackTracking K)
    (hms : Fl.le (.fin 0) ls.maxstep = true) (x s : List (Fl K)) (hlen : x.length = s.length)
    (alpha0 phi0 dphi0 alpha phi : Fl K) (xn : List (Fl K)) (c c' : Nat)
    (h : backtrackingLinesearch R ls x s alpha0 phi0 dphi0 (phiAt obj opts) c = (.ok (alpha, phi, xn), c')) :
    Fl.le (.fin 0) alpha = true ∧
    xn = List.zipWith (fun xi si => R.add xi (R.mul alpha si)) x s ∧
    obj.fOnly xn = some phi ∧ phi.isFinite = true ∧
    phi.le (R.add phi0 (R.mul (R.mul ls.c1 alpha) dphi0)) = true := by
  have hms' : NN ls.maxstep := by unfold NN; cases hm : ls.maxstep <;> simp_all [Fl.le, Fl.lt]
  obtain ⟨-, -, h3⟩ := linesearch_sat hR obj opts ls hms' x s hlen alpha0 phi0 dphi0 c
  obtain ⟨h1, h2, h4, h5, h6⟩ := h3 (alpha, phi, xn) (by rw [h])
  exact ⟨le_zero_of_armijo h1 h6, h2, h4, h5, h6⟩

/-- C38: whatever the objective (returning floats, and the same value with and without gradient), a result of
BFGS is a point of the right dimension, its minimum is the finite objective value at that point, and it is not
above the value at the start. -/
theorem C38_bfgs (hR : R.Lawful) (obj : Objective K) (hobj : obj.Ok R) (opts : OptimOptions K)
    (ls : BackTracking K) (hms : Fl.le (.fin 0) ls.maxstep = true) (hc1 : Fl.le (.fin 0) ls.c1 = true)
    (x0 : List (Fl K)) (r : OptimResult K) (c' : Nat)
    (h : bfgsMinimize R x0 obj opts ls 0 = (.ok r, c')) :
    r.minimizer.length = x0.length ∧ r.minimum.isFinite = true ∧
    (∃ g, obj.fg r.minimizer = some (r.minimum, g)) ∧
    ∃ f0 g0, obj.fg x0 = some (f0, g0) ∧ r.minimum.le f0 = true := by
  have hms' : NN ls.maxstep := by unfold NN; cases hm : ls.maxstep <;> simp_all [Fl.le, Fl.lt]
  have key : (bfgsMinimize R x0 obj opts ls).Sat 0 (fun _ => True) (fun r =>
      r.minimizer.length = x0.length ∧ r.minimum.isFinite = true ∧
      (∃ g, obj.fg r.minimizer = some (r.minimum, g)) ∧
      ∃ f0 g0, obj.fg x0 = some (f0, g0) ∧ r.minimum.le f0 = true) := by
    unfold bfgsMinimize
    refine OptM.Sat.bind (callFg_sat obj x0 0) (fun _ _ => trivial) ?_
    rintro ⟨fx, g⟩ c1 hfg -
    simp only
    split
    · exact OptM.Sat.fail trivial
    · next hfin =>
      refine OptM.Sat.bind (bfgsLoop_sat hR obj hobj opts ls hms' hc1 opts.iterations x0 fx g _ c1 hfg
        (by simpa using hfin) (by simp [identity])) (fun _ _ => trivial) ?_
      rintro ⟨x, f⟩ c2 ⟨h1, h2, h3, h4⟩ -
      exact ⟨by simp, trivial, by rintro _ h; cases h; exact ⟨h1, h2, h4, fx, g, hfg, h3⟩⟩
  exact key.2.2 r (by rw [h])

/-- C38: a result of the Newton method, provided at least one iteration and one call are allowed: the minimum is
the finite objective value at the returned point and not above the value at the start. -/
theorem C38_newton (hR : R.Lawful) (obj : Objective K) (opts : OptimOptions K)
    (ls : BackTracking K) (hms : Fl.le (.fin 0) ls.maxstep = true) (hit : 0 < opts.iterations)
    (x0 : Fl K) (r : OptimResult K) (c' : Nat) (h : newtonMinimize R x0 obj opts ls 0 = (.ok r, c')) :
    r.minimizer.length = 1 ∧ r.minimum.isFinite = true ∧
    (∃ g, obj.fg r.minimizer = some (r.minimum, g)) ∧
    ∃ f0 g0, obj.fg [x0] = some (f0, g0) ∧ r.minimum.le f0 = true := by
  have hms' : NN ls.maxstep := by unfold NN; cases hm : ls.maxstep <;> simp_all [Fl.le, Fl.lt]
  have key : (newtonMinimize R x0 obj opts ls).Sat 0 (fun _ => True) (fun r =>
      r.minimizer.length = 1 ∧ r.minimum.isFinite = true ∧
      (∃ g, obj.fg r.minimizer = some (r.minimum, g)) ∧
      ∃ f0 g0, obj.fg [x0] = some (f0, g0) ∧ r.minimum.le f0 = true) := by
    unfold newtonMinimize
    refine OptM.Sat.bind (newtonLoop_sat hR obj opts ls hms' x0 opts.iterations x0 .pinf x0 0
      (.inl ⟨rfl, rfl⟩) (fun _ => rfl)) (fun _ _ => trivial) ?_
    rintro ⟨f, x⟩ c1 ⟨h1, h2⟩ -
    have hne := h2 (.inr ⟨hit, by omega⟩)
    rcases h1 with ⟨h, -⟩ | ⟨h1, h3, h4⟩
    · exact absurd h hne
    · exact ⟨by simp, trivial, by rintro _ h; cases h; exact ⟨rfl, h1, h3, h4⟩⟩
  exact key.2.2 r (by rw [h])

/-- C38: BFGS makes at most one objective call beyond the call limit (whether or not it returns a result), never
more than the iteration limits allow, and reports the calls it made. -/
theorem C38_bfgs_calls (hR : R.Lawful) (obj : Objective K) (hobj : obj.Ok R) (opts : OptimOptions K)
    (ls : BackTracking K) (hms : Fl.le (.fin 0) ls.maxstep = true) (hc1 : Fl.le (.fin 0) ls.c1 = true)
    (x0 : List (Fl K)) :
    (bfgsMinimize R x0 obj opts ls 0).1 ≠ .panic ∧
    (bfgsMinimize R x0 obj opts ls 0).2 ≤ 1 + opts.iterations * (ls.finiteMax + ls.iterations + 1) ∧
    (opts.fCallsLimit ≠ 0 → (bfgsMinimize R x0 obj opts ls 0).2 ≤ opts.fCallsLimit + 1) ∧
    ∀ r, (bfgsMinimize R x0 obj opts ls 0).1 = .ok r → r.fCalls = (bfgsMinimize R x0 obj opts ls 0).2 := by
  have hms' : NN ls.maxstep := by unfold NN; cases hm : ls.maxstep <;> simp_all [Fl.le, Fl.lt]
  have key : (bfgsMinimize R x0 obj opts ls).Sat 0
      (fun c => c ≤ 1 + opts.iterations * (ls.finiteMax + ls.iterations + 1) ∧
        (opts.fCallsLimit ≠ 0 → c ≤ opts.fCallsLimit + 1)) (fun _ => True) := by
    unfold bfgsMinimize
    refine OptM.Sat.bind (callFg_sat obj x0 0) (fun c h => ⟨by omega, fun _ => by omega⟩) ?_
    rintro ⟨fx, g⟩ c1 hfg rfl
    simp only
    split
    · exact OptM.Sat.fail ⟨by omega, fun _ => by omega⟩
    · next hfin =>
      refine OptM.Sat.bind (bfgsLoop_sat hR obj hobj opts ls hms' hc1 opts.iterations x0 fx g _ _ hfg
        (by simpa using hfin) (by simp [identity])) (fun c h => ⟨by have := h.2.1; omega, fun hl => ?_⟩) ?_
      · have := h.2.2 hl; omega
      · rintro ⟨x, f⟩ c2 - hc
        exact ⟨by simp, ⟨(by have := hc.2.1; show c2 ≤ _; omega), fun hl => (by have := hc.2.2 hl; show c2 ≤ _; omega)⟩, fun _ _ => trivial⟩
  refine ⟨key.1, key.2.1.1, key.2.1.2, ?_⟩
  intro r hr
  have key2 : ∀ c, ∀ r, (bfgsMinimize R x0 obj opts ls c).1 = .ok r → r.fCalls = (bfgsMinimize R x0 obj opts ls c).2 := by
    intro c r hr
    have e : bfgsMinimize R x0 obj opts ls c = OptM.bind (callFg obj x0) _ c := rfl
    rw [e] at hr ⊢
    unfold OptM.bind at hr ⊢
    rcases hc : callFg obj x0 c with ⟨q, c1⟩
    rw [hc] at hr
    cases q with
    | fail => simp at hr
    | panic => simp at hr
    | ok p =>
      simp only at hr ⊢
      split at hr
      · simp [OptM.fail] at hr
      · next h =>
        rw [if_neg h]
        have e2 : ∀ (m : OptM (List (Fl K) × Fl K)) c1, (do let (x, f) ← m; fun c => (Res.ok (⟨x, f, c⟩ : OptimResult K), c) : OptM _) c1
          = OptM.bind m (fun p => fun c => (Res.ok (⟨p.1, p.2, c⟩ : OptimResult K), c)) c1 := fun _ _ => rfl
        rw [e2] at hr ⊢
        unfold OptM.bind at hr ⊢
        rcases hm : bfgsLoop R obj opts ls opts.iterations x0 p.1 p.2 (identity x0.length) c1 with ⟨q2, c2⟩
        rw [hm] at hr
        cases q2 with
        | fail => simp at hr
        | panic => simp at hr
        | ok p2 => simp only at hr ⊢; cases hr; rfl
  exact key2 0 r hr

/-- C38: the same for the Newton method: at most two calls beyond the limit. -/
theorem C38_newton_calls (hR : R.Lawful) (obj : Objective K) (opts : OptimOptions K)
    (ls : BackTracking K) (hms : Fl.le (.fin 0) ls.maxstep = true) (x0 : Fl K) :
    (newtonMinimize R x0 obj opts ls 0).1 ≠ .panic ∧
    (newtonMinimize R x0 obj opts ls 0).2 ≤ opts.iterations * (ls.finiteMax + ls.iterations + 3) ∧
    (opts.fCallsLimit ≠ 0 → (newtonMinimize R x0 obj opts ls 0).2 ≤ opts.fCallsLimit + 2) ∧
    ∀ r, (newtonMinimize R x0 obj opts ls 0).1 = .ok r → r.fCalls = (newtonMinimize R x0 obj opts ls 0).2 := by
  have hms' : NN ls.maxstep := by unfold NN; cases hm : ls.maxstep <;> simp_all [Fl.le, Fl.lt]
  have h := newtonLoop_sat hR obj opts ls hms' x0 opts.iterations x0 .pinf x0 0 (.inl ⟨rfl, rfl⟩) (fun _ => rfl)
  have e : newtonMinimize R x0 obj opts ls 0 = OptM.bind (newtonLoop R obj opts ls opts.iterations x0 .pinf x0)
    (fun p => fun c => (Res.ok (⟨[p.2], p.1, c⟩ : OptimResult K), c)) 0 := rfl
  rw [e]
  unfold OptM.bind
  unfold OptM.Sat at h
  rcases hm : newtonLoop R obj opts ls opts.iterations x0 .pinf x0 0 with ⟨q, c1⟩
  rw [hm] at h
  obtain ⟨h1, h2, -⟩ := h
  have h3 : c1 ≤ opts.iterations * (ls.finiteMax + ls.iterations + 3) := by have := h2.2.1; simp only at this; omega
  have h4 : opts.fCallsLimit ≠ 0 → c1 ≤ opts.fCallsLimit + 2 := fun hl => by
    have := h2.2.2 hl; simp only at this; omega
  cases q with
  | fail => exact ⟨by simp, h3, h4, by simp⟩
  | panic => exact absurd rfl h1
  | ok p => exact ⟨by simp, h3, h4, by rintro r h; cases h; rfl⟩

/-- The code's line search settings (`BackTracking::default`), over the rationals. -/
def defaultLs : BackTracking ℚ := ⟨.fin (1 / 10000), .fin (1 / 2), .fin (1 / 10), 1000, 3, .pinf, 52, id⟩

/-- `(x - 1)² + 10 (y + 2)²`. -/
def quad2 : Objective ℚ where
  fOnly | [.fin x, .fin y] => some (.fin ((x - 1) ^ 2 + 10 * (y + 2) ^ 2)) | _ => none
  fg | [.fin x, .fin y] => some (.fin ((x - 1) ^ 2 + 10 * (y + 2) ^ 2), [.fin (2 * (x - 1)), .fin (20 * (y + 2))])
     | _ => none

theorem quad2_ok : quad2.Ok (Rounding.exact ℚ) := by
  have h : ∀ x v g, quad2.fg x = some (v, g) → ∃ a b : ℚ, x = [.fin a, .fin b] := by
    intro x v g h
    match x, h with
    | [.fin a, .fin b], _ => exact ⟨a, b, rfl⟩
  constructor
  · intro x v g hx
    obtain ⟨a, b, rfl⟩ := h x v g hx
    simp [quad2] at hx; simp [← hx.2]
  · intro x v g _ y hy
    rfl
  · intro x v g w hx hw
    obtain ⟨a, b, rfl⟩ := h x v g hx
    simp [quad2] at hx hw; rw [← hw, ← hx.1]

/-- Concrete: BFGS runs on the code's test function, makes a step and returns. -/
example : (match bfgsMinimize (Rounding.exact ℚ) [.fin 0, .fin 0] quad2 ⟨1, 0, .fin (1 / 10 ^ 8)⟩ defaultLs 0 with
    | (.ok r, c) => r.minimum.lt (.fin 41) && decide (c = 4)
    | _ => false) = true := by decide +kernel

/-- A function like `x²/4` that is undefined below `1/4`. -/
def cliff : Objective ℚ where
  fOnly | [.fin x] => if x < 1 / 4 then none else some (.fin (x ^ 2 / 4)) | _ => none
  fg | [.fin x] => if x < 1 / 4 then none else some (.fin (x ^ 2 / 4), [.fin (x / 2)]) | _ => none

/-- C38 (a limitation of the code): when the call limit is reached inside a line search, BFGS returns nothing and
the progress made so far is lost.  With a limit of three calls it returns an improved point; with four it returns
nothing. -/
theorem C38_progress_lost :
    (bfgsMinimize (Rounding.exact ℚ) [.fin 1] cliff ⟨8, 3, .fin (1 / 10 ^ 8)⟩ defaultLs 0
      = (.ok ⟨[.fin (1 / 2)], .fin (1 / 16), 3⟩, 3)) ∧
    bfgsMinimize (Rounding.exact ℚ) [.fin 1] cliff ⟨8, 4, .fin (1 / 10 ^ 8)⟩ defaultLs 0 = (.fail, 4) := by
  decide +kernel

omit [IsStrictOrderedRing K] in
/-- C38: with no iterations allowed the Newton method reports an infinite minimum at the start. -/
theorem C38_newton_no_iterations (obj : Objective K) (opts : OptimOptions K) (ls : BackTracking K)
    (h0 : opts.iterations = 0) (x0 : Fl K) :
    newtonMinimize R x0 obj opts ls 0 = (.ok ⟨[x0], .pinf, 0⟩, 0) := by
  unfold newtonMinimize
  rw [h0]
  rfl

/-- Concrete: Newton on `x²/4`. -/
example : (match newtonMinimize (Rounding.exact ℚ) (.fin 1) cliff ⟨2, 0, .fin (1 / 10 ^ 8)⟩
      { defaultLs with sqrt := fun _ => .fin (1 / 2 ^ 26) } 0 with
    | (.ok r, _) => r.minimum.lt (.fin (1 / 4))
    | _ => false) = true := by decide +kernel

end SR
