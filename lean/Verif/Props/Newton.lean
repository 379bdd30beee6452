import Verif.Props.Bfgs
/-
C68: the one-dimensional minimiser solves convex quadratics exactly.
-/
namespace SR
variable {K : Type} [Field K] [LinearOrder K] [IsStrictOrderedRing K]

/-- The objective computes `a x² + b x + c` and its derivative `2 a x + b`. -/
def IsQuadratic (obj : Objective K) (a b c : K) : Prop :=
  ∀ x : K, obj.fOnly [.fin x] = some (.fin (a * x ^ 2 + b * x + c)) ∧
    obj.fg [.fin x] = some (.fin (a * x ^ 2 + b * x + c), [.fin (2 * a * x + b)])

theorem newton_stop {obj : Objective K} {a b c : K} (hobj : IsQuadratic obj a b c) (opts : OptimOptions K)
    (hl : opts.fCallsLimit = 0) (tol : K) (htol : opts.gAbstol = .fin tol) (ls : BackTracking K) (k : Nat) (x : K)
    (bestF bestX : Fl K) (hb : (Fl.fin (a * x ^ 2 + b * x + c)).lt bestF = true) (hx : |2 * a * x + b| ≤ tol) (m : Nat) :
    newtonLoop (Rounding.exact K) obj opts ls (k + 1) (.fin x) bestF bestX m
      = (.ok (.fin (a * x ^ 2 + b * x + c), .fin x), m + 1) := by
  have e1 : callFg obj [.fin x] m = (.ok (.fin (a * x ^ 2 + b * x + c), [.fin (2 * a * x + b)]), m + 1) := by
    unfold callFg; rw [(hobj x).2]
  unfold newtonLoop
  rw [if_neg (by simp [exhausted, hl]), OptM.run_ok e1]
  dsimp only [head1, List.headD]
  rw [if_neg (by simp [Fl.isFinite])]
  unfold betterOf
  rw [if_pos hb]
  dsimp only
  rw [htol, if_pos (by
    show decide (max (2 * a * x + b) (-(2 * a * x + b)) ≤ tol) = true
    exact decide_eq_true hx)]
  rfl

/-- One full Newton step on a convex quadratic. -/
theorem newton_step {obj : Objective K} {a b c : K} (hobj : IsQuadratic obj a b c) (ha : 1 / 10 ^ 12 ≤ 2 * a)
    (opts : OptimOptions K) (hl : opts.fCallsLimit = 0) (tol : K) (htol : opts.gAbstol = .fin tol) (h0 : 0 ≤ tol)
    (ls : BackTracking K) (hms : ls.maxstep.isFinite = false) (hfm : 0 < ls.finiteMax) (hit : 0 < ls.iterations) (c1 : K)
    (hc1 : ls.c1 = .fin c1) (hc : c1 ≤ 1 / 2) (q : K) (hq : ls.sqrt (.fin (1 / 2 ^ 52)) = .fin q) (hq0 : 0 < q) (k : Nat)
    (x : K) (bestX : Fl K) (hx : ¬ |2 * a * x + b| ≤ tol) (m : Nat) :
    newtonLoop (Rounding.exact K) obj opts ls (k + 1) (.fin x) .pinf bestX m
      = newtonLoop (Rounding.exact K) obj opts ls k (.fin (-b / (2 * a))) (.fin (a * x ^ 2 + b * x + c)) (.fin x)
          (m + 4) := by
  have hA : (0 : K) < 2 * a := lt_of_lt_of_le (by positivity) ha
  have hA0 : a ≠ 0 := by rintro rfl; simp at hA
  have hg : 2 * a * x + b ≠ 0 := by intro h; rw [h] at hx; simp [h0] at hx
  have e1 : ∀ (y : K) (m : Nat), callFg obj [.fin y] m
      = (.ok (.fin (a * y ^ 2 + b * y + c), [.fin (2 * a * y + b)]), m + 1) := by
    intro y m; unfold callFg; rw [(hobj y).2]
  have hexh : ∀ m, ¬ exhausted opts m = true := by intro m; simp [exhausted, hl]
  have heps : (Rounding.exact K).mul (ls.sqrt ((Rounding.exact K).rnd (1 / 2 ^ 52)))
      ((Rounding.exact K).add (Fl.fin x).abs (.fin 1)) = .fin (q * (|x| + 1)) := by
    have : (Rounding.exact K).rnd (1 / 2 ^ 52) = .fin (1 / 2 ^ 52) := rfl
    rw [this, hq]; rfl
  have hE : q * (|x| + 1) ≠ 0 := by positivity
  generalize hepsd : q * (|x| + 1) = eps at heps hE
  have hstep : newtonStep (Rounding.exact K) (.fin (2 * a * x + b)) (.fin (2 * a * (x + eps) + b))
      (.fin (2 * a * (x - eps) + b)) (.fin eps)
      = (.fin (-(2 * a * x + b) / (2 * a)), .fin ((2 * a * x + b) * (-(2 * a * x + b) / (2 * a)))) := by
    have hh : (Rounding.exact K).div ((Rounding.exact K).sub (.fin (2 * a * (x + eps) + b)) (.fin (2 * a * (x - eps) + b)))
        ((Rounding.exact K).mul ((Rounding.exact K).rnd 2) (.fin eps)) = .fin (2 * a) := by
      have : (Rounding.exact K).mul ((Rounding.exact K).rnd 2) (.fin eps) = .fin (2 * eps) := rfl
      rw [this, exact_fsub, exact_fdiv' _ (by positivity)]
      congr 1
      field_simp
      ring
    have hmx : ((Fl.fin (2 * a)).abs.max ((Rounding.exact K).rnd (1 / 10 ^ 12))) = .fin (2 * a) := by
      have habs : (Fl.fin (2 * a)).abs = .fin (2 * a) := by
        show Fl.fin (max (2 * a) (-(2 * a))) = _
        rw [max_eq_left (by linarith)]
      rw [habs]
      unfold Fl.max
      have : ¬ (Fl.fin (2 * a)).lt ((Rounding.exact K).rnd (1 / 10 ^ 12)) = true := by
        show ¬ decide (2 * a < 1 / 10 ^ 12) = true
        simpa using ha
      rw [if_neg (by simp [Fl.isNan]), if_neg (by simp [Fl.isNan, Rounding.exact]), if_neg this]
    unfold newtonStep
    simp only
    have hf : (if (Fl.fin (2 * a)).isFinite = true then Fl.fin (2 * a) else (Rounding.exact K).rnd (1 / 10 ^ 12))
        = Fl.fin (2 * a) := rfl
    rw [hh, hmx, hf]
    have hs : (Rounding.exact K).div (Fl.fin (2 * a * x + b)).neg (.fin (2 * a)) = .fin (-(2 * a * x + b) / (2 * a)) :=
      exact_fdiv' _ hA.ne'
    rw [hs]
    have hd : (Rounding.exact K).mul (.fin (2 * a * x + b)) (.fin (-(2 * a * x + b) / (2 * a)))
        = .fin ((2 * a * x + b) * (-(2 * a * x + b) / (2 * a))) := rfl
    rw [hd]
    have hneg : (2 * a * x + b) * (-(2 * a * x + b) / (2 * a)) < 0 := by
      have : (2 * a * x + b) * (-(2 * a * x + b) / (2 * a)) = -((2 * a * x + b) ^ 2 / (2 * a)) := by ring
      rw [this]
      have : 0 < (2 * a * x + b) ^ 2 / (2 * a) := div_pos (by positivity) hA
      linarith
    rw [if_neg (by
      simp only [badSlope, Fl.isFinite, Fl.le, not_le.mpr hneg, decide_false, Bool.not_true, Bool.or_self,
        Bool.false_eq_true, not_false_eq_true])]
  generalize hs : -(2 * a * x + b) / (2 * a) = s at hstep
  have hxs : x + 1 * s = -b / (2 * a) := by rw [← hs]; field_simp; ring
  have hphi : ∀ m, phiAt obj opts [.fin (x + 1 * s)] m
      = (.ok (some (.fin (a * (x + 1 * s) ^ 2 + b * (x + 1 * s) + c))), m + 1) := by
    intro m
    unfold phiAt
    rw [if_neg (hexh m), (hobj _).1]
    rfl
  have harm : a * (x + 1 * s) ^ 2 + b * (x + 1 * s) + c
      ≤ (a * x ^ 2 + b * x + c) + c1 * 1 * ((2 * a * x + b) * s) := by
    have h1 : a * (x + 1 * s) ^ 2 + b * (x + 1 * s) + c
        = (a * x ^ 2 + b * x + c) - (2 * a * x + b) ^ 2 / (4 * a) := by
      rw [← hs]; field_simp; ring
    have h2 : c1 * 1 * ((2 * a * x + b) * s) = -(2 * c1) * ((2 * a * x + b) ^ 2 / (4 * a)) := by
      rw [← hs]; field_simp; ring
    have h3 : 0 < (2 * a * x + b) ^ 2 / (4 * a) := div_pos (by positivity) (by linarith)
    rw [h1, h2]
    nlinarith
  have hsearch : ∀ m, backtrackingLinesearch (Rounding.exact K) ls [.fin x] [.fin s] (.fin 1)
      (.fin (a * x ^ 2 + b * x + c)) (.fin ((2 * a * x + b) * s)) (phiAt obj opts) m
      = (.ok (.fin 1, .fin (a * (x + 1 * s) ^ 2 + b * (x + 1 * s) + c), [.fin (x + 1 * s)]), m + 1) := by
    intro m
    obtain ⟨fm, hfm'⟩ := Nat.exists_eq_succ_of_ne_zero hfm.ne'
    obtain ⟨it, hit'⟩ := Nat.exists_eq_succ_of_ne_zero hit.ne'
    unfold backtrackingLinesearch
    rw [if_neg (by
      have : ¬ (1 : K) ≤ 0 := not_le.mpr one_pos
      simp [Fl.isFinite, Fl.le, this])]
    have hcap : cappedStep (Rounding.exact K) ls (.fin 1) [.fin s] = .fin 1 := by
      unfold cappedStep; rw [hms]; rfl
    rw [hcap, hfm', hit']
    have hax : axpy (Rounding.exact K) [.fin x] (.fin 1) [.fin s] m = (.ok [.fin (x + 1 * s)], m) := rfl
    have hh : lsHalve (Rounding.exact K) (phiAt obj opts) [.fin x] [.fin s] (fm + 1) (.fin 1) m
        = (.ok (.fin 1, .fin (a * (x + 1 * s) ^ 2 + b * (x + 1 * s) + c), [.fin (x + 1 * s)]), m + 1) := by
      unfold lsHalve
      rw [OptM.run_ok hax, OptM.run_ok (hphi m)]
      rfl
    rw [OptM.run_ok hh]
    dsimp only
    rw [if_neg (by simp [Fl.isFinite])]
    unfold lsLoop
    rw [hc1, if_pos (by
      show decide (_ ≤ (a * x ^ 2 + b * x + c) + c1 * 1 * ((2 * a * x + b) * s)) = true
      exact decide_eq_true harm)]
    rfl
  rw [show newtonLoop (Rounding.exact K) obj opts ls (k + 1) (.fin x) .pinf bestX m = _ from by unfold newtonLoop; rfl]
  rw [if_neg (hexh m), OptM.run_ok (e1 x m)]
  dsimp only [head1, List.headD]
  rw [if_neg (by simp [Fl.isFinite])]
  have hbo : betterOf (.fin (a * x ^ 2 + b * x + c)) (.fin x) .pinf bestX
      = (.fin (a * x ^ 2 + b * x + c), .fin x) := rfl
  rw [hbo]
  dsimp only
  rw [htol, if_neg (by
    show ¬ decide (max (2 * a * x + b) (-(2 * a * x + b)) ≤ tol) = true
    intro h; exact hx (of_decide_eq_true h)), heps]
  have hadd : (Rounding.exact K).add (.fin x) (.fin eps) = .fin (x + eps) := rfl
  rw [hadd, exact_fsub, OptM.run_ok (e1 (x + eps) (m + 1)), OptM.run_ok (e1 (x - eps) (m + 1 + 1))]
  dsimp only
  rw [hstep]
  dsimp only
  have hneg : (2 * a * x + b) * s < 0 := by
    have : (2 * a * x + b) * s = -((2 * a * x + b) ^ 2 / (2 * a)) := by rw [← hs]; ring
    rw [this]
    have : 0 < (2 * a * x + b) ^ 2 / (2 * a) := div_pos (by positivity) hA
    linarith
  rw [if_neg (by
      simp only [badSlope, Fl.isFinite, Fl.le, not_le.mpr hneg, decide_false, Bool.not_true, Bool.or_self,
        Bool.false_eq_true, not_false_eq_true]), OptM.run_ok (hsearch _)]
  dsimp only
  have hnew : (Rounding.exact K).add (.fin x) ((Rounding.exact K).mul (.fin 1) (.fin s)) = .fin (-b / (2 * a)) := by
    show Fl.fin (x + 1 * s) = _
    rw [hxs]
  rw [hnew]

/-- C68: in exact arithmetic, with at least two iterations and no call limit, for every convex quadratic whose curvature
is at least the floor `1e-12`, every start, tolerance and first-step line search with `c1 ≤ 1/2`: the minimiser returns
the start if the slope there is within the tolerance, and otherwise the exact minimum `-b / 2a`, after five calls of the
objective. -/
theorem C68_newton_quadratic {obj : Objective K} {a b c : K} (hobj : IsQuadratic obj a b c) (ha : 1 / 10 ^ 12 ≤ 2 * a)
    (opts : OptimOptions K) (hl : opts.fCallsLimit = 0) (hn : 2 ≤ opts.iterations) (tol : K)
    (htol : opts.gAbstol = .fin tol) (h0 : 0 ≤ tol)
    (ls : BackTracking K) (hms : ls.maxstep.isFinite = false) (hfm : 0 < ls.finiteMax) (hit : 0 < ls.iterations) (c1 : K)
    (hc1 : ls.c1 = .fin c1) (hc : c1 ≤ 1 / 2) (q : K) (hq : ls.sqrt (.fin (1 / 2 ^ 52)) = .fin q) (hq0 : 0 < q) (x0 : K) :
    newtonMinimize (Rounding.exact K) (.fin x0) obj opts ls 0 =
      if |2 * a * x0 + b| ≤ tol then (.ok ⟨[.fin x0], .fin (a * x0 ^ 2 + b * x0 + c), 1⟩, 1)
      else (.ok ⟨[.fin (-b / (2 * a))], .fin (c - b ^ 2 / (4 * a)), 5⟩, 5) := by
  have hA : (0 : K) < 2 * a := lt_of_lt_of_le (by positivity) ha
  have hA0 : a ≠ 0 := by rintro rfl; simp at hA
  obtain ⟨k, hk⟩ : ∃ k, opts.iterations = k + 2 := ⟨opts.iterations - 2, by omega⟩
  unfold newtonMinimize
  split
  · next h =>
    rw [hk, OptM.run_ok (newton_stop hobj opts hl tol htol ls (k + 1) x0 .pinf (.fin x0) rfl h 0)]
  · next h =>
    have e1 := newton_step hobj ha opts hl tol htol h0 ls hms hfm hit c1 hc1 hc q hq hq0 (k + 1) x0 (.fin x0) h 0
    have hval : a * (-b / (2 * a)) ^ 2 + b * (-b / (2 * a)) + c = c - b ^ 2 / (4 * a) := by field_simp; ring
    have hlt : a * (-b / (2 * a)) ^ 2 + b * (-b / (2 * a)) + c < a * x0 ^ 2 + b * x0 + c := by
      have h1 : a * x0 ^ 2 + b * x0 + c - (a * (-b / (2 * a)) ^ 2 + b * (-b / (2 * a)) + c)
          = (2 * a * x0 + b) ^ 2 / (4 * a) := by field_simp; ring
      have hg : 2 * a * x0 + b ≠ 0 := by intro h'; rw [h'] at h; simp [h0] at h
      have h3 : 0 < (2 * a * x0 + b) ^ 2 / (4 * a) := div_pos (by positivity) (by linarith)
      linarith
    have e2 := newton_stop hobj opts hl tol htol ls k (-b / (2 * a)) (.fin (a * x0 ^ 2 + b * x0 + c)) (.fin x0)
      (decide_eq_true hlt) (by
        have : 2 * a * (-b / (2 * a)) + b = 0 := by field_simp; ring
        rw [this]; simpa using h0) 4
    rw [hk, OptM.run_ok (e1.trans e2), hval]

/-- Concrete: `3 x² - 6 x + 5` from 7: the minimum 2 at 1. -/
example : newtonMinimize (Rounding.exact ℚ) (.fin 7)
    ⟨fun | [.fin x] => some (.fin (3 * x ^ 2 - 6 * x + 5)) | _ => none,
     fun | [.fin x] => some (.fin (3 * x ^ 2 - 6 * x + 5), [.fin (6 * x - 6)]) | _ => none⟩
    ⟨8, 0, .fin (1 / 10 ^ 8)⟩ { defaultLs with sqrt := fun _ => .fin (1 / 2 ^ 26) } 0
      = (.ok ⟨[.fin 1], .fin 2, 5⟩, 5) := by decide +kernel

end SR
