import Verif.Spec.LineSearch
import Verif.Props.Optim
import Verif.Props.Binary
import Verif.Model.Options
import Mathlib.Tactic.Positivity
import Mathlib.Analysis.SpecialFunctions.Pow.Real
/-
C38: which steps the line search tries.
-/
namespace SR
variable {K : Type} [Field K] [LinearOrder K] [IsStrictOrderedRing K] {R : Rounding K}

theorem OptM.bind_run {α β : Type} (m : OptM α) (f : α → OptM β) (c : Nat) :
    (m >>= f) c = match m c with
      | (.ok a, c') => f a c'
      | (.fail, c') => (.fail, c')
      | (.panic, c') => (.panic, c') := rfl

omit [IsStrictOrderedRing K] in
theorem axpy_run (x s : List (Fl K)) (h : x.length = s.length) (a : Fl K) (c : Nat) :
    axpy R x a s c = (.ok (pointAt R x s a), c) := by
  unfold axpy zipEqM; rw [if_pos h]; rfl

omit [Field K] [LinearOrder K] [IsStrictOrderedRing K] in
theorem finiteSome_filter (o : Option (Fl K)) (h : finiteSome (o.filter Fl.isFinite) = true) :
    ∃ v, o = some v ∧ v.isFinite = true := by
  cases o with
  | none => simp [finiteSome] at h
  | some v =>
    cases hv : v.isFinite
    · simp [finiteSome, Option.filter, hv] at h
    · exact ⟨v, rfl, hv⟩

omit [IsStrictOrderedRing K] in
/-- Once the budget is used up, the halving fails. -/
theorem lsHalve_exhausted (obj : Objective K) (opts : OptimOptions K) (x s : List (Fl K)) (hlen : x.length = s.length)
    (n : Nat) : ∀ (a : Fl K) (c : Nat), exhausted opts c = true →
      lsHalve R (phiAt obj opts) x s n a c = (.fail, c) := by
  induction n with
  | zero => intros; rfl
  | succ n ih =>
    intro a c hc
    unfold lsHalve
    rw [OptM.bind_run, axpy_run x s hlen]
    simp only
    rw [OptM.bind_run]
    have : phiAt obj opts (pointAt R x s a) c = (.ok none, c) := by unfold phiAt; rw [if_pos hc]
    rw [this]
    simp only
    rw [if_neg (show ¬ finiteSome (none : Option (Fl K)) = true by simp [finiteSome])]
    split
    · rfl
    · exact ih _ _ hc

omit [IsStrictOrderedRing K] in
theorem lsHalve_halved (obj : Objective K) (opts : OptimOptions K) (x s : List (Fl K)) (hlen : x.length = s.length)
    (n : Nat) : ∀ (a b phi : Fl K) (xn : List (Fl K)) (c c' : Nat),
      lsHalve R (phiAt obj opts) x s n a c = (.ok (b, phi, xn), c') →
      ∃ k < n, HalvedFrom obj R x s k a b ∧ HasValue obj R x s b phi ∧ xn = pointAt R x s b := by
  induction n with
  | zero => intro a b phi xn c c' h; cases h
  | succ n ih =>
    intro a b phi xn c c' h
    unfold lsHalve at h
    rw [OptM.bind_run, axpy_run x s hlen] at h
    simp only at h
    rw [OptM.bind_run] at h
    by_cases hc : exhausted opts c = true
    · have : phiAt obj opts (pointAt R x s a) c = (.ok none, c) := by unfold phiAt; rw [if_pos hc]
      rw [this] at h
      simp only at h
      rw [if_neg (show ¬ finiteSome (none : Option (Fl K)) = true by simp [finiteSome])] at h
      split at h
      · cases h
      · rw [lsHalve_exhausted obj opts x s hlen n _ _ hc] at h; cases h
    · have : phiAt obj opts (pointAt R x s a) c =
          (.ok ((obj.fOnly (pointAt R x s a)).filter Fl.isFinite), c + 1) := by unfold phiAt; rw [if_neg hc]
      rw [this] at h
      simp only at h
      split at h
      · next hf =>
        obtain ⟨v, e, hv⟩ := finiteSome_filter _ hf
        rw [e, Option.filter, hv, if_pos rfl] at h
        have h' : ((Res.ok (a, v, pointAt R x s a), c + 1) : Res (Fl K × Fl K × List (Fl K)) × Nat) =
          (.ok (b, phi, xn), c') := h
        cases h'
        exact ⟨0, Nat.succ_pos n, .done, ⟨e, hv⟩, rfl⟩
      · next hf =>
        have hno : ∀ phi, ¬ HasValue obj R x s a phi := by
          rintro p ⟨e, hp⟩
          rw [e] at hf
          simp [finiteSome, Option.filter, hp] at hf
        split at h
        · cases h
        · obtain ⟨k, hk, h1, h2⟩ := ih _ _ _ _ _ _ h
          exact ⟨k + 1, by omega, .half hno h1, h2⟩

omit [IsStrictOrderedRing K] in
/-- An interpolated step is a number. -/
theorem quadraticStep_finite {alpha phi phi0 dphi0 t : Fl K} (h : quadraticStep R alpha phi phi0 dphi0 = some t) :
    t.isFinite = true := by
  unfold quadraticStep at h
  simp only at h
  split at h
  · cases h
  · split at h
    · next e => cases h; exact e
    · cases h

omit [IsStrictOrderedRing K] in
theorem cubicStep_finite {ls : BackTracking K} {a1 p1 a2 p2 p0 d t : Fl K}
    (h : cubicStep R ls a1 p1 a2 p2 p0 d = some t) : t.isFinite = true := by
  unfold cubicStep at h
  simp only at h
  split at h
  · cases h
  split at h
  · cases h
  split at h
  · split at h
    · cases h
    · split at h
      · next e => cases h; exact e
      · cases h
  · split at h
    · next e => cases h; exact e
    · cases h

omit [IsStrictOrderedRing K] in
theorem trialStep_not_nan (hR : R.Lawful) (ls : BackTracking K) (phi0 dphi0 : Fl K) {alpha : K} (phi : Fl K)
    (prev : Option (Fl K × Fl K)) (hh : R.rnd (1 / 2) = .fin (1 / 2)) :
    (trialStep R ls phi0 dphi0 (.fin alpha) phi prev).isNan = false := by
  have hfin : ∀ o : Option (Fl K), (∀ t, o = some t → t.isFinite = true) →
      (o.getD (R.mul (.fin alpha) (R.rnd (1 / 2)))).isNan = false := by
    intro o ho
    cases o with
    | none => rw [Option.getD_none, hh]; exact hR.not_nan _
    | some t =>
      have := ho t rfl
      rw [Option.getD_some]
      cases t <;> simp_all [Fl.isFinite, Fl.isNan]
  unfold trialStep
  simp only
  refine hfin _ ?_
  intro t ht
  split at ht
  · exact quadraticStep_finite ht
  · split at ht
    · exact cubicStep_finite ht
    · exact quadraticStep_finite ht

omit [IsStrictOrderedRing K] in
/-- A clamped step lies between the bounds. -/
theorem clampStep_between (ls : BackTracking K) (alpha t : Fl K) (ht : t.isNan = false)
    (h : (R.mul ls.rhoLo alpha).le (R.mul ls.rhoHi alpha) = true) :
    (R.mul ls.rhoLo alpha).le (clampStep R ls alpha t) = true ∧
      (clampStep R ls alpha t).le (R.mul ls.rhoHi alpha) = true := by
  obtain ⟨hl, hh⟩ := Fl.le_not_nan h
  have hflip : ∀ {a b : Fl K}, a.isNan = false → b.isNan = false → ¬ a.lt b = true → b.le a = true := by
    intro a b ha hb hab
    rcases Fl.le_total ha hb with h | h
    · rw [Fl.le_iff hb ha]
      simpa using hab
    · exact h
  unfold clampStep
  simp only
  split
  · next h1 =>
    split
    · next h2 => exact ⟨Fl.le_refl hl, h⟩
    · exact ⟨h, Fl.le_refl hh⟩
  · next h1 =>
    split
    · exact ⟨Fl.le_refl hl, h⟩
    · next h2 => exact ⟨hflip ht hl h2, hflip hh ht h1⟩

theorem lsLoop_shrunk (hR : R.Lawful) (obj : Objective K) (opts : OptimOptions K) (ls : BackTracking K) (x s : List (Fl K))
    (hlen : x.length = s.length) (phi0 dphi0 : Fl K) (hh : R.rnd (1 / 2) = .fin (1 / 2)) {lo hi : K}
    (hlo : ls.rhoLo = .fin lo) (hhi : ls.rhoHi = .fin hi) (hle : lo ≤ hi) (n : Nat) :
    ∀ (a : K) (phi : Fl K) (prev : Option (Fl K × Fl K)) (b phi' : Fl K) (xn : List (Fl K)) (c c' : Nat), 0 ≤ a →
      HasValue obj R x s (.fin a) phi →
      lsLoop R ls (phiAt obj opts) x s phi0 dphi0 n (.fin a) phi (pointAt R x s (.fin a)) prev c = (.ok (b, phi', xn), c') →
      ∃ k < n, ShrunkFrom R ls.rhoLo ls.rhoHi (EnoughAt obj R x s ls.c1 phi0 dphi0) k (.fin a) b := by
  induction n with
  | zero => intro a phi prev b phi' xn c c' _ _ h; cases h
  | succ n ih =>
    intro a phi prev b phi' xn c c' ha hv h
    unfold lsLoop at h
    split at h
    · cases h; exact ⟨0, Nat.succ_pos n, .done⟩
    · next hrej =>
      simp only at h
      have hbt := clampStep_between (R := R) ls (.fin a) _ (trialStep_not_nan hR ls phi0 dphi0 (alpha := a) phi prev hh) (by
        rw [hlo, hhi]; exact hR.mono (mul_le_mul_of_nonneg_right hle ha))
      generalize clampStep R ls (.fin a) (trialStep R ls phi0 dphi0 (.fin a) phi prev) = a' at h hbt
      split at h
      · cases h
      · next hfin =>
        simp only [Bool.or_eq_true, not_or, Bool.not_eq_true', Bool.not_eq_false] at hfin
        obtain ⟨hfin, hpos⟩ := hfin
        obtain ⟨v, rfl⟩ : ∃ v, a' = .fin v := by cases a' <;> simp_all [Fl.isFinite]
        have hv0 : 0 < v := by simpa [Fl.le] using hpos
        have hne : ¬ EnoughAt obj R x s ls.c1 phi0 dphi0 (.fin a) := by
          rintro ⟨p, ⟨e, -⟩, hp⟩
          rw [hv.1] at e
          cases e
          exact hrej hp
        rw [OptM.bind_run, axpy_run x s hlen] at h
        simp only at h
        rw [OptM.bind_run] at h
        by_cases hc : exhausted opts c = true
        · have : phiAt obj opts (pointAt R x s (.fin v)) c = (.ok none, c) := by unfold phiAt; rw [if_pos hc]
          rw [this] at h
          cases h
        · have : phiAt obj opts (pointAt R x s (.fin v)) c =
              (.ok ((obj.fOnly (pointAt R x s (.fin v))).filter Fl.isFinite), c + 1) := by unfold phiAt; rw [if_neg hc]
          rw [this] at h
          simp only at h
          rw [OptM.bind_run] at h
          cases e : (obj.fOnly (pointAt R x s (.fin v))).filter Fl.isFinite with
          | none => rw [e] at h; cases h
          | some p =>
            rw [e] at h
            have he := Option.filter_eq_some_iff.mp e
            change (if (!p.isFinite) = true then OptM.fail else
              lsLoop R ls (phiAt obj opts) x s phi0 dphi0 n (.fin v) p (pointAt R x s (.fin v))
                (some (.fin a, phi))) (c + 1) = _ at h
            rw [if_neg (by simp [he.2])] at h
            obtain ⟨k, hk, h1⟩ := ih v p _ b phi' xn _ _ hv0.le ⟨he.1, he.2⟩ h
            exact ⟨k + 1, by omega, .shrink hne hbt.1 hbt.2 (by simpa [Fl.lt] using hv0) h1⟩

theorem HalvedFrom.finite (hR : R.Lawful) (hh : R.rnd (1 / 2) = .fin (1 / 2)) {obj : Objective K} {x s : List (Fl K)} {k : Nat}
    {a b : Fl K} (h : HalvedFrom obj R x s k a b) (ha : ∃ v, a = .fin v ∧ 0 ≤ v ∧ R.rnd v = .fin v) :
    ∃ v, b = .fin v ∧ 0 ≤ v ∧ R.rnd v = .fin v := by
  induction h with
  | done => exact ha
  | half _ _ ih =>
    refine ih ?_
    obtain ⟨v, rfl, hv, hr⟩ := ha
    rw [hh]
    show ∃ w, R.rnd (v * (1 / 2)) = .fin w ∧ 0 ≤ w ∧ R.rnd w = .fin w
    have h1 : (R.rnd (v * (1 / 2))).le (R.rnd v) = true := hR.mono (by linarith)
    have h2 : (R.rnd 0).le (R.rnd (v * (1 / 2))) = true := hR.mono (by positivity)
    rw [hr] at h1
    rw [hR.zero] at h2
    cases e : R.rnd (v * (1 / 2)) with
    | fin w =>
      rw [e] at h2
      exact ⟨w, rfl, by simpa [Fl.le] using h2, hR.idem e⟩
    | _ => rw [e] at h1 h2; simp [Fl.le] at h1 h2

theorem firstStep_finite (hR : R.Lawful) {maxstep : Fl K} (hms : Fl.le (.fin 0) maxstep = true) {v : K} (hv : 0 < v)
    (hr : R.rnd v = .fin v) (s : List (Fl K)) :
    ∃ w, firstStep R maxstep (.fin v) s = .fin w ∧ 0 ≤ w ∧ R.rnd w = .fin w := by
  unfold firstStep
  split
  · next h =>
    obtain ⟨hf, hn⟩ := h
    generalize infNorm s = nrm at hn
    obtain ⟨m, rfl⟩ : ∃ m, maxstep = .fin m := by cases maxstep <;> simp_all [Fl.isFinite]
    have hm : 0 ≤ m := by simpa [Fl.le] using hms
    have hd : (∃ w, R.div (.fin m) nrm = .fin w ∧ 0 ≤ w ∧ R.rnd w = .fin w) ∨ R.div (.fin m) nrm = .pinf := by
      cases nrm with
      | fin n =>
        have hn0 : 0 < n := by simpa [Fl.lt] using hn
        have e : R.div (.fin m) (.fin n) = R.rnd (m / n) := by simp [Rounding.div, hn0.ne']
        rw [e]
        have h2 : (R.rnd 0).le (R.rnd (m / n)) = true := hR.mono (by positivity)
        rw [hR.zero] at h2
        cases e : R.rnd (m / n) with
        | fin w =>
          rw [e] at h2
          exact .inl ⟨w, rfl, by simpa [Fl.le] using h2, hR.idem e⟩
        | pinf => exact .inr rfl
        | _ => rw [e] at h2; simp [Fl.le] at h2
      | pinf => exact .inl ⟨0, rfl, le_rfl, hR.zero⟩
      | _ => simp [Fl.lt] at hn
    rcases hd with ⟨w, e, hw, hr'⟩ | e
    · rw [e]
      simp only [Fl.min, Fl.isNan, Bool.false_eq_true, if_false]
      split
      · exact ⟨w, rfl, hw, hr'⟩
      · exact ⟨v, rfl, hv.le, hr⟩
    · rw [e]
      exact ⟨v, by simp [Fl.min, Fl.isNan, Fl.lt], hv.le, hr⟩
  · exact ⟨v, rfl, hv.le, hr⟩

/-- C38: the steps of the line search.  The first step tried is the requested one, reduced so that no coordinate moves
by more than `maxstep`; it is halved while the objective has no finite value there, fewer than `finiteMax` times; from
then on each step that does not decrease the objective enough is replaced by a positive one between `rhoLo` and `rhoHi`
times it, fewer than `iterations` times; the step returned is the first one that decreases the objective enough. -/
theorem C38_steps (hR : R.Lawful) (hh : R.rnd (1 / 2) = .fin (1 / 2)) (obj : Objective K) (opts : OptimOptions K)
    (ls : BackTracking K) {lo hi : K} (hlo : ls.rhoLo = .fin lo) (hhi : ls.rhoHi = .fin hi) (hle : lo ≤ hi)
    (hms : Fl.le (.fin 0) ls.maxstep = true) (x s : List (Fl K)) (hlen : x.length = s.length)
    (alpha0 : Fl K) (hrep : alpha0.Rep R) (phi0 dphi0 alpha phi : Fl K) (xn : List (Fl K)) (c c' : Nat)
    (h : backtrackingLinesearch R ls x s alpha0 phi0 dphi0 (phiAt obj opts) c = (.ok (alpha, phi, xn), c')) :
    EnoughAt obj R x s ls.c1 phi0 dphi0 alpha ∧
    ∃ k < ls.finiteMax, ∃ n < ls.iterations, ∃ a,
      HalvedFrom obj R x s k (firstStep R ls.maxstep alpha0 s) a ∧ (∃ p, HasValue obj R x s a p) ∧
      ShrunkFrom R ls.rhoLo ls.rhoHi (EnoughAt obj R x s ls.c1 phi0 dphi0) n a alpha := by
  have hacc := C38_linesearch hR obj opts ls hms x s hlen alpha0 phi0 dphi0 alpha phi xn c c' h
  refine ⟨⟨phi, ⟨by have := hacc.2.2.1; rw [hacc.2.1] at this; exact this, hacc.2.2.2.1⟩, hacc.2.2.2.2⟩, ?_⟩
  unfold backtrackingLinesearch at h
  split at h
  · cases h
  · next h0 =>
    simp only [Bool.or_eq_true, not_or, Bool.not_eq_true', Bool.not_eq_false] at h0
    obtain ⟨v, rfl⟩ : ∃ v, alpha0 = .fin v := by cases alpha0 <;> simp_all [Fl.isFinite]
    have hv : 0 < v := by simpa [Fl.le] using h0.2
    have hf : cappedStep R ls (.fin v) s = firstStep R ls.maxstep (.fin v) s := by
      unfold cappedStep firstStep
      simp only [Bool.and_eq_true]
    rw [hf, OptM.bind_run] at h
    rcases hl : lsHalve R (phiAt obj opts) x s ls.finiteMax (firstStep R ls.maxstep (.fin v) s) c with ⟨r, c1⟩
    rw [hl] at h
    cases r with
    | fail => cases h
    | panic => cases h
    | ok r =>
      obtain ⟨a, p, y⟩ := r
      simp only at h
      obtain ⟨k, hk, h1, h2, rfl⟩ := lsHalve_halved obj opts x s hlen _ _ _ _ _ _ _ hl
      obtain ⟨w, rfl, hw, -⟩ := h1.finite hR hh (firstStep_finite hR hms hv (hrep v rfl) s)
      rw [if_neg (by simp [h2.2])] at h
      obtain ⟨n, hn, h3⟩ := lsLoop_shrunk hR obj opts ls x s hlen phi0 dphi0 hh hlo hhi hle _ w p none _ _ _ _ _ hw h2 h
      exact ⟨k, hk, n, hn, .fin w, h1, ⟨p, h2⟩, h3⟩

/-- A concrete search for the step: the objective `x^2`, start 1, direction `-8`, with a refusal beyond `[-4, 4]`: the
first step 1 is halved once, the step 1/2 does not decrease enough and is replaced by 1/8. -/
example : backtrackingLinesearch (Rounding.exact ℚ)
    ⟨.fin (1 / 10), .fin (1 / 2), .fin (1 / 10), 10, 2, .pinf, 5, fun x => x⟩ [.fin 1] [.fin (-8)] (.fin 1) (.fin 1)
    (.fin (-16)) (phiAt ⟨fun x => match x with
      | [.fin v] => if -4 ≤ v ∧ v ≤ 4 then some (.fin (v * v)) else none
      | _ => none, fun _ => none⟩ ⟨10, 0, .fin 0⟩) 0 = (.ok (.fin (1 / 8), .fin 0, [.fin 0]), 3) := by
  decide +kernel

/-- C38: the default line search, in `f64`: no limit on the step, at most 999 reductions, each to a step between a tenth
and a half of the one before, until the objective has decreased by a ten-thousandth of what the slope promises. -/
theorem C38_default (sqrt : Fl ℚ → Fl ℚ) (finiteMax : Nat) (obj : Objective ℚ) (opts : OptimOptions ℚ) (x s : List (Fl ℚ))
    (hlen : x.length = s.length) (alpha0 : Fl ℚ) (hrep : alpha0.Rep binary64) (phi0 dphi0 alpha phi : Fl ℚ)
    (xn : List (Fl ℚ)) (c c' : Nat)
    (h : backtrackingLinesearch binary64 (BackTracking.default sqrt finiteMax) x s alpha0 phi0 dphi0 (phiAt obj opts) c =
      (.ok (alpha, phi, xn), c')) :
    EnoughAt obj binary64 x s (binary64.rnd (1 / 10000)) phi0 dphi0 alpha ∧
    ∃ k < finiteMax, ∃ n < 1000, ∃ a, HalvedFrom obj binary64 x s k alpha0 a ∧ (∃ p, HasValue obj binary64 x s a p) ∧
      ShrunkFrom binary64 (binary64.rnd (1 / 10)) (binary64.rnd (1 / 2))
        (EnoughAt obj binary64 x s (binary64.rnd (1 / 10000)) phi0 dphi0) n a alpha := by
  have key : ∃ lo hi : ℚ, binary64.rnd (1 / 10) = .fin lo ∧ binary64.rnd (1 / 2) = .fin hi ∧ lo ≤ hi := by
    refine ⟨3602879701896397 / 36028797018963968, 1 / 2, ?_, ?_, ?_⟩ <;> decide +kernel
  obtain ⟨lo, hi, h1, h2, h3⟩ := key
  exact C38_steps binary64_lawful (by decide +kernel) obj opts (BackTracking.default sqrt finiteMax) h1 h2 h3 rfl x s hlen
    alpha0 hrep phi0 dphi0 alpha phi xn c c' h

/-! ## The interpolated steps -/

theorem ex_add (x y : K) : (Rounding.exact K).add (.fin x) (.fin y) = .fin (x + y) := rfl
theorem ex_mul (x y : K) : (Rounding.exact K).mul (.fin x) (.fin y) = .fin (x * y) := rfl
theorem ex_rnd (x : K) : (Rounding.exact K).rnd x = .fin x := rfl
theorem ex_neg (x : K) : (Fl.fin x).neg = .fin (-x) := rfl
theorem ex_sub (x y : K) : (Rounding.exact K).sub (.fin x) (.fin y) = .fin (x - y) := by
  simp [Rounding.sub, Rounding.exact, Rounding.add, Fl.neg, sub_eq_add_neg]
theorem ex_div (x : K) {y : K} (h : y ≠ 0) : (Rounding.exact K).div (.fin x) (.fin y) = .fin (x / y) := by
  simp [Rounding.div, h, Rounding.exact]

theorem feq_fin (x : K) : (Fl.fin x).feq (.fin 0) = decide (x = 0) := by
  have : ((Fl.fin x).feq (.fin 0) = true) ↔ x = 0 := by
    rw [le_antisymm_iff (a := x)]
    simp only [Fl.feq, Fl.le, Bool.and_eq_true, decide_eq_true_eq]
  by_cases h : x = 0
  · rw [this.mpr h, h]; simp
  · rw [Bool.eq_false_iff.mpr fun hh => h (this.mp hh)]; simp [h]

theorem quadraticStep_exact (a phi phi0 d : K) :
    quadraticStep (Rounding.exact K) (.fin a) (.fin phi) (.fin phi0) (.fin d) =
      if 2 * (phi - phi0 - d * a) = 0 then none else some (.fin (-(d * a * a) / (2 * (phi - phi0 - d * a)))) := by
  unfold quadraticStep
  simp only [ex_rnd, ex_mul, ex_sub, ex_neg]
  by_cases h : 2 * (phi - phi0 - d * a) = 0
  · rw [if_pos h, if_pos (by simp [feq_fin, h])]
  · rw [if_neg h, if_neg (by simpa [feq_fin, Fl.isFinite] using h), ex_div _ h]
    rfl

theorem quadratic_interpolated {a phi phi0 d : K} (ha : a ≠ 0) :
    ∃ b t, (quadraticStep (Rounding.exact K) (.fin a) (.fin phi) (.fin phi0) (.fin d)).getD
      ((Rounding.exact K).mul (.fin a) ((Rounding.exact K).rnd (1 / 2))) = .fin t ∧
      phi0 + d * a + b * a ^ 2 = phi ∧ ParabolaStep d b a t := by
  rw [quadraticStep_exact]
  set D := phi - phi0 - d * a with hD
  refine ⟨D / a ^ 2, if D = 0 then a / 2 else -(d * a * a) / (2 * D), ?_, ?_, ?_⟩
  · by_cases h : D = 0
    · rw [if_pos (by rw [h, mul_zero]), if_pos h, ex_rnd, Option.getD_none, ex_mul]
      congr 1; ring
    · rw [if_neg (mul_ne_zero two_ne_zero h), if_neg h, Option.getD_some]
  · rw [div_mul_cancel₀ _ (pow_ne_zero 2 ha), hD]; ring
  · by_cases h : D = 0
    · rw [if_pos h, h, zero_div]; exact .inr ⟨rfl, rfl⟩
    · rw [if_neg h]
      refine .inl ⟨div_ne_zero h (pow_ne_zero 2 ha), ?_⟩
      field_simp
      ring

theorem cubicStep_exact (ls : BackTracking K) {a phi a' phi' phi0 d c b : K} (ha : a ≠ 0) (ha' : a' ≠ 0) (hne : a' ≠ a)
    (h1 : phi0 + d * a + b * a ^ 2 + c * a ^ 3 = phi) (h2 : phi0 + d * a' + b * a' ^ 2 + c * a' ^ 3 = phi')
    {r : K} (hr : ls.sqrt (.fin (max (b ^ 2 - 3 * c * d) 0)) = .fin r) :
    cubicStep (Rounding.exact K) ls (.fin a) (.fin phi) (.fin a') (.fin phi') (.fin phi0) (.fin d) =
      if |c| ≤ 1 / 2 ^ 52 then (if b = 0 then none else some (.fin (-d / (2 * b)))) else some (.fin ((-b + r) / (3 * c))) := by
  have hden : a * a * a' * a' * (a' - a) ≠ 0 :=
    mul_ne_zero (mul_ne_zero (mul_ne_zero (mul_ne_zero ha ha) ha') ha') (sub_ne_zero.mpr hne)
  have eA : (a * a * (phi' - phi0 - d * a') - a' * a' * (phi - phi0 - d * a)) / (a * a * a' * a' * (a' - a)) = c := by
    rw [div_eq_iff hden, ← h1, ← h2]; ring
  have eB : (-a * a * a * (phi' - phi0 - d * a') + a' * a' * a' * (phi - phi0 - d * a)) / (a * a * a' * a' * (a' - a)) = b := by
    rw [div_eq_iff hden, ← h1, ← h2]; ring
  unfold cubicStep
  simp only [ex_mul, ex_sub, ex_neg]
  rw [if_neg (by simpa [feq_fin, Fl.isFinite] using hden)]
  simp only [ex_add, ex_div _ hden, eA, eB]
  rw [if_neg (by simp [Fl.isFinite])]
  by_cases hc : |c| ≤ 1 / 2 ^ 52
  · have : ((Fl.fin c).abs.le ((Rounding.exact K).rnd (1 / 2 ^ 52))) = true := by
      rw [ex_rnd]
      simpa [Fl.abs, Fl.le, abs] using hc
    rw [if_pos this, if_pos hc]
    simp only [ex_rnd, ex_mul]
    by_cases hb : b = 0
    · rw [if_pos hb]; simp [feq_fin, hb]
    · rw [if_neg hb]
      simp [feq_fin, hb, Fl.isFinite, ex_div _ (mul_ne_zero (two_ne_zero (α := K)) hb)]
  · have : ¬ ((Fl.fin c).abs.le ((Rounding.exact K).rnd (1 / 2 ^ 52))) = true := by
      rw [ex_rnd]
      simpa [Fl.abs, Fl.le, abs] using hc
    rw [if_neg this, if_neg hc]
    have hc0 : c ≠ 0 := by
      rintro rfl
      exact hc (by rw [abs_zero]; positivity)
    have hmax : (((Fl.fin (b * b - 3 * c * d)).max (.fin 0)) : Fl K) = .fin (max (b ^ 2 - 3 * c * d) 0) := by
      rw [← pow_two]
      simp only [Fl.max, Fl.isNan, Bool.false_eq_true, if_false, Fl.lt, decide_eq_true_eq]
      split
      · next h => rw [max_eq_right h.le]
      · next h => rw [max_eq_left (not_lt.mp h)]
    simp only [ex_rnd, ex_mul, ex_sub]
    simp only [hmax, hr, ex_add, ex_neg, ex_div _ (mul_ne_zero (three_ne_zero (α := K)) hc0)]
    rfl



/-- The trial step of the line search is the interpolated one. -/
theorem trialStep_interpolated (ls : BackTracking K) (hs : ∀ x, 0 ≤ x → ∃ r, 0 ≤ r ∧ ls.sqrt (.fin x) = .fin r ∧ r * r = x)
    {a phi phi0 d : K} (ha : 0 < a) (prev : Option (K × K)) (hp : ∀ q ∈ prev, 0 < q.1 ∧ q.1 ≠ a) :
    ∃ t, trialStep (Rounding.exact K) ls (.fin phi0) (.fin d) (.fin a) (.fin phi)
      (prev.map fun q => (.fin q.1, .fin q.2)) = .fin t ∧ InterpolatedStep ls.order phi0 d prev a phi t := by
  obtain ⟨bq, tq, hq1, hq2, hq3⟩ := quadratic_interpolated (a := a) (phi := phi) (phi0 := phi0) (d := d) ha.ne'
  unfold trialStep InterpolatedStep
  cases prev with
  | none => simp only [Option.map_none, ite_self]; exact ⟨tq, hq1, bq, hq2, hq3⟩
  | some q =>
    obtain ⟨a', phi'⟩ := q
    obtain ⟨hp0, hpne⟩ := hp _ rfl
    simp only [Option.map_some]
    by_cases ho : ls.order < 3
    · simp only [ho, if_true]; exact ⟨tq, hq1, bq, hq2, hq3⟩
    · simp only [ho, if_false]
      have hden : a * a * a' * a' * (a' - a) ≠ 0 :=
        mul_ne_zero (mul_ne_zero (mul_ne_zero (mul_ne_zero ha.ne' ha.ne') hp0.ne') hp0.ne') (sub_ne_zero.mpr hpne)
      have hsub : a' - a ≠ 0 := sub_ne_zero.mpr hpne
      have ha0 := ha.ne'
      have ha'0 := hp0.ne'
      obtain ⟨c, b, h1, h2⟩ : ∃ c b, phi0 + d * a + b * a ^ 2 + c * a ^ 3 = phi ∧
          phi0 + d * a' + b * a' ^ 2 + c * a' ^ 3 = phi' := by
        refine ⟨(a * a * (phi' - phi0 - d * a') - a' * a' * (phi - phi0 - d * a)) / (a * a * a' * a' * (a' - a)),
          (-a * a * a * (phi' - phi0 - d * a') + a' * a' * a' * (phi - phi0 - d * a)) / (a * a * a' * a' * (a' - a)), ?_, ?_⟩
        · field_simp; ring
        · field_simp; ring
      obtain ⟨r, hr0, hr, hrr⟩ := hs (max (b ^ 2 - 3 * c * d) 0) (le_max_right _ _)
      rw [cubicStep_exact ls ha.ne' hp0.ne' hpne h1 h2 hr]
      by_cases hc : |c| ≤ 1 / 2 ^ 52
      · simp only [hc, if_true]
        by_cases hb : b = 0
        · rw [if_pos hb, Option.getD_none, ex_rnd, ex_mul]
          exact ⟨_, rfl, c, b, h1, h2, fun _ => .inr ⟨hb, by ring⟩, fun h => absurd hc (not_le.mpr h),
            fun h => absurd hc (not_le.mpr h)⟩
        · rw [if_neg hb, Option.getD_some]
          refine ⟨_, rfl, c, b, h1, h2, fun _ => .inl ⟨hb, ?_⟩, fun h => absurd hc (not_le.mpr h),
            fun h => absurd hc (not_le.mpr h)⟩
          field_simp
          ring
      · rw [if_neg hc, Option.getD_some]
        have hc0 : c ≠ 0 := by
          rintro rfl
          exact hc (by rw [abs_zero]; positivity)
        refine ⟨_, rfl, c, b, h1, h2, fun h => absurd h hc, fun _ hd => ⟨?_, ?_⟩, fun _ hd => ?_⟩
        · rw [max_eq_left hd] at hrr
          have e : d + 2 * b * ((-b + r) / (3 * c)) + 3 * c * ((-b + r) / (3 * c)) ^ 2 =
              (r * r - (b ^ 2 - 3 * c * d)) / (3 * c) := by field_simp; ring
          rw [e, hrr, sub_self, zero_div]
        · have e : 2 * b + 6 * c * ((-b + r) / (3 * c)) = 2 * r := by field_simp; ring
          rw [e]; positivity
        · rw [max_eq_right hd.le] at hrr
          have hr00 : r = 0 := by simpa using hrr
          rw [hr00]
          field_simp
          ring

theorem clampStep_exact (ls : BackTracking K) {lo hi : K} (hlo : ls.rhoLo = .fin lo) (hhi : ls.rhoHi = .fin hi) (a t : K) :
    clampStep (Rounding.exact K) ls (.fin a) (.fin t) = .fin (max (lo * a) (min (hi * a) t)) := by
  unfold clampStep
  simp only [hlo, hhi, ex_mul]
  have e1 : (if (Fl.fin (hi * a)).lt (.fin t) = true then Fl.fin (hi * a) else .fin t) = .fin (min (hi * a) t) := by
    simp only [Fl.lt, decide_eq_true_eq]
    split
    · next h => rw [min_eq_left h.le]
    · next h => rw [min_eq_right (not_lt.mp h)]
  rw [e1]
  simp only [Fl.lt, decide_eq_true_eq]
  split
  · next h => rw [max_eq_left h.le]
  · next h => rw [max_eq_right (not_lt.mp h)]

theorem lsLoop_backtracks (obj : Objective K) (opts : OptimOptions K) (ls : BackTracking K) (x s : List (Fl K))
    (hlen : x.length = s.length) (hs : ∀ x, 0 ≤ x → ∃ r, 0 ≤ r ∧ ls.sqrt (.fin x) = .fin r ∧ r * r = x)
    {c1 lo hi phi0 d : K} (hc1 : ls.c1 = .fin c1) (hlo : ls.rhoLo = .fin lo) (hhi : ls.rhoHi = .fin hi) (h0 : 0 < lo)
    (hle : lo ≤ hi) (h1 : hi < 1) (n : Nat) :
    ∀ (a phi : K) (prev : Option (K × K)) (b phi' : Fl K) (xn xn' : List (Fl K)) (c c' : Nat), 0 < a →
      (∀ q ∈ prev, 0 < q.1 ∧ q.1 ≠ a) →
      lsLoop (Rounding.exact K) ls (phiAt obj opts) x s (.fin phi0) (.fin d) n (.fin a) (.fin phi) xn
        (prev.map fun q => (.fin q.1, .fin q.2)) c = (.ok (b, phi', xn'), c') →
      ∃ v, b = .fin v ∧ Backtracks obj x s ls.order c1 lo hi phi0 d prev a phi v := by
  induction n with
  | zero => intro a phi prev b phi' xn xn' c c' _ _ h; cases h
  | succ n ih =>
    intro a phi prev b phi' xn xn' c c' ha hp h
    have harm : ((Fl.fin phi).le (armijoRhs (Rounding.exact K) ls.c1 (.fin phi0) (.fin d) (.fin a)) = true) ↔
        phi ≤ phi0 + c1 * a * d := by
      unfold armijoRhs
      rw [hc1, ex_mul, ex_mul, ex_add]
      simp [Fl.le]
    unfold lsLoop at h
    split at h
    · next hacc => cases h; exact ⟨a, rfl, .done (harm.mp hacc)⟩
    · next hrej =>
      simp only at h
      obtain ⟨t, ht, hint⟩ := trialStep_interpolated ls hs (phi := phi) (phi0 := phi0) (d := d) ha prev hp
      rw [ht, clampStep_exact ls hlo hhi] at h
      set a' := max (lo * a) (min (hi * a) t) with ha'
      have hpos : 0 < a' := lt_of_lt_of_le (mul_pos h0 ha) (le_max_left _ _)
      have hlt : a' < a := by
        have e1 : lo * a < a := by nlinarith
        have e2 : hi * a < a := by nlinarith
        exact max_lt e1 (lt_of_le_of_lt (min_le_left _ _) e2)
      rw [if_neg (by simp [Fl.isFinite, Fl.le, hpos])] at h
      rw [OptM.bind_run, axpy_run x s hlen] at h
      simp only at h
      rw [OptM.bind_run] at h
      by_cases hc : exhausted opts c = true
      · have : phiAt obj opts (pointAt (Rounding.exact K) x s (.fin a')) c = (.ok none, c) := by unfold phiAt; rw [if_pos hc]
        rw [this] at h
        cases h
      · have : phiAt obj opts (pointAt (Rounding.exact K) x s (.fin a')) c =
            (.ok ((obj.fOnly (pointAt (Rounding.exact K) x s (.fin a'))).filter Fl.isFinite), c + 1) := by
          unfold phiAt; rw [if_neg hc]
        rw [this] at h
        simp only at h
        rw [OptM.bind_run] at h
        cases e : (obj.fOnly (pointAt (Rounding.exact K) x s (.fin a'))).filter Fl.isFinite with
        | none => rw [e] at h; cases h
        | some p =>
          rw [e] at h
          have he := Option.filter_eq_some_iff.mp e
          change (if (!p.isFinite) = true then OptM.fail else
            lsLoop (Rounding.exact K) ls (phiAt obj opts) x s (.fin phi0) (.fin d) n (.fin a') p
              (pointAt (Rounding.exact K) x s (.fin a')) (some (.fin a, .fin phi))) (c + 1) = _ at h
          rw [if_neg (by simp [he.2])] at h
          obtain ⟨v, rfl⟩ : ∃ v, p = .fin v := by cases p <;> simp_all [Fl.isFinite]
          obtain ⟨w, hw, hb⟩ := ih a' v (some (a, phi)) b phi' _ xn' _ _ hpos
            (by rintro q hq; cases hq; exact ⟨ha, hlt.ne'⟩) h
          exact ⟨w, hw, .step (fun hh => hrej (harm.mpr hh)) hint ⟨he.1, he.2⟩ hb⟩

/-- C38: in exact arithmetic the steps after the halving are those of textbook backtracking with quadratic and cubic
interpolation. -/
theorem C38_interpolation (obj : Objective K) (opts : OptimOptions K) (ls : BackTracking K) (x s : List (Fl K))
    (hlen : x.length = s.length) (hs : ∀ x, 0 ≤ x → ∃ r, 0 ≤ r ∧ ls.sqrt (.fin x) = .fin r ∧ r * r = x)
    {c1 lo hi alpha0 phi0 d : K} (hc1 : ls.c1 = .fin c1) (hlo : ls.rhoLo = .fin lo) (hhi : ls.rhoHi = .fin hi) (h0 : 0 < lo)
    (hle : lo ≤ hi) (h1 : hi < 1) (hms : ls.maxstep = .pinf) (alpha phi : Fl K) (xn : List (Fl K)) (c c' : Nat)
    (h : backtrackingLinesearch (Rounding.exact K) ls x s (.fin alpha0) (.fin phi0) (.fin d) (phiAt obj opts) c =
      (.ok (alpha, phi, xn), c')) :
    ∃ k < ls.finiteMax, ∃ a p v, HalvedFrom obj (Rounding.exact K) x s k (.fin alpha0) (.fin a) ∧
      HasValue obj (Rounding.exact K) x s (.fin a) (.fin p) ∧ alpha = .fin v ∧
      Backtracks obj x s ls.order c1 lo hi phi0 d none a p v := by
  unfold backtrackingLinesearch at h
  split at h
  · cases h
  · next hh =>
    simp only [Bool.or_eq_true, not_or, Bool.not_eq_true', Bool.not_eq_false] at hh
    have hv : 0 < alpha0 := by simpa [Fl.le] using hh.2
    have hf : cappedStep (Rounding.exact K) ls (.fin alpha0) s = .fin alpha0 := by
      unfold cappedStep; rw [hms]; simp [Fl.isFinite]
    rw [hf, OptM.bind_run] at h
    rcases hl : lsHalve (Rounding.exact K) (phiAt obj opts) x s ls.finiteMax (.fin alpha0) c with ⟨r, c1'⟩
    rw [hl] at h
    cases r with
    | fail => cases h
    | panic => cases h
    | ok r =>
      obtain ⟨a, p, y⟩ := r
      simp only at h
      obtain ⟨k, hk, e1, e2, rfl⟩ := lsHalve_halved obj opts x s hlen _ _ _ _ _ _ _ hl
      have hpos : ∀ {k : Nat} {a b : Fl K}, HalvedFrom obj (Rounding.exact K) x s k a b → (∃ v : K, a = .fin v ∧ 0 < v) →
          ∃ v : K, b = .fin v ∧ 0 < v := by
        intro k a b hab
        induction hab with
        | done => exact id
        | half _ _ ih =>
          rintro ⟨v, rfl, hv⟩
          exact ih ⟨v * (1 / 2), rfl, by positivity⟩
      obtain ⟨w, rfl, hw⟩ := hpos e1 ⟨alpha0, rfl, hv⟩
      rw [if_neg (by simp [e2.2])] at h
      obtain ⟨q, rfl⟩ : ∃ q, p = .fin q := by
        have := e2.2
        cases p <;> simp_all [Fl.isFinite]
      obtain ⟨v, rfl, hb⟩ := lsLoop_backtracks obj opts ls x s hlen hs hc1 hlo hhi h0 hle h1 _ w q none _ _ _ _ _ _ hw
        (by rintro q hq; cases hq) h
      exact ⟨k, hk, w, q, v, e1, e2, rfl, hb⟩

/-- The parabola `x^2 - x` and the cubic `x^3 - 3x`. -/
example : InterpolatedStep 3 (0 : ℚ) (-1) none 4 12 (1 / 2) ∧ InterpolatedStep 3 (0 : ℚ) (-3) (some (4, 52)) 2 2 1 := by
  constructor
  · exact ⟨1, by norm_num, .inl ⟨by norm_num, by norm_num⟩⟩
  · refine ⟨1, 0, by norm_num, by norm_num, ?_, ?_, ?_⟩ <;> norm_num

/-- A search over the reals with cubic interpolation. -/
noncomputable def realSearch : BackTracking ℝ :=
  ⟨.fin (1 / 10), .fin (1 / 2), .fin (1 / 10), 10, 3, .pinf, 5, fun x => match x with | .fin v => .fin (√v) | y => y⟩

/-- The objective `x ^ 2`. -/
def squareObj : Objective ℝ := ⟨fun x => match x with | [.fin v] => some (.fin (v * v)) | _ => none, fun _ => none⟩

/-- It meets the hypotheses of `C38_interpolation`. -/
example : (∀ x, 0 ≤ x → ∃ r, 0 ≤ r ∧ realSearch.sqrt (.fin x) = .fin r ∧ r * r = x) :=
  fun x hx => ⟨√x, Real.sqrt_nonneg x, rfl, Real.mul_self_sqrt hx⟩

/-- Its run on `x ^ 2` from 1 along `-8`: the step 1/2 is refused, the parabola gives the minimum, at 1/8. -/
example : backtrackingLinesearch (Rounding.exact ℝ) realSearch [.fin 1] [.fin (-8)] (.fin (1/2)) (.fin 1)
    (.fin (-16)) (phiAt squareObj ⟨10, 0, .fin 0⟩) 0 = (.ok (.fin (1 / 8), .fin 0, [.fin 0]), 2) := by
  have p1 : pointAt (Rounding.exact ℝ) [.fin 1] [.fin (-8)] (.fin (1 / 2)) = [.fin (-3)] := by
    simp only [pointAt, List.zipWith, ex_mul, ex_add]; norm_num
  have p2 : pointAt (Rounding.exact ℝ) [.fin 1] [.fin (-8)] (.fin (1 / 8)) = [.fin 0] := by
    simp only [pointAt, List.zipWith, ex_mul, ex_add]; norm_num
  have f : ∀ (v : ℝ) c, phiAt squareObj ⟨10, 0, .fin 0⟩ [.fin v] c = (.ok (some (.fin (v * v))), c + 1) := by
    intro v c; simp [phiAt, exhausted, squareObj, Option.filter, Fl.isFinite]
  unfold backtrackingLinesearch
  rw [if_neg (by simp [Fl.isFinite, Fl.le])]
  have hcap : cappedStep (Rounding.exact ℝ) realSearch (.fin (1 / 2)) [.fin (-8)] = .fin (1 / 2) := by
    unfold cappedStep; simp [realSearch, Fl.isFinite]
  have hh : lsHalve (Rounding.exact ℝ) (phiAt squareObj ⟨10, 0, .fin 0⟩) [.fin 1] [.fin (-8)] 5 (.fin (1 / 2)) 0 =
      (.ok (.fin (1 / 2), .fin 9, [.fin (-3)]), 1) := by
    unfold lsHalve
    rw [OptM.bind_run, axpy_run [.fin 1] [.fin (-8)] rfl, p1]
    simp only
    rw [OptM.bind_run, f]
    simp only [finiteSome, Fl.isFinite]
    norm_num
    rfl
  rw [hcap, OptM.bind_run, show realSearch.finiteMax = 5 from rfl, hh]
  simp only
  rw [if_neg (by simp [Fl.isFinite]), show realSearch.iterations = 10 from rfl]
  unfold lsLoop
  rw [if_neg (by simp only [armijoRhs, realSearch, ex_mul, ex_add, Fl.le]; norm_num)]
  have ht : trialStep (Rounding.exact ℝ) realSearch (.fin 1) (.fin (-16)) (.fin (1 / 2)) (.fin 9) none = .fin (1 / 8) := by
    unfold trialStep
    simp only [ite_self]
    rw [quadraticStep_exact, if_neg (by norm_num)]
    simp only [Option.getD_some]
    norm_num
  rw [ht, clampStep_exact realSearch (lo := 1/10) (hi := 1/2) rfl rfl]
  have hc : max (1 / 10 * (1 / 2)) (min (1 / 2 * (1 / 2)) (1 / 8)) = (1 / 8 : ℝ) := by norm_num
  rw [hc]
  simp only
  rw [if_neg (by simp [Fl.isFinite, Fl.le]), OptM.bind_run, axpy_run [.fin 1] [.fin (-8)] rfl, p2]
  simp only
  rw [OptM.bind_run, f]
  simp only
  rw [OptM.bind_run]
  show (if _ then OptM.fail else _ : OptM (Fl ℝ × Fl ℝ × List (Fl ℝ))) _ = _
  rw [if_neg (by simp [Fl.isFinite])]
  unfold lsLoop
  rw [if_pos (by simp only [armijoRhs, realSearch, ex_mul, ex_add, Fl.le]; norm_num)]
  show (Res.ok _, _) = _
  norm_num
end SR
