import Verif.Spec.AccuracyEps
import Verif.Props.AccuracyMore
import Mathlib.Tactic.Linarith
import Mathlib.Tactic.Positivity
/-
C97, the epsilon-insensitive loss: an absolute bound.
-/
namespace SR
namespace Accuracy

section
variable {K : Type} [Field K] [LinearOrder K] [IsStrictOrderedRing K] {R : Rounding K} {u tiny : K}

/-- Rounding any number, however small: the relative error of one that is larger by `η`. -/
theorem rnd_near (P : R.Precise u tiny) (h1 : R.rnd tiny = .fin tiny) (h2 : R.rnd (-tiny) = .fin (-tiny)) {η : K} (hη : 2 * tiny ≤ u * η)
    {x z : K} (h : R.rnd x = .fin z) : |z - x| ≤ u * (|x| + η) := by
  have u0 := P.u_nonneg
  have t0 := P.tiny_pos
  by_cases c : tiny ≤ |x|
  · have := P.error x z c h
    linarith
  · have c := abs_lt.mp (not_le.mp c)
    have m1 := P.lawful.mono c.1.le
    have m2 := P.lawful.mono c.2.le
    rw [h1, h] at m2
    rw [h2, h] at m1
    have m1 : -tiny ≤ z := by simpa [Fl.le] using m1
    have m2 : z ≤ tiny := by simpa [Fl.le] using m2
    have := mul_nonneg u0 (abs_nonneg x)
    rw [abs_le]
    constructor <;> linarith [c.1, c.2]

theorem pow_close (u0 : 0 ≤ u) (u1 : u < 1) {m : Nat} (hm : m * u ≤ 1 / 2) : (1 + u) ^ m ≤ 1 + 2 * m * u := by
  have := (near_close u0 u1 hm (x := 1) (y := (1 + u) ^ m) zero_le_one ⟨by
    rw [mul_one]
    exact pow_le_pow_left₀ (by linarith) (by linarith) m, by rw [mul_one]⟩)
  linarith [(abs_le.mp this).2]

/-- Adding up numbers that are not negative. -/
theorem sum_rnd {η : K} (A : ∀ x z : K, R.rnd x = .fin z → |z - x| ≤ u * (|x| + η)) (u0 : 0 ≤ u) (hη : 0 ≤ η) :
    ∀ (zs : List K), (∀ z ∈ zs, 0 ≤ z) → ∀ (m : Nat) (T s S : K), 0 ≤ T → |s - T| ≤ ((1 + u) ^ m - 1) * (T + η) →
      (zs.map Fl.fin).foldl R.add (.fin s) = .fin S → |S - (T + zs.sum)| ≤ ((1 + u) ^ (m + zs.length) - 1) * (T + zs.sum + η) := by
  intro zs
  induction zs with
  | nil =>
    intro _ m T s S _ hn h
    simp only [List.map_nil, List.foldl_nil, Fl.fin.injEq] at h
    subst h
    simpa using hn
  | cons z zs ih =>
    intro hz m T s S hT hn h
    have z0 : 0 ≤ z := hz z (List.mem_cons_self ..)
    rw [List.map_cons, List.foldl_cons] at h
    obtain ⟨⟨s', hs'⟩, -⟩ := foldl_fin _ _ _ h
    rw [hs'] at h
    have hr : R.rnd (s + z) = .fin s' := by simpa [Rounding.add] using hs'
    have e := A _ _ hr
    have p1 : (1 : K) ≤ (1 + u) ^ m := one_le_pow₀ (by linarith)
    have pm : (0 : K) ≤ (1 + u) ^ m - 1 := by linarith
    have hb : |s - T| ≤ ((1 + u) ^ m - 1) * (T + z + η) :=
      hn.trans (mul_le_mul_of_nonneg_left (by linarith) pm)
    have hs : |s + z| ≤ |s - T| + (T + z) := by
      calc |s + z| = |(s - T) + (T + z)| := by congr 1; ring
        _ ≤ |s - T| + |T + z| := abs_add_le _ _
        _ = |s - T| + (T + z) := by rw [abs_of_nonneg (show 0 ≤ T + z by linarith)]
    have hstep : |s' - (T + z)| ≤ ((1 + u) ^ (m + 1) - 1) * (T + z + η) := by
      calc |s' - (T + z)| = |(s' - (s + z)) + (s - T)| := by congr 1; ring
        _ ≤ |s' - (s + z)| + |s - T| := abs_add_le _ _
        _ ≤ u * (|s - T| + (T + z) + η) + |s - T| := by
          have := mul_le_mul_of_nonneg_left (add_le_add_left hs η) u0
          linarith
        _ = u * (T + z + η) + (1 + u) * |s - T| := by ring
        _ ≤ u * (T + z + η) + (1 + u) * (((1 + u) ^ m - 1) * (T + z + η)) := by
          have := mul_le_mul_of_nonneg_left hb (show 0 ≤ 1 + u by linarith)
          linarith
        _ = ((1 + u) ^ (m + 1) - 1) * (T + z + η) := by ring
    have := ih (fun w hw => hz w (List.mem_cons_of_mem _ hw)) (m + 1) (T + z) s' S (by linarith) hstep h
    rw [List.sum_cons, List.length_cons, ← add_assoc]
    rwa [show m + (zs.length + 1) = m + 1 + zs.length by omega]

/-- One row of the epsilon-insensitive loss. -/
theorem eps_point {ε : K} (A : ∀ x z : K, R.rnd x = .fin z → |z - x| ≤ u * (|x| + ε)) (hL : R.Lawful) (hεr : R.rnd (-ε) = .fin (-ε)) {lib : LossLib K}
    (u0 : 0 ≤ u) (u1 : u ≤ 1) (hε : 0 ≤ ε) {a b z : K} (h : (PointLoss.epsIns (.fin ε)).loss R lib (.fin a) (.fin b) = .fin z) :
    0 ≤ z ∧ |z - epsLoss ε (a - b)| ≤ 4 * u * (|a - b| + ε) := by
  simp only [PointLoss.loss, sub_fin] at h
  have hv : ∃ v, R.rnd (a - b) = .fin v := by
    have := hL.not_nan (a - b)
    cases hr : R.rnd (a - b) with
    | fin v => exact ⟨v, rfl⟩
    | nan => rw [hr] at this; cases this
    | pinf => rw [hr] at h; simp [Fl.abs, Rounding.sub, Rounding.add, Fl.neg, Fl.lt] at h
    | ninf => rw [hr] at h; simp [Fl.abs, Rounding.sub, Rounding.add, Fl.neg, Fl.lt] at h
  obtain ⟨v, hv⟩ := hv
  rw [hv, show (Fl.fin v : Fl K).abs = .fin |v| from rfl, sub_fin] at h
  have e1 := A _ _ hv
  have d1 : |(|v| - |a - b|)| ≤ u * (|a - b| + ε) := (abs_abs_sub_abs_le_abs_sub v (a - b)).trans e1
  have hw : ∃ w, R.rnd (|v| - ε) = .fin w ∨ (R.rnd (|v| - ε) = .ninf ∧ z = 0) := by
    have := hL.not_nan (|v| - ε)
    cases hr : R.rnd (|v| - ε) with
    | fin w => exact ⟨w, .inl rfl⟩
    | nan => rw [hr] at this; cases this
    | pinf => rw [hr] at h; simp [Fl.lt] at h
    | ninf => rw [hr] at h; simp [Fl.lt] at h; exact ⟨0, .inr ⟨rfl, h.symm⟩⟩
  obtain ⟨w, hw | ⟨hw, rfl⟩⟩ := hw
  · rw [hw] at h
    have e2 := A _ _ hw
    have hz : z = max 0 w := by
      by_cases c : 0 < w
      · rw [if_pos (by simpa [Fl.lt] using c)] at h
        cases h; rw [max_eq_right c.le]
      · rw [if_neg (by simpa [Fl.lt] using c)] at h
        cases h; rw [max_eq_left (not_lt.mp c)]
    subst hz
    refine ⟨le_max_left _ _, ?_⟩
    have l1 : |max 0 w - max 0 (|a - b| - ε)| ≤ |w - (|a - b| - ε)| := by
      have := abs_max_sub_max_le_abs w (|a - b| - ε) 0
      rwa [max_comm w, max_comm (|a - b| - ε)] at this
    have hv1 : |v| ≤ |a - b| + u * (|a - b| + ε) := by linarith [(abs_le.mp d1).2]
    have l2 : |(|v| - ε)| ≤ |v| + ε := by
      rw [abs_le]; constructor <;> linarith [abs_nonneg v]
    have hr0 := abs_nonneg (a - b)
    have hu2 : u * (|a - b| + ε) ≤ |a - b| + ε := mul_le_of_le_one_left (by linarith) u1
    have l3 : |(|v| - ε)| + ε ≤ 3 * (|a - b| + ε) := by linarith
    have l4 := mul_le_mul_of_nonneg_left l3 u0
    calc |max 0 w - epsLoss ε (a - b)| ≤ |w - (|a - b| - ε)| := l1
      _ = |(w - (|v| - ε)) + (|v| - |a - b|)| := by congr 1; ring
      _ ≤ |w - (|v| - ε)| + |(|v| - |a - b|)| := abs_add_le _ _
      _ ≤ 4 * u * (|a - b| + ε) := by linarith
  · have : (-ε : K) ≤ |v| - ε := by linarith [abs_nonneg v]
    have := hL.mono this
    rw [hεr, hw] at this
    simp [Fl.le] at this

theorem eps_rows {ε : K} (A : ∀ x z : K, R.rnd x = .fin z → |z - x| ≤ u * (|x| + ε)) (hL : R.Lawful) (hεr : R.rnd (-ε) = .fin (-ε)) {lib : LossLib K}
    (u0 : 0 ≤ u) (u1 : u ≤ 1) (hε : 0 ≤ ε) : ∀ (yhat y zs : List K), yhat.length = y.length →
      List.zipWith ((PointLoss.epsIns (.fin ε)).loss R lib) (yhat.map Fl.fin) (y.map Fl.fin) = zs.map Fl.fin →
      (∀ z ∈ zs, 0 ≤ z) ∧ zs.length = y.length ∧
        |zs.sum - ((residuals yhat y).map (epsLoss ε)).sum| ≤ 4 * u * (((residuals yhat y).map fun r => |r|).sum + y.length * ε)
  | [], [], zs, _, h => by
    cases zs with
    | nil => simp [residuals]
    | cons _ _ => simp at h
  | a :: yhat, b :: y, [], _, h => by simp at h
  | a :: yhat, b :: y, z :: zs, hlen, h => by
    simp only [List.map_cons, List.zipWith_cons_cons, List.cons.injEq] at h
    obtain ⟨h1, h2, h3⟩ := eps_rows A hL hεr u0 u1 hε yhat y zs (by simpa using hlen) h.2
    obtain ⟨p1, p2⟩ := eps_point A hL hεr u0 u1 hε h.1
    refine ⟨?_, by simp [h2], ?_⟩
    · intro w hw
      rcases List.mem_cons.mp hw with rfl | hw
      · exact p1
      · exact h1 w hw
    · rw [show residuals (a :: yhat) (b :: y) = (a - b) :: residuals yhat y from rfl]
      simp only [List.map_cons, List.sum_cons, List.length_cons]
      rw [abs_le] at p2 h3 ⊢
      push_cast
      constructor <;> linarith [p2.1, p2.2, h3.1, h3.2]

/-- The mean of the epsilon-insensitive loss. -/
theorem eps_mean (P : R.Precise u tiny) (h1 : R.rnd tiny = .fin tiny) (h2 : R.rnd (-tiny) = .fin (-tiny)) (u4 : u ≤ 1 / 4) {lib : LossLib K} {ε : K}
    (hη : 2 * tiny ≤ u * ε) (hε : 0 ≤ ε) (hεr : R.rnd (-ε) = .fin (-ε)) (yhat y : List K) (hlen : yhat.length = y.length) (hne : y ≠ [])
    (hnat : R.ofNat y.length = .fin (y.length : K)) (hn : y.length * u ≤ 1 / 2) (l : K)
    (hl : (LossKind.mean (.epsIns (.fin ε))).loss R lib (yhat.map .fin) (y.map .fin) none = some (.fin l)) :
    |l - exactMeanOf (epsLoss ε) yhat y| ≤ (y.length + 6) * (2 * u) * (meanDistance yhat y + ε) := by
  have u0 := P.u_nonneg
  have A : ∀ x z : K, R.rnd x = .fin z → |z - x| ≤ u * (|x| + ε) := fun x z h => rnd_near P h1 h2 hη h
  have hpos : (0 : K) < y.length := by exact_mod_cast List.length_pos_iff.mpr hne
  have hone : (1 : K) ≤ y.length := by exact_mod_cast List.length_pos_iff.mpr hne
  have hnil : (y.map Fl.fin).isEmpty = false := by simpa [List.isEmpty_iff] using hne
  simp only [LossKind.loss, meanLoss, List.length_map, hlen, ne_eq, not_true, if_false, hnil, Bool.false_eq_true, Option.some.injEq, hnat] at hl
  obtain ⟨s, hs, hq⟩ := div_fin hl
  obtain ⟨-, zs, hz⟩ := foldl_fin _ _ _ hs
  obtain ⟨z0, zl, zsum⟩ := eps_rows A P.lawful hεr u0 (by linarith) hε yhat y zs hlen hz
  rw [hz] at hs
  have hsum := sum_rnd A u0 hε zs z0 0 0 0 s (le_refl _) (by simp) hs
  rw [zero_add, zero_add, zl] at hsum
  have hdiv := A _ _ (hq hpos.ne')
  have hpow := pow_close u0 P.u_lt hn
  -- everything divided by the number of rows
  set n : K := (y.length : K) with hn'
  set m : K := zs.sum / n with hm
  set q : K := s / n with hqd
  have hM : exactMeanOf (epsLoss ε) yhat y = ((residuals yhat y).map (epsLoss ε)).sum / n := rfl
  have hD : meanDistance yhat y = ((residuals yhat y).map fun r => |r|).sum / n := rfl
  set L : K := exactMeanOf (epsLoss ε) yhat y
  set D : K := meanDistance yhat y
  have D0 : 0 ≤ D := by
    rw [hD]
    refine div_nonneg (List.sum_nonneg fun x hx => ?_) hpos.le
    obtain ⟨v, _, rfl⟩ := List.mem_map.mp hx
    exact abs_nonneg v
  have LD : L ≤ D := by
    rw [hM, hD]
    gcongr
    refine List.sum_le_sum fun r _ => ?_
    exact max_le (abs_nonneg r) (by linarith)
  have m0 : 0 ≤ m := div_nonneg (List.sum_nonneg z0) hpos.le
  have k1 : |m - L| ≤ 4 * u * (D + ε) := by
    rw [hM, hm, ← sub_div, abs_div, abs_of_pos hpos, div_le_iff₀ hpos]
    refine zsum.trans (le_of_eq ?_)
    rw [hD, mul_assoc, mul_assoc, mul_assoc, add_mul, div_mul_cancel₀ _ hpos.ne', mul_comm ε n]
  have B0 : 0 ≤ D + ε := by linarith
  have uB : u * (D + ε) ≤ 1 / 4 * (D + ε) := mul_le_mul_of_nonneg_right u4 B0
  have m1 : m ≤ D + 4 * u * (D + ε) := by linarith [(abs_le.mp k1).2]
  have k2 : |q - m| ≤ (2 * n * u + 4 * u) * (D + ε) := by
    rw [hqd, hm, ← sub_div, abs_div, abs_of_pos hpos, div_le_iff₀ hpos]
    have e1 : zs.sum = m * n := by rw [hm, div_mul_cancel₀ _ hpos.ne']
    have e2 : zs.sum + ε ≤ (m + ε) * n := by
      rw [e1, add_mul]
      have := mul_le_mul_of_nonneg_left hone hε
      linarith
    have nu0 : 0 ≤ n * u := mul_nonneg hpos.le u0
    have e3 : ((1 + u) ^ y.length - 1) * (zs.sum + ε) ≤ 2 * n * u * ((m + ε) * n) :=
      mul_le_mul (by linarith) e2 (by rw [e1]; exact add_nonneg (mul_nonneg m0 hpos.le) hε) (by linarith)
    refine hsum.trans (e3.trans ?_)
    rw [← mul_assoc]
    refine mul_le_mul_of_nonneg_right ?_ hpos.le
    have e4 : 2 * n * u * (m + ε) ≤ 2 * n * u * (D + ε + 4 * u * (D + ε)) := mul_le_mul_of_nonneg_left (by linarith) (by linarith)
    have e5 : 2 * n * u * (4 * u * (D + ε)) ≤ 4 * u * (D + ε) := by
      have := mul_le_mul_of_nonneg_right hn (show 0 ≤ 8 * u * (D + ε) by positivity)
      linarith
    linarith
  have k3 : |l - q| ≤ 4 * u * (D + ε) := by
    refine hdiv.trans ?_
    have q1 : |q| ≤ |q - m| + m := by
      calc |q| = |(q - m) + m| := by congr 1; ring
        _ ≤ |q - m| + |m| := abs_add_le _ _
        _ = |q - m| + m := by rw [abs_of_nonneg m0]
    have nuB := mul_le_mul_of_nonneg_right hn B0
    have : |q| + ε ≤ 4 * (D + ε) := by linarith
    have := mul_le_mul_of_nonneg_left this u0
    linarith
  calc |l - L| = |(l - q) + (q - m) + (m - L)| := by congr 1; ring
    _ ≤ |l - q| + |q - m| + |m - L| := (abs_add_le _ _).trans (add_le_add_left (abs_add_le _ _) _)
    _ ≤ (n + 6) * (2 * u) * (D + ε) := by linarith

end

theorem eps_format {f : BinFormat} {e : Int} (hp : 2 ≤ f.p) (hmin : f.emin < 0) (hmax : (f.p : Int) < f.emax) (he : f.emin + f.p + 1 ≤ e)
    (lib : LossLib ℚ) {ε : ℚ} (h1 : pow2 e ≤ ε) (h2 : f.rnd ε = .fin ε) (yhat y : List ℚ) (hlen : yhat.length = y.length) (hne : y ≠ [])
    (hn : y.length ≤ 2 ^ (f.p - 1)) (l : ℚ)
    (hl : (LossKind.mean (.epsIns (.fin ε))).loss ⟨f.rnd⟩ lib (yhat.map .fin) (y.map .fin) none = some (.fin l)) :
    |l - exactMeanOf (epsLoss ε) yhat y| ≤ (y.length + 6 : Nat) * pow2 (1 - f.p) * (meanDistance yhat y + ε) := by
  have hp1 : 1 ≤ f.p := by omega
  have P := precise_format hp1 hmin.le (by omega)
  have r1 := rnd_pow2 (f := f) hp1 f.emin (by omega) (by omega)
  have hneg := (neg_half_representable hp1 (x := ε) (le_trans (pow2_le (by omega)) h1) h2).1
  have hn2 : y.length ≤ 2 ^ f.p := hn.trans (Nat.pow_le_pow_right (by norm_num) (by omega))
  have hnu : (y.length : ℚ) * pow2 (-f.p) ≤ 1 / 2 := by
    have h1 : (y.length : ℚ) ≤ pow2 ((f.p - 1 : Nat) : Int) := by rw [pow2_nat]; exact_mod_cast hn
    have h2 := mul_le_mul_of_nonneg_right h1 (pow2_pos (-f.p)).le
    rw [← pow2_add, show (((f.p - 1 : Nat) : Int) + -f.p) = -1 by omega] at h2
    rwa [show pow2 (-1) = 1 / 2 by decide +kernel] at h2
  have htiny : 2 * pow2 f.emin ≤ pow2 (-f.p) * ε := by
    calc 2 * pow2 f.emin = pow2 (1 + f.emin) := by rw [pow2_add]; congr 1
      _ ≤ pow2 (-f.p + e) := pow2_le (by omega)
      _ = pow2 (-f.p) * pow2 e := pow2_add _ _
      _ ≤ pow2 (-f.p) * ε := mul_le_mul_of_nonneg_left h1 (pow2_pos _).le
  have hu : pow2 (-f.p) ≤ 1 / 4 := by
    rw [show (1 / 4 : ℚ) = pow2 (-2) by decide +kernel]; exact pow2_le (by omega)
  have := eps_mean P r1.1 r1.2 hu htiny ((pow2_pos e).le.trans h1) hneg yhat y hlen hne (rnd_nat hp1 hmin.le hmax _ hn2) hnu l hl
  have e2 : pow2 (1 - f.p) = 2 * pow2 (-f.p) := by
    rw [show (1 - f.p : Int) = 1 + (-f.p) by ring, pow2_add]; congr 1
  rw [e2]
  push_cast
  exact this

/-- C97, the epsilon-insensitive loss in `f64` for an `ε` that is an `f64` of at least `2 ^ -900`: at most `(n + 6) / 2 ^ 52` times the mean
distance plus `ε` from the exact mean; whatever the sizes of the differences. -/
theorem _root_.SR.C97_epsilon64 (lib : LossLib ℚ) (ε : ℚ) (h1 : pow2 (-900) ≤ ε) (h2 : rnd64 ε = .fin ε) (yhat y : List ℚ)
    (hlen : yhat.length = y.length) (hne : y ≠ []) (hn : y.length ≤ 2 ^ 52) (l : ℚ)
    (hl : (LossKind.mean (.epsIns (.fin ε))).loss binary64 lib (yhat.map .fin) (y.map .fin) none = some (.fin l)) :
    |l - exactMeanOf (epsLoss ε) yhat y| ≤ (y.length + 6 : Nat) * pow2 (-52) * (meanDistance yhat y + ε) :=
  eps_format (f := fmt64) (by decide) (by decide) (by decide) (by decide) lib h1 h2 yhat y hlen hne hn l hl

/-- C97, the epsilon-insensitive loss in `f32`. -/
theorem _root_.SR.C97_epsilon32 (lib : LossLib ℚ) (ε : ℚ) (h1 : pow2 (-100) ≤ ε) (h2 : fmt32.rnd ε = .fin ε) (yhat y : List ℚ)
    (hlen : yhat.length = y.length) (hne : y ≠ []) (hn : y.length ≤ 2 ^ 23) (l : ℚ)
    (hl : (LossKind.mean (.epsIns (.fin ε))).loss binary32 lib (yhat.map .fin) (y.map .fin) none = some (.fin l)) :
    |l - exactMeanOf (epsLoss ε) yhat y| ≤ (y.length + 6 : Nat) * pow2 (-23) * (meanDistance yhat y + ε) :=
  eps_format (f := fmt32) (by decide) (by decide) (by decide) (by decide) lib h1 h2 yhat y hlen hne hn l hl

/-- The hypotheses are met, by a difference within `ε = 1/2` and two beyond it. -/
example (lib : LossLib ℚ) :
    (LossKind.mean (.epsIns (.fin (1 / 2)))).loss binary64 lib ([1, 4, 0].map .fin) ([3 / 4, 1, 1].map .fin) none = some (.fin 1) ∧
      pow2 (-900) ≤ (1 / 2 : ℚ) ∧ rnd64 (1 / 2) = .fin (1 / 2) ∧ exactMeanOf (epsLoss (1 / 2 : ℚ)) [1, 4, 0] [3 / 4, 1, 1] = 1 := by
  have : meanLoss binary64 (fun a b => let r := binary64.sub (binary64.sub a b).abs (.fin (1 / 2))
      if Fl.lt (.fin 0) r then r else .fin 0) ([1, 4, 0].map .fin) ([3 / 4, 1, 1].map .fin) none = some (.fin 1) := by decide +kernel
  exact ⟨this, by decide +kernel, by decide +kernel, by decide +kernel⟩

end Accuracy
end SR
