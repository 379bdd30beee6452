import Verif.Spec.AccuracyMore
import Verif.Props.Accuracy
import Mathlib.Tactic.Linarith
/-
C97, the other losses: quantile, Huber and the root of the mean square.
-/
namespace SR
namespace Accuracy

section
variable {K : Type} [Field K] [LinearOrder K] [IsStrictOrderedRing K] {R : Rounding K} {u tiny : K}

theorem sign_rnd (P : R.Precise u tiny) {ρ x z : K} (hρ : 0 < ρ) (hn : R.rnd (-ρ) = .fin (-ρ)) (hx : x = 0 ∨ ρ ≤ |x|) (h : R.rnd x = .fin z) :
    (0 ≤ x ↔ 0 ≤ z) := by
  constructor
  · intro h0
    have := P.lawful.mono h0
    rw [P.lawful.zero, h] at this
    simpa [Fl.le] using this
  · intro hz
    by_contra c
    rw [not_le] at c
    rcases hx with rfl | hx
    · exact absurd c (lt_irrefl _)
    · rw [abs_of_neg c] at hx
      have := P.lawful.mono (show x ≤ -ρ by linarith)
      rw [h, hn] at this
      have : z ≤ -ρ := by simpa [Fl.le] using this
      linarith

/-- The quantile loss: at most three roundings. -/
theorem quantile_near (P : R.Precise u tiny) {lib : LossLib K} {ρ σ τ : K} (hρ : tiny ≤ ρ) (hσ : tiny ≤ σ) (h1 : R.rnd ρ = .fin ρ)
    (h2 : R.rnd (-ρ) = .fin (-ρ)) (hσ1 : R.rnd σ = .fin σ) (hσ2 : R.rnd (-σ) = .fin (-σ)) (hρσ : tiny ≤ σ * ρ) (h3 : R.rnd (σ * ρ) = .fin (σ * ρ))
    (hτ : σ ≤ τ) (hτ' : σ ≤ 1 - τ) : PointNear R u ρ ((PointLoss.quantile (.fin τ)).loss R lib) (pinball τ) 3 (σ * ρ) where
  nonneg r := by
    have hσ0 : 0 < σ := lt_of_lt_of_le P.tiny_pos hσ
    unfold pinball
    split <;> exact mul_nonneg (by linarith) (abs_nonneg _)
  near a b z hr h := by
    have u0 := P.u_nonneg
    have u1 := P.u_lt
    have hρ0 : 0 < ρ := lt_of_lt_of_le P.tiny_pos hρ
    have hσ0 : 0 < σ := lt_of_lt_of_le P.tiny_pos hσ
    have hr' : b - a = 0 ∨ ρ ≤ |b - a| := by
      rcases hr with h | h
      · left; linarith
      · right; rwa [abs_sub_comm]
    simp only [PointLoss.loss, sub_fin] at h
    have hfin : ∃ v, R.rnd (b - a) = .fin v := by
      split at h <;> obtain ⟨_, y, _, hy, _⟩ := mul_fin h <;> exact ⟨y, hy⟩
    obtain ⟨v, hv⟩ := hfin
    have n1 := residual_near P hρ hr' hv
    have b1 := residual_big P h1 h2 hr' hv
    have sgn := sign_rnd P hρ0 h2 hr' hv
    rw [hv] at h
    have hba : |b - a| = |a - b| := abs_sub_comm _ _
    rw [hba] at n1
    by_cases h0 : 0 ≤ v
    · rw [if_pos (by simpa [Fl.le] using h0)] at h
      have h : R.rnd (τ * v) = .fin z := h
      have hp : pinball τ (a - b) = τ * |a - b| := by unfold pinball; rw [if_pos (by linarith [sgn.mpr h0])]
      rw [hp]
      rw [abs_of_nonneg h0] at n1 b1
      have hb : Big (σ * ρ) (τ * v) := by
        rcases b1 with h | h
        · left; rw [h, mul_zero]
        · right; exact mul_le_mul hτ h hρ0.le (by linarith)
      refine ⟨?_, big_rnd P hb h3 h⟩
      have n2 : Near u (0 + 1) (τ * |a - b|) (τ * v) := Near.mul u0 u1 (by linarith) (abs_nonneg _) (Near.refl τ) n1
      have n3 := Near.trans u0 u1 n2 (near_rnd P hb hρσ h)
      exact Near.mono u0 u1 (by omega) (mul_nonneg (by linarith) (abs_nonneg _)) n3
    · rw [if_neg (by simpa [Fl.le] using h0)] at h
      obtain ⟨c, v', hc, hv', hz⟩ := mul_fin h
      cases hv'
      have hneg : v < 0 := not_le.mp h0
      have hp : pinball τ (a - b) = (1 - τ) * |a - b| := by
        unfold pinball; rw [if_neg (fun hh => h0 (sgn.mp (by linarith)))]
      rw [hp]
      have hb1 : τ - 1 = 0 ∨ σ ≤ |τ - 1| := by right; rw [abs_sub_comm, abs_of_pos (by linarith)]; exact hτ'
      have m1 := residual_near P hσ hb1 hc
      have mb := residual_big P hσ1 hσ2 hb1 hc
      have hcn : ¬ 0 ≤ c := fun hh => by have := (sign_rnd P hσ0 hσ2 hb1 hc).mpr hh; linarith
      have hcneg : c < 0 := not_le.mp hcn
      rw [abs_sub_comm τ 1, abs_of_pos (show 0 < 1 - τ by linarith)] at m1
      have hprod : c * v = |c| * |v| := by rw [abs_of_neg hcneg, abs_of_neg hneg]; ring
      rw [hprod] at hz
      have hb : Big (σ * ρ) (|c| * |v|) := by
        rcases mb with h | h
        · left; rw [h, zero_mul]
        · rcases b1 with h' | h'
          · left; rw [h', mul_zero]
          · right; exact mul_le_mul h h' hρ0.le (abs_nonneg _)
      refine ⟨?_, big_rnd P hb h3 hz⟩
      exact Near.trans u0 u1 (Near.mul u0 u1 (by linarith) (abs_nonneg _) m1 n1) (near_rnd P hb hρσ hz)

/-- Huber's loss: at most five roundings. -/
theorem huber_near (P : R.Precise u tiny) (hu : u ≤ 1 / 4) {lib : LossLib K} {ρ δ t : K} (hρ : tiny ≤ ρ) (h1 : R.rnd ρ = .fin ρ)
    (h2 : R.rnd (-ρ) = .fin (-ρ)) (hhalf : R.rnd (1 / 2) = .fin (1 / 2)) (hδ : 0 < δ) (hδ1 : R.rnd δ = .fin δ) (hδ3 : R.rnd (-δ) = .fin (-δ))
    (hδ2 : R.rnd (δ / 2) = .fin (δ / 2)) (hδt : tiny ≤ δ / 2) (hρ' : tiny ≤ ρ / 2) (hρ1 : R.rnd (ρ / 2) = .fin (ρ / 2)) (hρ2 : R.rnd (-(ρ / 2)) = .fin (-(ρ / 2)))
    (ht : tiny ≤ t) (htr : R.rnd t = .fin t) (ht1 : t ≤ ρ / 2 * ρ) (ht2 : t ≤ δ * (δ / 2)) :
    PointNear R u ρ ((PointLoss.huber (.fin δ)).loss R lib) (huberLoss δ) 5 t where
  nonneg r := by
    unfold huberLoss
    split
    · exact div_nonneg (sq_nonneg _) (by norm_num)
    · next h => rw [not_le] at h; exact mul_nonneg hδ.le (by linarith)
  near a b z hr h := by
    have u0 := P.u_nonneg
    have u1 := P.u_lt
    have hρ0 : 0 < ρ := lt_of_lt_of_le P.tiny_pos hρ
    simp only [PointLoss.loss, sub_fin, hhalf] at h
    have hfin : ∃ v, R.rnd (a - b) = .fin v := by
      split at h
      · obtain ⟨_, y, _, hy, _⟩ := mul_fin h; exact ⟨y, hy⟩
      · obtain ⟨_, y, _, hy, _⟩ := mul_fin h
        cases hv : R.rnd (a - b) with
        | fin v => exact ⟨v, rfl⟩
        | nan => rw [hv] at hy; simp [Fl.abs, Rounding.sub, Rounding.add] at hy
        | pinf => rw [hv] at hy; simp only [Fl.abs, Rounding.sub, Rounding.mul] at hy; obtain ⟨_, _, h, _⟩ := add_fin hy; cases h
        | ninf => rw [hv] at hy; simp only [Fl.abs, Rounding.sub, Rounding.mul] at hy; obtain ⟨_, _, h, _⟩ := add_fin hy; cases h
    obtain ⟨v, hv⟩ := hfin
    have n1 := residual_near P hρ hr hv
    have b1 := residual_big P h1 h2 hr hv
    rw [hv] at h
    have habs : (Fl.fin v).abs = .fin |v| := by simp only [Fl.abs]; rfl
    rw [habs] at h
    -- rounding keeps the side of the threshold
    have side : |a - b| ≤ δ → |v| ≤ δ := by
      intro hh
      rw [abs_le] at hh
      have m1 := P.lawful.mono hh.1
      have m2 := P.lawful.mono hh.2
      rw [hv, hδ3] at m1
      rw [hv, hδ1] at m2
      rw [abs_le]
      exact ⟨by simpa [Fl.le] using m1, by simpa [Fl.le] using m2⟩
    have side' : δ ≤ |a - b| → δ ≤ |v| := by
      intro hh
      rcases residual_big P hδ1 hδ3 (.inr hh) hv with h0 | h0
      · exfalso
        have := n1.1
        rw [h0, pow_one] at this
        have : 0 < (1 - u) * |a - b| := mul_pos (by linarith) (lt_of_lt_of_le hδ hh)
        linarith
      · exact h0
    by_cases hle : |v| ≤ δ
    · rw [if_pos (by simpa [Fl.le] using hle)] at h
      obtain ⟨c, w, hc, hw, hz⟩ := mul_fin h
      cases hw
      have hc : R.rnd (1 / 2 * v) = .fin c := hc
      have bh : 1 / 2 * v = 0 ∨ ρ / 2 ≤ |1 / 2 * v| := by
        rw [abs_mul, abs_of_pos (show (0 : K) < 1 / 2 by norm_num)]
        rcases b1 with h0 | h0
        · left; rw [abs_eq_zero.mp h0, mul_zero]
        · right; linarith
      have hρ1n : Big (ρ / 2) |c| := residual_big P hρ1 hρ2 bh hc
      have n2 := residual_near P hρ' bh hc
      have hpos : c * v = |c| * |v| := by
        rcases le_total 0 v with hs | hs
        · have : 0 ≤ c := by
            have := P.lawful.mono (show 0 ≤ 1 / 2 * v by linarith)
            rw [P.lawful.zero, hc] at this
            simpa [Fl.le] using this
          rw [abs_of_nonneg this, abs_of_nonneg hs]
        · have : c ≤ 0 := by
            have := P.lawful.mono (show 1 / 2 * v ≤ 0 by linarith)
            rw [P.lawful.zero, hc] at this
            simpa [Fl.le] using this
          rw [abs_of_nonpos this, abs_of_nonpos hs]; ring
      rw [hpos] at hz
      have hb : Big t (|c| * |v|) := by
        rcases hρ1n with h0 | h0
        · left; rw [h0, zero_mul]
        · rcases b1 with h' | h'
          · left; rw [h', mul_zero]
          · right; exact ht1.trans (mul_le_mul h0 h' hρ0.le (abs_nonneg _))
      have n3 := near_rnd P hb ht hz
      refine ⟨?_, big_rnd P hb htr hz⟩
      have n2' : Near u 1 (|v| / 2) |c| := by
        rw [abs_mul, abs_of_pos (show (0 : K) < 1 / 2 by norm_num)] at n2
        rwa [show 1 / 2 * |v| = |v| / 2 by ring] at n2
      have n4 : Near u (1 + 0) (|v| / 2 * |v|) (|c| * |v|) :=
        Near.mul u0 u1 (div_nonneg (abs_nonneg _) (by norm_num)) (abs_nonneg _) n2' (Near.refl _)
      have n5 : Near u 2 (|v| / 2 * |v|) z := Near.trans u0 u1 n4 n3
      by_cases hside : |a - b| ≤ δ
      · have hg : huberLoss δ (a - b) = |a - b| / 2 * |a - b| := by
          unfold huberLoss; rw [if_pos hside, ← sq_abs]; ring
        rw [hg]
        have n6 : Near u 1 (|a - b| / 2) (|v| / 2) := by
          refine ⟨?_, ?_⟩
          · have := n1.1; linarith
          · have := n1.2; linarith
        have n7 := Near.mul u0 u1 (div_nonneg (abs_nonneg _) (by norm_num)) (abs_nonneg _) n6 n1
        have n8 := Near.trans u0 u1 n7 n5
        exact Near.mono u0 u1 (by omega) (mul_nonneg (div_nonneg (abs_nonneg _) (by norm_num)) (abs_nonneg _)) n8
      · rw [not_le] at hside
        have hv' : |v| = δ := le_antisymm hle (side' hside.le)
        have hg : huberLoss δ (a - b) = δ * (|a - b| - δ / 2) := by
          unfold huberLoss; rw [if_neg (not_le.mpr hside)]
        rw [hg]
        rw [hv'] at n5 n1
        have hA : 0 ≤ δ * (|a - b| - δ / 2) := mul_nonneg hδ.le (by linarith)
        have n6 : Near u 3 (δ * (|a - b| - δ / 2)) (δ / 2 * δ) := by
          constructor
          · have e1 : (1 - u) * |a - b| ≤ δ := by simpa using n1.1
            have e2 : (1 - u) ^ 3 * (|a - b| - δ / 2) ≤ δ / 2 := by
              have e3 : (1 - u) ^ 3 * (|a - b| - δ / 2) = (1 - u) ^ 2 * ((1 - u) * |a - b| - (1 - u) * (δ / 2)) := by ring
              rw [e3]
              have e4 : (1 - u) ^ 2 * ((1 - u) * |a - b| - (1 - u) * (δ / 2)) ≤ (1 - u) ^ 2 * (δ - (1 - u) * (δ / 2)) :=
                mul_le_mul_of_nonneg_left (by linarith) (sq_nonneg _)
              refine e4.trans ?_
              have e5 : (1 - u) ^ 2 * (δ - (1 - u) * (δ / 2)) = δ / 2 * ((1 - u) * (1 - u ^ 2)) := by ring
              rw [e5]
              have e6 : (1 - u) * (1 - u ^ 2) ≤ 1 := by nlinarith [sq_nonneg u]
              calc δ / 2 * ((1 - u) * (1 - u ^ 2)) ≤ δ / 2 * 1 := mul_le_mul_of_nonneg_left e6 (by linarith)
                _ = δ / 2 := mul_one _
            calc (1 - u) ^ 3 * (δ * (|a - b| - δ / 2)) = δ * ((1 - u) ^ 3 * (|a - b| - δ / 2)) := by ring
              _ ≤ δ * (δ / 2) := mul_le_mul_of_nonneg_left e2 hδ.le
              _ = δ / 2 * δ := mul_comm _ _
          · have e1 : δ / 2 * δ ≤ δ * (|a - b| - δ / 2) := by nlinarith
            refine e1.trans ?_
            exact le_mul_of_one_le_left hA (one_le_pow₀ (by linarith))
        exact Near.trans u0 u1 n6 n5
    · rw [if_neg (by simpa [Fl.le] using hle)] at h
      have hgt : δ < |v| := not_le.mp hle
      have hside : δ < |a - b| := by
        by_contra c
        exact hle (side (not_lt.mp c))
      have hm : R.mul (.fin (1 / 2)) (.fin δ) = .fin (δ / 2) := by
        rw [← hδ2]; simp only [Rounding.mul]; congr 1; ring
      rw [hm, sub_fin] at h
      obtain ⟨d, s, hd, hs, hz⟩ := mul_fin h
      cases hd
      have hg : huberLoss δ (a - b) = δ * (|a - b| - δ / 2) := by
        unfold huberLoss; rw [if_neg (not_le.mpr hside)]
      rw [hg]
      have bs : Big (δ / 2) (|v| - δ / 2) := .inr (by linarith)
      have n2 := near_rnd P bs hδt hs
      have b2 := big_rnd P bs hδ2 hs
      have n3 : Near u 3 (|a - b| - δ / 2) (|v| - δ / 2) := by
        have e1 := n1.1
        have e2 := n1.2
        rw [pow_one] at e1 e2
        have hx : 0 ≤ |a - b| - δ / 2 := by linarith
        have e3 : u * |a - b| ≤ 2 * u * (|a - b| - δ / 2) := by
          have := mul_le_mul_of_nonneg_left (show |a - b| ≤ 2 * (|a - b| - δ / 2) by linarith) u0
          linarith
        constructor
        · have e4 : (1 - u) ^ 3 ≤ 1 - 2 * u := by
            have : u * (3 - u) ≤ 1 := by nlinarith
            have : u * (u * (3 - u)) ≤ u * 1 := mul_le_mul_of_nonneg_left this u0
            nlinarith
          have := mul_le_mul_of_nonneg_right e4 hx
          linarith
        · have e4 : 1 + 2 * u ≤ (1 + u) ^ 3 := by nlinarith [sq_nonneg u, mul_nonneg u0 (sq_nonneg u)]
          have := mul_le_mul_of_nonneg_right e4 hx
          linarith
      have hb : Big t (δ * s) := by
        rcases b2 with h0 | h0
        · left; rw [h0, mul_zero]
        · right; exact ht2.trans (mul_le_mul_of_nonneg_left h0 hδ.le)
      refine ⟨?_, big_rnd P hb htr hz⟩
      have n4 : Near u 4 (|a - b| - δ / 2) s := Near.trans u0 u1 n3 n2
      have n5 : Near u (0 + 4) (δ * (|a - b| - δ / 2)) (δ * s) := Near.mul u0 u1 hδ.le (by linarith) (Near.refl δ) n4
      exact Near.trans u0 u1 n5 (near_rnd P hb ht hz)

end

/-! ## The formats -/

/-- The negative and the half of a representable number that is not too small are representable. -/
theorem neg_half_representable {f : BinFormat} (hp : 1 ≤ f.p) {x : ℚ} (hx : pow2 (f.emin + 1) ≤ x) (h : f.rnd x = .fin x) :
    f.rnd (-x) = .fin (-x) ∧ f.rnd (x / 2) = .fin (x / 2) := by
  have hpos : 0 < x := lt_of_lt_of_le (pow2_pos _) hx
  have hn : f.nearest x = x := rnd_fin_nearest h
  have hsp := exponent_spec hpos.ne'
  have hexp : f.emin + 1 ≤ exponent x := by
    by_contra c
    have : pow2 (exponent x + 1) ≤ pow2 (f.emin + 1) := pow2_le (by omega)
    rw [abs_of_pos hpos] at hsp
    linarith [hsp.2]
  have hq : f.ulpExp x = exponent x - (f.p - 1) := by unfold BinFormat.ulpExp; rw [max_eq_left (by omega)]
  obtain ⟨m, hm⟩ : ∃ m : Int, x = m * pow2 (exponent x - (f.p - 1)) := by
    refine ⟨roundHalfEven (x / pow2 (f.ulpExp x)), ?_⟩
    conv_lhs => rw [← hn]
    unfold BinFormat.nearest
    rw [hq]
  have hlt : |x| < pow2 f.emax := by
    rw [abs_of_pos hpos]
    unfold BinFormat.rnd at h
    rw [if_neg hpos.ne', hn] at h
    split at h
    · cases h
    · next hh => exact not_le.mp hh
  have hm2 : |m| ≤ 2 ^ f.p := by
    have h1 : (|m| : ℚ) * pow2 (exponent x - (f.p - 1)) = |x| := by
      conv_rhs => rw [hm]
      rw [abs_mul, abs_of_pos (pow2_pos _)]
    have h2 := hsp.2
    rw [← h1, show exponent x + 1 = (f.p : Int) + (exponent x - (f.p - 1)) by ring, pow2_add, pow2_nat] at h2
    have h3 : (|m| : ℚ) < 2 ^ f.p := lt_of_mul_lt_mul_right h2 (pow2_pos _).le
    exact_mod_cast h3.le
  refine ⟨rnd_representable hp (-m) (exponent x - (f.p - 1)) ?_ (by rwa [abs_neg]) (by omega) (by rwa [abs_neg]),
    rnd_representable hp m (exponent x - (f.p - 1) - 1) ?_ hm2 (by omega) ?_⟩
  · push_cast; conv_lhs => rw [hm]
    ring
  · rw [sub_eq_add_neg _ (1 : Int), pow2_add, show pow2 (-1) = 1 / 2 by decide +kernel]
    conv_lhs => rw [hm]
    ring
  · rw [abs_of_pos (by linarith)]
    rw [abs_of_pos hpos] at hlt
    linarith

/-- The mean of a pointwise loss in a format. -/
theorem mean_format_of {f : BinFormat} {ρ e : Int} {k : Nat} {F : Fl ℚ → Fl ℚ → Fl ℚ} {g : ℚ → ℚ} {yhat y : List ℚ}
    (A : PointNear ⟨f.rnd⟩ (pow2 (-f.p)) (pow2 ρ) F g k (pow2 e)) (hp : 1 ≤ f.p) (hmin : f.emin ≤ 0) (hmax : (f.p : Int) < f.emax)
    (he : f.emin + f.p ≤ e) (he' : e < f.emax) (hlen : yhat.length = y.length) (hne : y ≠ []) (hrows : y.length + (k + 1) ≤ 2 ^ (f.p - 1))
    (hr : Resolved (pow2 ρ) yhat y) (l : ℚ) (hl : meanLoss ⟨f.rnd⟩ F (yhat.map .fin) (y.map .fin) none = some (.fin l)) :
    |l - exactMeanOf g yhat y| ≤ (y.length + (k + 1) : Nat) * pow2 (1 - f.p) * exactMeanOf g yhat y ∧ Near (pow2 (-f.p)) (y.length + (k + 1)) (exactMeanOf g yhat y) l := by
  have hmax1 : 1 ≤ f.emax := by omega
  have P := precise_format hp hmin hmax1
  have hn2 : y.length ≤ 2 ^ f.p := by
    have : (2 : Nat) ^ (f.p - 1) ≤ 2 ^ f.p := Nat.pow_le_pow_right (by norm_num) (by omega)
    omega
  have hnat : (⟨f.rnd⟩ : Rounding ℚ).ofNat y.length = .fin (y.length : ℚ) := rnd_nat hp hmin hmax _ hn2
  have hsize : pow2 f.emin * y.length ≤ pow2 e := by
    have h1 : (y.length : ℚ) ≤ pow2 (f.p : Int) := by rw [pow2_nat]; exact_mod_cast hn2
    calc pow2 f.emin * y.length ≤ pow2 f.emin * pow2 (f.p : Int) := mul_le_mul_of_nonneg_left h1 (pow2_pos _).le
      _ = pow2 (f.emin + f.p) := (pow2_add _ _).symm
      _ ≤ pow2 e := pow2_le he
  have := mean_near P A (pow2_le (by omega)) (rnd_pow2 (f := f) hp e (by omega) he').1 yhat y hlen hne hnat hsize hr l hl
  rw [show k + y.length + 1 = y.length + (k + 1) by omega] at this
  refine ⟨close_of_near hp hmin hmax1 hrows ?_ this, this⟩
  refine div_nonneg (List.sum_nonneg fun x hx => ?_) (Nat.cast_nonneg _)
  obtain ⟨v, _, rfl⟩ := List.mem_map.mp hx
  exact A.nonneg _

theorem quantile_format {f : BinFormat} {ρ σ : Int} (hp : 1 ≤ f.p) (hmin : f.emin ≤ 0) (hmax : (f.p : Int) < f.emax) (hρ : ρ ≤ 0) (hσ : σ ≤ 0)
    (he : f.emin + f.p ≤ σ + ρ) (lib : LossLib ℚ) {τ : ℚ} (h1 : pow2 σ ≤ τ) (h2 : pow2 σ ≤ 1 - τ) :
    PointNear ⟨f.rnd⟩ (pow2 (-f.p)) (pow2 ρ) ((PointLoss.quantile (.fin τ)).loss ⟨f.rnd⟩ lib) (pinball τ) 3 (pow2 (σ + ρ)) := by
  have P := precise_format hp hmin (by omega)
  have r1 := rnd_pow2 (f := f) hp ρ (by omega) (by omega)
  have r2 := rnd_pow2 (f := f) hp σ (by omega) (by omega)
  have r3 := rnd_pow2 (f := f) hp (σ + ρ) (by omega) (by omega)
  rw [pow2_add]
  exact quantile_near P (pow2_le (by omega)) (pow2_le (by omega)) r1.1 r1.2 r2.1 r2.2 (by rw [← pow2_add]; exact pow2_le (by omega))
    (by rw [← pow2_add]; exact r3.1) h1 h2

theorem huber_format {f : BinFormat} {ρ : Int} (hp : 2 ≤ f.p) (hmin : f.emin ≤ 0) (hmax : (f.p : Int) < f.emax) (hρ : ρ ≤ 0)
    (he : f.emin + f.p ≤ ρ + ρ - 1) (lib : LossLib ℚ) {δ : ℚ} (h1 : pow2 ρ ≤ δ) (h2 : f.rnd δ = .fin δ) :
    PointNear ⟨f.rnd⟩ (pow2 (-f.p)) (pow2 ρ) ((PointLoss.huber (.fin δ)).loss ⟨f.rnd⟩ lib) (huberLoss δ) 5 (pow2 (ρ + ρ - 1)) := by
  have hp1 : 1 ≤ f.p := by omega
  have P := precise_format hp1 hmin (by omega)
  have r1 := rnd_pow2 (f := f) hp1 ρ (by omega) (by omega)
  have r2 := rnd_pow2 (f := f) hp1 (ρ - 1) (by omega) (by omega)
  have r3 := rnd_pow2 (f := f) hp1 (ρ + ρ - 1) (by omega) (by omega)
  have r4 := rnd_pow2 (f := f) hp1 (-1) (by omega) (by omega)
  have half : ∀ e : Int, pow2 e / 2 = pow2 (e - 1) := by
    intro e
    rw [sub_eq_add_neg, pow2_add, show pow2 (-1) = 1 / 2 by decide +kernel]; ring
  have hδ0 : 0 < δ := lt_of_lt_of_le (pow2_pos _) h1
  obtain ⟨hn, hh⟩ := neg_half_representable hp1 (x := δ) (le_trans (pow2_le (by omega)) h1) h2
  have hu : pow2 (-f.p) ≤ 1 / 4 := by
    rw [show (1 / 4 : ℚ) = pow2 (-2) by decide +kernel]; exact pow2_le (by omega)
  have e1 : pow2 (ρ + ρ - 1) = pow2 ρ / 2 * pow2 ρ := by
    rw [half, ← pow2_add]; congr 1; ring
  refine huber_near P hu (pow2_le (by omega)) r1.1 r1.2 ?_ hδ0 h2 hn hh ?_ ?_ (by rw [half]; exact r2.1) (by rw [half]; exact r2.2)
    (pow2_le (by omega)) r3.1 e1.le ?_
  · have := r4.1
    rwa [show pow2 (-1) = 1 / 2 by decide +kernel] at this
  · have : pow2 f.emin ≤ pow2 ρ / 2 := by rw [half]; exact pow2_le (by omega)
    linarith
  · rw [half]; exact pow2_le (by omega)
  · rw [e1]
    have := mul_le_mul h1 h1 (pow2_pos _).le hδ0.le
    linarith

/-- C97, the quantile loss in `f64` for `2 ^ -20 ≤ τ ≤ 1 - 2 ^ -20`: at most `(n + 4) / 2 ^ 52` from the exact mean pinball loss. -/
theorem _root_.SR.C97_quantile64 (lib : LossLib ℚ) (τ : ℚ) (h1 : pow2 (-20) ≤ τ) (h2 : pow2 (-20) ≤ 1 - τ) (yhat y : List ℚ)
    (hlen : yhat.length = y.length) (hne : y ≠ []) (hn : y.length + 4 ≤ 2 ^ 52) (hr : Resolved (pow2 (-484)) yhat y) (l : ℚ)
    (hl : (LossKind.mean (.quantile (.fin τ))).loss binary64 lib (yhat.map .fin) (y.map .fin) none = some (.fin l)) :
    |l - exactMeanOf (pinball τ) yhat y| ≤ (y.length + 4 : Nat) * pow2 (-52) * exactMeanOf (pinball τ) yhat y :=
  (mean_format_of (f := fmt64) (quantile_format (by decide) (by decide) (by decide) (by decide) (by decide) (by decide) lib h1 h2)
    (by decide) (by decide) (by decide) (by decide) (by decide) hlen hne hn hr l hl).1

/-- C97, the quantile loss in `f32`. -/
theorem _root_.SR.C97_quantile32 (lib : LossLib ℚ) (τ : ℚ) (h1 : pow2 (-20) ≤ τ) (h2 : pow2 (-20) ≤ 1 - τ) (yhat y : List ℚ)
    (hlen : yhat.length = y.length) (hne : y ≠ []) (hn : y.length + 4 ≤ 2 ^ 23) (hr : Resolved (pow2 (-51)) yhat y) (l : ℚ)
    (hl : (LossKind.mean (.quantile (.fin τ))).loss binary32 lib (yhat.map .fin) (y.map .fin) none = some (.fin l)) :
    |l - exactMeanOf (pinball τ) yhat y| ≤ (y.length + 4 : Nat) * pow2 (-23) * exactMeanOf (pinball τ) yhat y :=
  (mean_format_of (f := fmt32) (quantile_format (by decide) (by decide) (by decide) (by decide) (by decide) (by decide) lib h1 h2)
    (by decide) (by decide) (by decide) (by decide) (by decide) hlen hne hn hr l hl).1

/-- C97, Huber's loss in `f64` with a threshold that is an `f64` of at least `2 ^ -484`: at most `(n + 6) / 2 ^ 52` from the exact mean. -/
theorem _root_.SR.C97_huber64 (lib : LossLib ℚ) (δ : ℚ) (h1 : pow2 (-484) ≤ δ) (h2 : rnd64 δ = .fin δ) (yhat y : List ℚ)
    (hlen : yhat.length = y.length) (hne : y ≠ []) (hn : y.length + 6 ≤ 2 ^ 52) (hr : Resolved (pow2 (-484)) yhat y) (l : ℚ)
    (hl : (LossKind.mean (.huber (.fin δ))).loss binary64 lib (yhat.map .fin) (y.map .fin) none = some (.fin l)) :
    |l - exactMeanOf (huberLoss δ) yhat y| ≤ (y.length + 6 : Nat) * pow2 (-52) * exactMeanOf (huberLoss δ) yhat y :=
  (mean_format_of (f := fmt64) (huber_format (by decide) (by decide) (by decide) (by decide) (by decide) lib h1 h2)
    (by decide) (by decide) (by decide) (by decide) (by decide) hlen hne hn hr l hl).1

/-- C97, Huber's loss in `f32`. -/
theorem _root_.SR.C97_huber32 (lib : LossLib ℚ) (δ : ℚ) (h1 : pow2 (-50) ≤ δ) (h2 : fmt32.rnd δ = .fin δ) (yhat y : List ℚ)
    (hlen : yhat.length = y.length) (hne : y ≠ []) (hn : y.length + 6 ≤ 2 ^ 23) (hr : Resolved (pow2 (-50)) yhat y) (l : ℚ)
    (hl : (LossKind.mean (.huber (.fin δ))).loss binary32 lib (yhat.map .fin) (y.map .fin) none = some (.fin l)) :
    |l - exactMeanOf (huberLoss δ) yhat y| ≤ (y.length + 6 : Nat) * pow2 (-23) * exactMeanOf (huberLoss δ) yhat y :=
  (mean_format_of (f := fmt32) (huber_format (by decide) (by decide) (by decide) (by decide) (by decide) lib h1 h2)
    (by decide) (by decide) (by decide) (by decide) (by decide) hlen hne hn hr l hl).1

/-- C97, the root of the mean square in `f64`, if the square root is correctly rounded: its square is at most `(n + 6) / 2 ^ 52` from the
exact mean of the squares. -/
theorem _root_.SR.C97_rmse64 (lib : LossLib ℚ) (hs : SqrtPrecise lib.sqrt (pow2 (-53))) (hsnan : ∀ v, (lib.sqrt v).isFinite = true → v.isFinite = true)
    (yhat y : List ℚ) (hlen : yhat.length = y.length)
    (hne : y ≠ []) (hn : y.length + 6 ≤ 2 ^ 52) (hr : Resolved (pow2 (-484)) yhat y) (l : ℚ)
    (hl : LossKind.rmse.loss binary64 lib (yhat.map .fin) (y.map .fin) none = some (.fin l)) :
    0 ≤ l ∧ |l ^ 2 - meanSquare yhat y| ≤ (y.length + 6 : Nat) * pow2 (-52) * meanSquare yhat y := by
  have P : binary64.Precise (pow2 (-53)) (pow2 (-1022)) := precise_format (f := fmt64) (by decide) (by decide) (by decide)
  have u0 := P.u_nonneg
  have u1 := P.u_lt
  simp only [LossKind.loss, Option.map_eq_some_iff] at hl
  obtain ⟨v, hv, hq⟩ := hl
  have hf := hsnan v (by rw [hq]; rfl)
  cases v with
  | fin v =>
    have r1 := rnd_pow2 (f := fmt64) (by decide) (-484) (by decide) (by decide)
    have r2 := rnd_pow2 (f := fmt64) (by decide) (2 * -484) (by decide) (by decide)
    have A := square_near P (lib := lib) (ρ := pow2 (-484)) (pow2_le (by decide)) (by rw [pow2_sq]; exact pow2_le (by decide)) r1.1 r1.2
      (by rw [pow2_sq]; exact r2.1)
    rw [pow2_sq] at A
    have hM : 0 ≤ meanSquare yhat y := by
      refine div_nonneg (List.sum_nonneg fun x hx => ?_) (Nat.cast_nonneg _)
      obtain ⟨w, _, rfl⟩ := List.mem_map.mp hx
      exact sq_nonneg _
    have n1 := (mean_format_of (f := fmt64) A (by decide) (by decide) (by decide) (by decide) (by decide) hlen hne
      (le_trans (by omega) hn) hr v hv).2
    have hv0 : 0 ≤ v := Near.nonneg u1 hM n1
    obtain ⟨hl0, q1, q2⟩ := hs v l hv0 hq
    have n2 : Near (pow2 (-53)) 2 v (l ^ 2) := ⟨q1, q2⟩
    have n3 : Near (pow2 (-53)) (y.length + 4 + 2) (meanSquare yhat y) (l ^ 2) := Near.trans (k := y.length + 4) u0 u1 n1 n2
    exact ⟨hl0, close_of_near (f := fmt64) (by decide) (by decide) (by decide) hn hM n3⟩
  | nan => cases hf
  | pinf => cases hf
  | ninf => cases hf

/-- C97, the exception for the epsilon-insensitive loss: it subtracts numbers of the same size, so that no relative bound holds. A
difference that exceeds `ε = 1` by `2 ^ -60` has the loss zero. -/
theorem _root_.SR.C97_epsilon (lib : LossLib ℚ) :
    (LossKind.mean (.epsIns (.fin 1))).loss binary64 lib [.fin 1] [.fin (-pow2 (-60))] none = some (.fin 0) ∧
      |(1 : ℚ) - -pow2 (-60)| - 1 = pow2 (-60) := by
  have : meanLoss binary64 (fun a b => let r := binary64.sub (binary64.sub a b).abs (.fin 1)
      if Fl.lt (.fin 0) r then r else .fin 0) [.fin 1] [.fin (-pow2 (-60))] none = some (.fin 0) := by decide +kernel
  exact ⟨this, by decide +kernel⟩

/-! ## Gradients -/

/-- `y` is `x` times `k` factors between `1 - u` and `1 + u`. -/
def Scaled (u : ℚ) (k : Nat) (x y : ℚ) : Prop := ∃ θ : ℚ, (1 - u) ^ k ≤ θ ∧ θ ≤ (1 + u) ^ k ∧ y = x * θ

theorem scaled_rnd {R : Rounding ℚ} {u tiny : ℚ} (P : R.Precise u tiny) {x z : ℚ} (hx : x = 0 ∨ tiny ≤ |x|) (h : R.rnd x = .fin z) : Scaled u 1 x z := by
  have u0 := P.u_nonneg
  have u1 := P.u_lt
  rcases hx with rfl | hx
  · exact ⟨1, by simp [u0], by simp [u0], by rw [rnd_zero P h]; ring⟩
  · have hx0 : x ≠ 0 := by
      intro c
      rw [c, abs_zero] at hx
      linarith [P.tiny_pos]
    have he := P.error x z hx h
    have e1 : z / x - 1 = (z - x) / x := by field_simp
    have e2 : |z / x - 1| ≤ u := by
      rw [e1, abs_div, div_le_iff₀ (abs_pos.mpr hx0)]; exact he
    rw [abs_le] at e2
    refine ⟨z / x, by rw [pow_one]; linarith [e2.1], by rw [pow_one]; linarith [e2.2], by field_simp⟩

theorem scaled_mul {u : ℚ} (u0 : 0 ≤ u) (u1 : u < 1) {k m : Nat} {x y x' y' : ℚ} (h : Scaled u k x y) (h' : Scaled u m x' y') :
    Scaled u (k + m) (x * x') (y * y') := by
  obtain ⟨a, a1, a2, rfl⟩ := h
  obtain ⟨b, b1, b2, rfl⟩ := h'
  have a0 : 0 ≤ a := le_trans (pow_nonneg (by linarith) _) a1
  have b0 : 0 ≤ b := le_trans (pow_nonneg (by linarith) _) b1
  refine ⟨a * b, ?_, ?_, by ring⟩
  · rw [pow_add]; exact mul_le_mul a1 b1 (pow_nonneg (by linarith) _) a0
  · rw [pow_add]; exact mul_le_mul a2 b2 b0 (pow_nonneg (by linarith) _)

theorem scaled_trans {u : ℚ} (u0 : 0 ≤ u) (u1 : u < 1) {k m : Nat} {x y z : ℚ} (h : Scaled u k x y) (h' : Scaled u m y z) :
    Scaled u (k + m) x z := by
  obtain ⟨a, a1, a2, rfl⟩ := h
  obtain ⟨b, b1, b2, rfl⟩ := h'
  have a0 : 0 ≤ a := le_trans (pow_nonneg (by linarith) _) a1
  have b0 : 0 ≤ b := le_trans (pow_nonneg (by linarith) _) b1
  refine ⟨a * b, ?_, ?_, by ring⟩
  · rw [pow_add]; exact mul_le_mul a1 b1 (pow_nonneg (by linarith) _) a0
  · rw [pow_add]; exact mul_le_mul a2 b2 b0 (pow_nonneg (by linarith) _)

theorem scaled_close {u : ℚ} (u0 : 0 ≤ u) (u1 : u < 1) {k : Nat} (hk : k * u ≤ 1 / 2) {x y : ℚ} (h : Scaled u k x y) :
    |y - x| ≤ 2 * k * u * |x| := by
  obtain ⟨a, a1, a2, rfl⟩ := h
  have n : Near u k 1 a := ⟨by rwa [mul_one], by rwa [mul_one]⟩
  have := near_close u0 u1 hk zero_le_one n
  rw [show x * a - x = (a - 1) * x by ring, abs_mul]
  rw [mul_one] at this
  exact mul_le_mul_of_nonneg_right this (abs_nonneg x)

/-- C97, the gradient of the mean squared error in `f64`: each finite component differs from `2 (ŷ - y) / n` by at most the relative
amount `2 ^ -50`, whatever the number of rows. -/
theorem _root_.SR.C97_gradient64 (lib : LossLib ℚ) (yhat y : List ℚ) (hlen : yhat.length = y.length)
    (hn : y.length ≤ 2 ^ 52) (hr : Resolved (pow2 (-484)) yhat y) (gs : List (Fl ℚ))
    (hg : (LossKind.mean .squared).dloss binary64 lib (yhat.map .fin) (y.map .fin) none = some gs) :
    gs.length = y.length ∧
    ∀ (i : Nat) (g a b : ℚ), gs[i]? = some (.fin g) → yhat[i]? = some a → y[i]? = some b →
      |g - 2 * (a - b) / (y.length : ℚ)| ≤ pow2 (-50) * |2 * (a - b) / (y.length : ℚ)| := by
  have P : binary64.Precise (pow2 (-53)) (pow2 (-1022)) := precise_format (f := fmt64) (by decide) (by decide) (by decide)
  have u0 := P.u_nonneg
  have u1 := P.u_lt
  cases hne : y with
  | nil =>
    subst hne
    have : yhat = [] := by simpa using hlen
    subst this
    have : gs = [] := by simpa [LossKind.dloss, meanDloss] using hg.symm
    subst this
    simp
  | cons y0 ys =>
    rw [← hne]
    have hpos : 0 < y.length := by rw [hne]; simp
    have hnil : (y.map Fl.fin).isEmpty = false := by rw [hne]; rfl
    have hq : (0 : ℚ) < y.length := by exact_mod_cast hpos
    have hnat : binary64.ofNat y.length = .fin (y.length : ℚ) :=
      rnd_nat (f := fmt64) (by decide) (by decide) (by decide) _ (le_trans hn (by decide))
    simp only [LossKind.dloss, meanDloss, List.length_map, hlen, ne_eq, not_true, if_false, hnil, Bool.false_eq_true, Option.some.injEq, hnat] at hg
    subst hg
    refine ⟨by simp [hlen], ?_⟩
    intro i g a b h1 ha hb
    simp only [List.getElem?_map, List.getElem?_zipWith, ha, hb, Option.map_some, Option.some.injEq] at h1
    obtain ⟨c, d, hc, hd, hz⟩ := mul_fin h1
    have hc : binary64.rnd (1 / (y.length : ℚ)) = .fin c := by
      simpa [Rounding.div, hq.ne'] using hc
    simp only [PointLoss.dloss, sub_fin] at hd
    rw [show binary64.rnd 2 = .fin 2 by decide +kernel] at hd
    obtain ⟨two, v, h2, hv, hd⟩ := mul_fin hd
    cases h2
    have hmem : a - b ∈ residuals yhat y := by
      unfold residuals
      rw [List.mem_iff_getElem?]
      exact ⟨i, by simp [List.getElem?_zipWith, ha, hb]⟩
    have hrr := hr _ hmem
    have b1 := residual_big P (ρ := pow2 (-484)) (rnd_pow2 (f := fmt64) (by decide) (-484) (by decide) (by decide)).1
      (rnd_pow2 (f := fmt64) (by decide) (-484) (by decide) (by decide)).2 hrr hv
    have s1 : Scaled (pow2 (-53)) 1 (a - b) v := by
      refine scaled_rnd P ?_ hv
      rcases hrr with h | h
      · exact .inl h
      · exact .inr (le_trans (pow2_le (by decide)) h)
    have s2 : Scaled (pow2 (-53)) 1 (2 * v) d := by
      refine scaled_rnd P ?_ hd
      rcases b1 with h | h
      · left; rw [abs_eq_zero.mp h, mul_zero]
      · right
        rw [abs_mul, abs_of_pos (show (0 : ℚ) < 2 by norm_num)]
        have : pow2 (-1022) ≤ pow2 (-484) := pow2_le (by decide)
        linarith [abs_nonneg v]
    have b2 : d = 0 ∨ pow2 (-484) ≤ |d| := by
      have := residual_big P (ρ := pow2 (-484)) (rnd_pow2 (f := fmt64) (by decide) (-484) (by decide) (by decide)).1
        (rnd_pow2 (f := fmt64) (by decide) (-484) (by decide) (by decide)).2 (r := 2 * v) (by
          rcases b1 with h | h
          · left; rw [abs_eq_zero.mp h, mul_zero]
          · right
            rw [abs_mul, abs_of_pos (show (0 : ℚ) < 2 by norm_num)]
            linarith [abs_nonneg v]) hd
      rcases this with h | h
      · exact .inl (abs_eq_zero.mp h)
      · exact .inr h
    have hnq : pow2 (-52) ≤ 1 / (y.length : ℚ) := by
      rw [le_div_iff₀ hq]
      have h1 : (y.length : ℚ) ≤ pow2 52 := by rw [show (52 : Int) = ((52 : Nat) : Int) from rfl, pow2_nat]; exact_mod_cast hn
      have h2 := mul_le_mul_of_nonneg_left h1 (pow2_pos (-52)).le
      rwa [← pow2_add, show pow2 (-52 + 52) = 1 by decide +kernel] at h2
    have s3 : Scaled (pow2 (-53)) 1 (1 / (y.length : ℚ)) c :=
      scaled_rnd P (.inr (by rw [abs_of_pos (by positivity)]; exact le_trans (pow2_le (by decide)) hnq)) hc
    have hc52 : pow2 (-52) ≤ c := by
      have := P.lawful.mono hnq
      rw [hc, show binary64.rnd (pow2 (-52)) = .fin (pow2 (-52)) from (rnd_pow2 (f := fmt64) (by decide) (-52) (by decide) (by decide)).1] at this
      simpa [Fl.le] using this
    have s4 : Scaled (pow2 (-53)) 1 (c * d) g := by
      refine scaled_rnd P ?_ hz
      rcases b2 with h | h
      · left; rw [h, mul_zero]
      · right
        rw [abs_mul, abs_of_pos (lt_of_lt_of_le (pow2_pos _) hc52)]
        have := mul_le_mul hc52 h (pow2_pos _).le (le_trans (pow2_pos _).le hc52)
        rw [← pow2_add] at this
        exact le_trans (pow2_le (by decide)) this
    have t1 : Scaled (pow2 (-53)) (0 + 1) (2 * (a - b)) (2 * v) := scaled_mul u0 u1 ⟨1, by simp, by simp, by simp⟩ s1
    have t2 := scaled_trans u0 u1 t1 s2
    have t3 := scaled_trans u0 u1 (scaled_mul u0 u1 s3 t2) s4
    have t4 := scaled_close u0 u1 (by decide +kernel) t3
    rw [show 1 / (y.length : ℚ) * (2 * (a - b)) = 2 * (a - b) / (y.length : ℚ) by ring] at t4
    refine le_trans t4 (mul_le_mul_of_nonneg_right ?_ (abs_nonneg _))
    decide +kernel

/-! ## Concrete cases -/

/-- The hypotheses of the quantile theorem are met, with differences of both signs. -/
example (lib : LossLib ℚ) :
    (LossKind.mean (.quantile (.fin (1 / 2)))).loss binary64 lib ([1, 2, 7].map .fin) ([2, 1, 3].map .fin) none = some (.fin 1) ∧
      pow2 (-20) ≤ (1 / 2 : ℚ) ∧ pow2 (-20) ≤ 1 - (1 / 2 : ℚ) ∧ Resolved (pow2 (-484)) [1, 2, 7] [2, 1, 3] ∧ exactMeanOf (pinball (1 / 2 : ℚ)) [1, 2, 7] [2, 1, 3] = 1 := by
  refine ⟨?_, by decide +kernel, by decide +kernel, ?_, by decide +kernel⟩
  · have : meanLoss binary64 (fun a b => let u := binary64.sub b a
        if Fl.le (.fin 0) u then binary64.mul (.fin (1 / 2)) u else binary64.mul (binary64.sub (.fin (1 / 2)) (.fin 1)) u)
        ([1, 2, 7].map .fin) ([2, 1, 3].map .fin) none = some (.fin 1) := by decide +kernel
    exact this
  · intro r hr
    have h1 : pow2 (-484) ≤ 1 := by decide +kernel
    simp only [residuals, List.zipWith_cons_cons, List.zipWith_nil_left, List.mem_cons, List.not_mem_nil, or_false] at hr
    right
    rcases hr with rfl | rfl | rfl <;> exact h1.trans (by decide +kernel)

/-- Those of Huber's: a difference on each side of the threshold `1`. -/
example (lib : LossLib ℚ) :
    (LossKind.mean (.huber (.fin 1))).loss binary64 lib ([1, 4].map .fin) ([1 / 2, 1].map .fin) none = some (.fin (21 / 16)) ∧
      pow2 (-484) ≤ (1 : ℚ) ∧ rnd64 1 = .fin 1 ∧ Resolved (pow2 (-484)) [1, 4] [1 / 2, 1] ∧ exactMeanOf (huberLoss (1 : ℚ)) [1, 4] [1 / 2, 1] = 21 / 16 := by
  refine ⟨?_, by decide +kernel, by decide +kernel, ?_, by decide +kernel⟩
  · have : meanLoss binary64 (fun a b => let r := binary64.sub a b
        let half := binary64.rnd (1 / 2)
        if r.abs.le (.fin 1) then binary64.mul (binary64.mul half r) r
        else binary64.mul (.fin 1) (binary64.sub r.abs (binary64.mul half (.fin 1))))
        ([1, 4].map .fin) ([1 / 2, 1].map .fin) none = some (.fin (21 / 16)) := by decide +kernel
    exact this
  · intro r hr
    have h1 : pow2 (-484) ≤ 1 / 2 := by decide +kernel
    simp only [residuals, List.zipWith_cons_cons, List.zipWith_nil_left, List.mem_cons, List.not_mem_nil, or_false] at hr
    right
    rcases hr with rfl | rfl <;> exact h1.trans (by decide +kernel)

/-- A library whose square root knows only `√4 = 2`. -/
def rootLib : LossLib ℚ := ⟨id, id, id, fun a _ => a, fun v => if v = .fin 4 then .fin 2 else .nan⟩

/-- The hypotheses of the theorem on the root are met: two differences of `2` and `-2`. -/
example : SqrtPrecise rootLib.sqrt (pow2 (-53)) ∧ (∀ v, (rootLib.sqrt v).isFinite = true → v.isFinite = true) ∧
    Resolved (pow2 (-484)) [3, 1] [1, 3] ∧
    LossKind.rmse.loss binary64 rootLib ([3, 1].map .fin) ([1, 3].map .fin) none = some (.fin 2) := by
  refine ⟨?_, ?_, ?_, by decide +kernel⟩
  · intro x y _ h
    dsimp only [rootLib] at h
    split at h
    · next h4 =>
      cases h4; cases h
      refine ⟨by norm_num, ?_, ?_⟩ <;> decide +kernel
    · cases h
  · intro v h
    dsimp only [rootLib] at h
    split at h
    · next h4 => rw [h4]; rfl
    · cases h
  · intro r hr
    have h1 : pow2 (-484) ≤ 2 := by decide +kernel
    simp only [residuals, List.zipWith_cons_cons, List.zipWith_nil_left, List.mem_cons, List.not_mem_nil, or_false] at hr
    right
    rcases hr with rfl | rfl <;> exact h1.trans (by decide +kernel)

/-- Those of the theorem on the gradient: three rows, and a component that is not exact. -/
example (lib : LossLib ℚ) :
    (LossKind.mean .squared).dloss binary64 lib ([2, 1, 3].map .fin) ([1, 1, 5].map .fin) none =
      some [.fin (6004799503160661 / 9007199254740992), .fin 0, .fin (-6004799503160661 / 4503599627370496)] ∧ Resolved (pow2 (-484)) [2, 1, 3] [1, 1, 5] := by
  refine ⟨?_, ?_⟩
  · have : meanDloss binary64 (fun a b => binary64.mul (binary64.rnd 2) (binary64.sub a b)) ([2, 1, 3].map .fin) ([1, 1, 5].map .fin) none =
        some [.fin (6004799503160661 / 9007199254740992), .fin 0, .fin (-6004799503160661 / 4503599627370496)] := by decide +kernel
    exact this
  · intro r hr
    have h1 : pow2 (-484) ≤ 1 := by decide +kernel
    simp only [residuals, List.zipWith_cons_cons, List.zipWith_nil_left, List.mem_cons, List.not_mem_nil, or_false] at hr
    rcases hr with rfl | rfl | rfl
    · right; exact h1.trans (by decide +kernel)
    · left; norm_num
    · right; exact h1.trans (by decide +kernel)

end Accuracy
end SR
