import Verif.Spec.Accuracy
import Verif.Proofs.Binary
import Mathlib.Algebra.Order.Field.Basic
import Mathlib.Algebra.Order.BigOperators.Group.List
import Mathlib.Data.List.Forall2
import Mathlib.Tactic.GCongr
/-
Rounding errors of sums of numbers that are not negative.
-/
namespace SR
namespace Accuracy
variable {K : Type} [Field K] [LinearOrder K] [IsStrictOrderedRing K] {R : Rounding K} {u tiny : K}

section near
variable (u0 : 0 ≤ u) (u1 : u < 1)
include u0 u1

theorem Near.mono {k m : Nat} (h : k ≤ m) {x y : K} (hx : 0 ≤ x) (n : Near u k x y) : Near u m x y := by
  refine ⟨le_trans ?_ n.1, le_trans n.2 ?_⟩
  · exact mul_le_mul_of_nonneg_right (pow_le_pow_of_le_one (by linarith) (by linarith) h) hx
  · exact mul_le_mul_of_nonneg_right (pow_le_pow_right₀ (by linarith) h) hx

omit u0 in
theorem Near.nonneg {k : Nat} {x y : K} (hx : 0 ≤ x) (n : Near u k x y) : 0 ≤ y :=
  le_trans (mul_nonneg (pow_nonneg (by linarith) k) hx) n.1

omit u0 u1 in
theorem Near.add {k : Nat} {x y x' y' : K} (n : Near u k x y) (n' : Near u k x' y') : Near u k (x + x') (y + y') := by
  refine ⟨?_, ?_⟩ <;> rw [mul_add]
  · exact add_le_add n.1 n'.1
  · exact add_le_add n.2 n'.2

theorem Near.mul {k m : Nat} {x y x' y' : K} (hx : 0 ≤ x) (hx' : 0 ≤ x') (n : Near u k x y) (n' : Near u m x' y') :
    Near u (k + m) (x * x') (y * y') := by
  have hy := Near.nonneg u1 hx n
  have hy' := Near.nonneg u1 hx' n'
  refine ⟨?_, ?_⟩
  · calc (1 - u) ^ (k + m) * (x * x') = ((1 - u) ^ k * x) * ((1 - u) ^ m * x') := by ring
      _ ≤ y * y' := mul_le_mul n.1 n'.1 (mul_nonneg (pow_nonneg (by linarith) m) hx') hy
  · calc y * y' ≤ ((1 + u) ^ k * x) * ((1 + u) ^ m * x') :=
          mul_le_mul n.2 n'.2 hy' (mul_nonneg (pow_nonneg (by linarith) k) hx)
      _ = (1 + u) ^ (k + m) * (x * x') := by ring

theorem Near.trans {k m : Nat} {x y z : K} (n : Near u k x y) (n' : Near u m y z) : Near u (k + m) x z := by
  refine ⟨?_, ?_⟩
  · calc (1 - u) ^ (k + m) * x = (1 - u) ^ m * ((1 - u) ^ k * x) := by ring
      _ ≤ (1 - u) ^ m * y := mul_le_mul_of_nonneg_left n.1 (pow_nonneg (by linarith) m)
      _ ≤ z := n'.1
  · calc z ≤ (1 + u) ^ m * y := n'.2
      _ ≤ (1 + u) ^ m * ((1 + u) ^ k * x) := mul_le_mul_of_nonneg_left n.2 (pow_nonneg (by linarith) m)
      _ = (1 + u) ^ (k + m) * x := by ring

omit u0 u1 [IsStrictOrderedRing K] in
theorem Near.refl (x : K) : Near u 0 x x := by simp [Near]

end near

/-- Zero, or at least `t`. -/
def Big (t x : K) : Prop := x = 0 ∨ t ≤ x

omit [IsStrictOrderedRing K] in
theorem rnd_zero (P : R.Precise u tiny) {z : K} (h : R.rnd 0 = .fin z) : z = 0 := by
  rw [P.lawful.zero] at h; cases h; rfl

/-- One rounding of a number that is zero or not too small. -/
theorem near_rnd (P : R.Precise u tiny) {x z t : K} (hb : Big t x) (ht : tiny ≤ t) (h : R.rnd x = .fin z) : Near u 1 x z := by
  rcases hb with rfl | hb
  · rw [rnd_zero P h]; simp [Near]
  · have hx : 0 < x := lt_of_lt_of_le P.tiny_pos (ht.trans hb)
    have := P.error x z (by rw [abs_of_pos hx]; exact ht.trans hb) h
    rw [abs_of_pos hx, abs_le] at this
    refine ⟨?_, ?_⟩ <;> simp only [pow_one] <;> linarith [this.1, this.2]

omit [IsStrictOrderedRing K] in
theorem big_rnd (P : R.Precise u tiny) {x z t : K} (hb : Big t x) (ht : R.rnd t = .fin t) (h : R.rnd x = .fin z) : Big t z := by
  rcases hb with rfl | hb
  · exact .inl (rnd_zero P h)
  · have := P.lawful.mono hb
    rw [ht, h] at this
    exact .inr (by simpa [Fl.le] using this)

/-! ## Finite results come from finite arguments -/

omit [LinearOrder K] [IsStrictOrderedRing K] in
theorem add_fin {a b : Fl K} {z : K} (h : R.add a b = .fin z) : ∃ x y, a = .fin x ∧ b = .fin y ∧ R.rnd (x + y) = .fin z := by
  cases a <;> cases b <;> simp [Rounding.add] at h
  exact ⟨_, _, rfl, rfl, h⟩

omit [LinearOrder K] [IsStrictOrderedRing K] in
theorem foldl_fin : ∀ (l : List (Fl K)) (a : Fl K) (z : K), l.foldl R.add a = .fin z →
    (∃ x, a = .fin x) ∧ ∃ l' : List K, l = l'.map .fin
  | [], a, z, h => ⟨⟨z, h⟩, [], rfl⟩
  | b :: l, a, z, h => by
    obtain ⟨⟨x, hx⟩, l', hl⟩ := foldl_fin l _ z h
    obtain ⟨p, q, ha, hb, -⟩ := add_fin hx
    exact ⟨⟨p, ha⟩, q :: l', by simp [hb, hl]⟩

omit [LinearOrder K] [IsStrictOrderedRing K] in
theorem sub_fin (a b : K) : R.sub (.fin a) (.fin b) = R.rnd (a - b) := by
  simp [Rounding.sub, Rounding.add, Fl.neg, sub_eq_add_neg]

omit [IsStrictOrderedRing K] in
theorem div_fin {a : Fl K} {n z : K} (h : R.div a (.fin n) = .fin z) : ∃ x, a = .fin x ∧ (n ≠ 0 → R.rnd (x / n) = .fin z) := by
  cases a with
  | fin x =>
    refine ⟨x, rfl, fun hn => ?_⟩
    simpa [Rounding.div, hn] using h
  | nan => simp [Rounding.div] at h
  | pinf => simp only [Rounding.div] at h; split at h <;> cases h
  | ninf => simp only [Rounding.div] at h; split at h <;> cases h

omit [IsStrictOrderedRing K] in
theorem signInf_ne_fin (x z : K) : (Rounding.signInf x : Fl K) ≠ .fin z := by
  unfold Rounding.signInf; split
  · simp
  · split <;> simp

omit [IsStrictOrderedRing K] in
theorem mul_fin {a b : Fl K} {z : K} (h : R.mul a b = .fin z) : ∃ x y, a = .fin x ∧ b = .fin y ∧ R.rnd (x * y) = .fin z := by
  cases a <;> cases b <;> simp only [Rounding.mul] at h <;> first | exact ⟨_, _, rfl, rfl, h⟩ | exact absurd h (signInf_ne_fin _ _) | cases h

/-! ## Sums -/

/-- Adding up numbers that are each near an exact one. -/
theorem sum_near (P : R.Precise u tiny) {t : K} (ht : tiny ≤ t) (htr : R.rnd t = .fin t) {k : Nat} :
    ∀ (xs zs : List K), List.Forall₂ (fun x z => 0 ≤ x ∧ Near u k x z ∧ Big t z) xs zs →
    ∀ (m : Nat) (X s S : K), 0 ≤ X → Near u (k + m) X s → Big t s →
    (zs.map Fl.fin).foldl R.add (.fin s) = .fin S → Near u (k + m + zs.length) (X + xs.sum) S ∧ Big t S := by
  intro xs zs h
  have u0 := P.u_nonneg
  have u1 := P.u_lt
  induction h with
  | nil =>
    intro m X s S _ hn hb h
    simp only [List.map_nil, List.foldl_nil, Fl.fin.injEq] at h
    subst h
    simpa using ⟨hn, hb⟩
  | @cons x z xs zs hd _ ih =>
    intro m X s S hX hn hb h
    obtain ⟨hx, hxz, hz⟩ := hd
    rw [List.map_cons, List.foldl_cons] at h
    obtain ⟨⟨s', hs'⟩, -⟩ := foldl_fin _ _ _ h
    rw [hs'] at h
    have hr : R.rnd (s + z) = .fin s' := by simpa [Rounding.add] using hs'
    have hbig : Big t (s + z) := by
      have h0 : 0 ≤ s := Near.nonneg u1 hX hn
      have h1 : 0 ≤ z := Near.nonneg u1 hx hxz
      rcases hb with rfl | hb
      · simpa using hz
      · exact .inr (by linarith)
    have n1 : Near u (k + m) (X + x) (s + z) := Near.add hn (Near.mono u0 u1 (Nat.le_add_right k m) hx hxz)
    have n2 : Near u (k + m + 1) (X + x) s' := Near.trans u0 u1 n1 (near_rnd P hbig ht hr)
    have := ih (m + 1) (X + x) s' S (add_nonneg hX hx) n2 (big_rnd P hbig htr hr) h
    refine ⟨?_, this.2⟩
    have h3 := this.1
    rw [List.sum_cons, ← add_assoc]
    rwa [show k + (m + 1) + zs.length = k + m + (z :: zs).length by simp; omega] at h3

theorem sum_near' (P : R.Precise u tiny) {t : K} (ht : tiny ≤ t) (htr : R.rnd t = .fin t) {k : Nat} {xs zs : List K}
    (h : List.Forall₂ (fun x z => 0 ≤ x ∧ Near u k x z ∧ Big t z) xs zs) {S : K} (hs : R.sum (zs.map Fl.fin) = .fin S) :
    Near u (k + zs.length) xs.sum S ∧ Big t S := by
  have := sum_near P ht htr xs zs h 0 0 0 S (le_refl _) (by simp [Near]) (.inl rfl) hs
  simpa using this

/-! ## Terms -/

/-- The residual, rounded. -/
theorem residual_near (P : R.Precise u tiny) {ρ r z : K} (hρ : tiny ≤ ρ) (hr : r = 0 ∨ ρ ≤ |r|) (h : R.rnd r = .fin z) :
    Near u 1 |r| |z| := by
  rcases hr with rfl | hr
  · rw [rnd_zero P h]; simp [Near]
  · have := P.error r z (hρ.trans hr) h
    have h1 := abs_sub_abs_le_abs_sub z r
    have h2 := abs_sub_abs_le_abs_sub r z
    rw [abs_sub_comm r z] at h2
    refine ⟨?_, ?_⟩ <;> simp only [pow_one] <;> linarith

theorem residual_big (P : R.Precise u tiny) {ρ r z : K} (hρ : R.rnd ρ = .fin ρ) (hn : R.rnd (-ρ) = .fin (-ρ))
    (hr : r = 0 ∨ ρ ≤ |r|) (h : R.rnd r = .fin z) : Big ρ |z| := by
  rcases hr with rfl | hr
  · rw [rnd_zero P h]; exact .inl abs_zero
  · rcases le_abs.mp hr with c | c
    · have := P.lawful.mono c
      rw [hρ, h] at this
      have : ρ ≤ z := by simpa [Fl.le] using this
      exact .inr (this.trans (le_abs_self z))
    · have := P.lawful.mono (show r ≤ -ρ by linarith)
      rw [hn, h] at this
      have : z ≤ -ρ := by simpa [Fl.le] using this
      exact .inr (by rw [le_abs]; right; linarith)

/-- A pointwise loss that is `g` of the difference up to `k` roundings, where the difference is zero or at least `ρ`; its values are zero
or at least `t`. -/
structure PointNear (R : Rounding K) (u ρ : K) (F : Fl K → Fl K → Fl K) (g : K → K) (k : Nat) (t : K) : Prop where
  nonneg : ∀ r, 0 ≤ g r
  near : ∀ a b z, (a - b = 0 ∨ ρ ≤ |a - b|) → F (.fin a) (.fin b) = .fin z → Near u k (g (a - b)) z ∧ Big t z

theorem square_near (P : R.Precise u tiny) {lib : LossLib K} {ρ : K} (hρ : tiny ≤ ρ) (hρ2 : tiny ≤ ρ * ρ) (h1 : R.rnd ρ = .fin ρ)
    (h2 : R.rnd (-ρ) = .fin (-ρ)) (h3 : R.rnd (ρ * ρ) = .fin (ρ * ρ)) :
    PointNear R u ρ (PointLoss.squared.loss R lib) (fun r => r ^ 2) 3 (ρ * ρ) where
  nonneg r := sq_nonneg r
  near a b z hr h := by
    have u0 := P.u_nonneg
    have u1 := P.u_lt
    simp only [PointLoss.loss, sub_fin] at h
    obtain ⟨x, y, hx, hy, hz⟩ := mul_fin h
    obtain rfl : x = y := by rw [hx] at hy; cases hy; rfl
    have n1 := residual_near P hρ hr hx
    have b1 := residual_big P h1 h2 hr hx
    have b2 : Big (ρ * ρ) (x * x) := by
      rcases b1 with h0 | h0
      · left; rw [abs_eq_zero.mp h0]; ring
      · right; rw [← abs_mul_abs_self x]
        exact mul_self_le_mul_self (le_trans P.tiny_pos.le hρ) h0
    refine ⟨?_, big_rnd P b2 h3 hz⟩
    have n2 := Near.mul u0 u1 (abs_nonneg _) (abs_nonneg _) n1 n1
    rw [abs_mul_abs_self, abs_mul_abs_self] at n2
    have := Near.trans u0 u1 n2 (near_rnd P b2 hρ2 hz)
    rwa [show (a - b) * (a - b) = (a - b) ^ 2 by ring] at this

theorem distance_near (P : R.Precise u tiny) {lib : LossLib K} {ρ : K} (hρ : tiny ≤ ρ) (h1 : R.rnd ρ = .fin ρ)
    (h2 : R.rnd (-ρ) = .fin (-ρ)) : PointNear R u ρ (PointLoss.abs.loss R lib) (fun r => |r|) 1 ρ where
  nonneg r := abs_nonneg r
  near a b z hr h := by
    simp only [PointLoss.loss, sub_fin] at h
    cases hx : R.rnd (a - b) with
    | fin x =>
      rw [hx] at h
      have hz : z = |x| := by
        have : max x (-x) = z := by simpa [Fl.abs] using h
        rw [← this]; rfl
      subst hz
      exact ⟨residual_near P hρ hr hx, residual_big P h1 h2 hr hx⟩
    | nan => rw [hx] at h; simp [Fl.abs] at h
    | pinf => rw [hx] at h; simp [Fl.abs] at h
    | ninf => rw [hx] at h; simp [Fl.abs] at h

/-! ## Means -/

omit [IsStrictOrderedRing K] in
theorem rows_near {F : Fl K → Fl K → Fl K} {g : K → K} {k : Nat} {ρ t : K} (A : PointNear R u ρ F g k t) :
    ∀ (yhat y zs : List K), (∀ r ∈ residuals yhat y, r = 0 ∨ ρ ≤ |r|) →
    List.zipWith F (yhat.map Fl.fin) (y.map Fl.fin) = zs.map Fl.fin →
    List.Forall₂ (fun x z => 0 ≤ x ∧ Near u k x z ∧ Big t z) ((residuals yhat y).map g) zs
  | [], y, zs, _, h => by
    have : zs = [] := by simpa using h
    subst this; simp [residuals]
  | a :: yhat, [], zs, _, h => by
    have : zs = [] := by simpa using h
    subst this; simp [residuals]
  | a :: yhat, b :: y, [], _, h => by simp at h
  | a :: yhat, b :: y, z :: zs, hr, h => by
    simp only [List.map_cons, List.zipWith_cons_cons, List.cons.injEq] at h
    simp only [residuals, List.zipWith_cons_cons, List.map_cons, List.mem_cons, forall_eq_or_imp] at hr ⊢
    exact .cons ⟨A.nonneg _, A.near a b z hr.1 h.1⟩ (rows_near A yhat y zs hr.2 h.2)

/-- The mean of a pointwise loss. -/
theorem mean_near (P : R.Precise u tiny) {F : Fl K → Fl K → Fl K} {g : K → K} {k : Nat} {ρ t : K} (A : PointNear R u ρ F g k t)
    (ht : tiny ≤ t) (htr : R.rnd t = .fin t) (yhat y : List K) (hlen : yhat.length = y.length) (hne : y ≠ [])
    (hnat : R.ofNat y.length = .fin (y.length : K)) (hsmall : tiny * y.length ≤ t) (hr : ∀ r ∈ residuals yhat y, r = 0 ∨ ρ ≤ |r|) (l : K)
    (hl : meanLoss R F (yhat.map .fin) (y.map .fin) none = some (.fin l)) :
    Near u (k + y.length + 1) (((residuals yhat y).map g).sum / (y.length : K)) l := by
  have u0 := P.u_nonneg
  have u1 := P.u_lt
  have hpos : (0 : K) < y.length := by exact_mod_cast List.length_pos_iff.mpr hne
  have hnil : (y.map Fl.fin).isEmpty = false := by simpa [List.isEmpty_iff] using hne
  simp only [meanLoss, List.length_map, hlen, ne_eq, not_true, if_false, hnil, Bool.false_eq_true, Option.some.injEq, hnat] at hl
  obtain ⟨s, hs, hq⟩ := div_fin hl
  obtain ⟨-, zs, hz⟩ := foldl_fin _ _ _ hs
  have hf := rows_near A yhat y zs hr hz
  have hlz : zs.length = y.length := by
    have := congrArg List.length hz
    simp only [List.length_zipWith, List.length_map, hlen, Nat.min_self] at this
    exact this.symm
  rw [hz] at hs
  obtain ⟨n1, b1⟩ := sum_near' P ht htr hf hs
  rw [hlz] at n1
  have b2 : Big (t / y.length) (s / y.length) := by
    rcases b1 with rfl | b1
    · left; simp
    · right; gcongr
  have n2 : Near u (k + y.length) (((residuals yhat y).map g).sum / (y.length : K)) (s / y.length) := by
    refine ⟨?_, ?_⟩
    · rw [← mul_div_assoc]; gcongr; exact n1.1
    · rw [← mul_div_assoc]; gcongr; exact n1.2
  exact Near.trans u0 u1 n2 (near_rnd P b2 (by rwa [le_div_iff₀ hpos]) (hq hpos.ne'))

omit [IsStrictOrderedRing K] in
theorem weighted_rows {F : Fl K → Fl K → Fl K} : ∀ (w yhat y zs : List K), w.length = y.length → yhat.length = y.length →
    List.zipWith R.mul (w.map Fl.fin) (List.zipWith F (yhat.map Fl.fin) (y.map Fl.fin)) = zs.map Fl.fin →
    ∃ vs : List K, List.zipWith F (yhat.map Fl.fin) (y.map Fl.fin) = vs.map Fl.fin ∧
      List.Forall₂ (fun p z => R.rnd (p.1 * p.2) = .fin z) (w.zip vs) zs
  | [], yhat, y, zs, hw, hy, h => by
    have h1 : y = [] := by simpa using hw.symm
    subst h1
    have h2 : yhat = [] := by simpa using hy
    have h3 : zs = [] := by simpa using h
    subst h2 h3
    exact ⟨[], rfl, by simp⟩
  | w :: ws, [], y, zs, hw, hy, h => by simp [← hy] at hw
  | w :: ws, a :: yhat, [], zs, hw, hy, h => by simp at hw
  | w :: ws, a :: yhat, b :: y, [], hw, hy, h => by simp at h
  | w :: ws, a :: yhat, b :: y, z :: zs, hw, hy, h => by
    simp only [List.map_cons, List.zipWith_cons_cons, List.cons.injEq] at h
    obtain ⟨x, v, hx, hv, hz⟩ := mul_fin h.1
    cases hx
    obtain ⟨vs, h1, h2⟩ := weighted_rows ws yhat y zs (by simpa using hw) (by simpa using hy) h.2
    exact ⟨v :: vs, by simp [hv, h1], .cons hz h2⟩

theorem weighted_terms (P : R.Precise u tiny) {k : Nat} {σ t : K} (hσ : 0 < σ) (ht0 : 0 < t) (ht : tiny ≤ σ * t) (htr : R.rnd (σ * t) = .fin (σ * t)) :
    ∀ (w xs vs zs : List K), (∀ a ∈ w, a = 0 ∨ σ ≤ a) → w.length = vs.length →
    List.Forall₂ (fun x z => 0 ≤ x ∧ Near u k x z ∧ Big t z) xs vs →
    List.Forall₂ (fun p z => R.rnd (p.1 * p.2) = .fin z) (w.zip vs) zs →
    List.Forall₂ (fun x z => 0 ≤ x ∧ Near u (k + 1) x z ∧ Big (σ * t) z) (List.zipWith (fun a x => a * x) w xs) zs
  | [], xs, vs, zs, _, hl, h, hz => by
    have : vs = [] := by simpa using hl.symm
    subst this
    cases hz; simp
  | a :: w, _, [], zs, _, hl, h, hz => by simp at hl
  | a :: w, _, v :: vs, zs, hw, hl, h, hz => by
    have u0 := P.u_nonneg
    have u1 := P.u_lt
    cases h with
    | @cons x _ xs _ hd htl =>
    cases hz with
    | @cons _ z _ zs hz hzs =>
    obtain ⟨hx, hn, hb⟩ := hd
    simp only [List.mem_cons, forall_eq_or_imp] at hw
    have ha : 0 ≤ a := by rcases hw.1 with h0 | h0 <;> linarith
    have hbig : Big (σ * t) (a * v) := by
      rcases hw.1 with h0 | h0
      · left; rw [h0, zero_mul]
      · rcases hb with h1 | h1
        · left; rw [h1, mul_zero]
        · right; exact mul_le_mul h0 h1 ht0.le ha
    refine .cons ⟨mul_nonneg ha hx, ?_, big_rnd P hbig htr hz⟩ (weighted_terms P hσ ht0 ht htr w xs vs zs hw.2 (by simpa using hl) htl hzs)
    have n0 : Near u k (a * x) (a * v) := by
      have := Near.mul u0 u1 ha hx (Near.refl a) hn
      rwa [Nat.zero_add] at this
    exact Near.trans u0 u1 n0 (near_rnd P hbig ht hz)

theorem weights_near {σ : K} (hσ : 0 < σ) : ∀ (w : List K), (∀ a ∈ w, a = 0 ∨ σ ≤ a) →
    List.Forall₂ (fun x z => 0 ≤ x ∧ Near u 0 x z ∧ Big σ z) w w
  | [], _ => .nil
  | a :: w, h => by
    simp only [List.mem_cons, forall_eq_or_imp] at h
    refine .cons ⟨?_, Near.refl a, h.1⟩ (weights_near hσ w h.2)
    rcases h.1 with h0 | h0 <;> linarith

/-- The weighted mean of a pointwise loss. -/
theorem weighted_near (P : R.Precise u tiny) {F : Fl K → Fl K → Fl K} {g : K → K} {k : Nat} {ρ σ t : K} (A : PointNear R u ρ F g k t)
    (hσ : tiny ≤ σ) (hσr : R.rnd σ = .fin σ) (ht0 : 0 < t) (ht : tiny ≤ σ * t) (htr : R.rnd (σ * t) = .fin (σ * t)) (w yhat y : List K)
    (hw : w.length = y.length) (hlen : yhat.length = y.length) (hwσ : ∀ a ∈ w, a = 0 ∨ σ ≤ a) (hwpos : 0 < w.sum)
    (hWf : (R.sum (w.map Fl.fin)).isFinite = true) (hsmall : tiny * ((1 + u) ^ y.length * w.sum) ≤ σ * t) (hr : ∀ r ∈ residuals yhat y, r = 0 ∨ ρ ≤ |r|) (l : K)
    (hl : meanLoss R F (yhat.map .fin) (y.map .fin) (some (w.map .fin)) = some (.fin l)) :
    (1 - u) ^ (k + y.length + 2) * ((List.zipWith (fun a r => a * g r) w (residuals yhat y)).sum / w.sum) ≤ l * (1 + u) ^ y.length ∧
    l * (1 - u) ^ y.length ≤ (1 + u) ^ (k + y.length + 2) * ((List.zipWith (fun a r => a * g r) w (residuals yhat y)).sum / w.sum) := by
  have u0 := P.u_nonneg
  have u1 := P.u_lt
  have hσ0 : 0 < σ := lt_of_lt_of_le P.tiny_pos hσ
  simp only [meanLoss, List.length_map, hlen, hw, ne_eq, not_true, or_self, if_false] at hl
  split at hl
  · next hz =>
    -- the computed sum of the weights is zero
    exfalso
    cases hW : R.sum (w.map Fl.fin) with
    | fin W =>
      obtain ⟨n1, -⟩ := sum_near' P hσ hσr (weights_near (u := u) hσ0 w hwσ) hW
      have h1 : 0 < W := lt_of_lt_of_le (mul_pos (pow_pos (by linarith) _) hwpos) n1.1
      rw [hW] at hz
      simp only [Fl.feq, Fl.le, Bool.and_eq_true, decide_eq_true_eq] at hz
      linarith [hz.1]
    | nan => rw [hW] at hz; simp [Fl.feq, Fl.le] at hz
    | pinf => rw [hW] at hz; simp [Fl.feq, Fl.le] at hz
    | ninf => rw [hW] at hz; simp [Fl.feq, Fl.le] at hz
  · simp only [Option.some.injEq] at hl
    cases hW : R.sum (w.map Fl.fin) with
    | fin W =>
      obtain ⟨n1, -⟩ := sum_near' P hσ hσr (weights_near (u := u) hσ0 w hwσ) hW
      rw [hw, Nat.zero_add] at n1
      have hWpos : 0 < W := lt_of_lt_of_le (mul_pos (pow_pos (by linarith) _) hwpos) n1.1
      rw [hW] at hl
      obtain ⟨s, hs, hq⟩ := div_fin hl
      obtain ⟨-, zs, hz⟩ := foldl_fin _ _ _ hs
      obtain ⟨vs, hv, hp⟩ := weighted_rows w yhat y zs hw hlen hz
      have hlv : vs.length = y.length := by
        have := congrArg List.length hv
        simp only [List.length_zipWith, List.length_map, hlen, Nat.min_self] at this
        exact this.symm
      have hlz : zs.length = y.length := by
        have := congrArg List.length hz
        simp only [List.length_zipWith, List.length_map, hlen, hw, Nat.min_self] at this
        exact this.symm
      have hf := weighted_terms P hσ0 ht0 ht htr w _ vs zs hwσ (by rw [hw, hlv]) (rows_near A yhat y vs hr hv) hp
      rw [hz] at hs
      obtain ⟨n2, b2⟩ := sum_near' P ht htr hf hs
      rw [hlz] at n2
      have hx : List.zipWith (fun a x => a * x) w ((residuals yhat y).map g) = List.zipWith (fun a r => a * g r) w (residuals yhat y) := by
        rw [List.zipWith_map_right]
      rw [hx] at n2
      generalize hX : (List.zipWith (fun a r => a * g r) w (residuals yhat y)).sum = X at n2 ⊢
      have hX0 : 0 ≤ X := by
        rw [← hX, ← hx]
        refine List.sum_nonneg fun x hx => ?_
        clear hX n2 hs hl hq
        have : ∀ (l m : List K), List.Forall₂ (fun x z => 0 ≤ x ∧ Near u (k + 1) x z ∧ Big (σ * t) z) l m → ∀ x ∈ l, 0 ≤ x := by
          intro l m h
          induction h with
          | nil => simp
          | cons hd _ ih => simp only [List.mem_cons, forall_eq_or_imp]; exact ⟨hd.1, ih⟩
        exact this _ _ hf x hx
      have b3 : Big (σ * t / W) (s / W) := by
        rcases b2 with rfl | b2
        · left; simp
        · right; gcongr
      have htiny : tiny ≤ σ * t / W := by
        rw [le_div_iff₀ hWpos]
        exact le_trans (mul_le_mul_of_nonneg_left n1.2 P.tiny_pos.le) hsmall
      have n3 := near_rnd P b3 htiny (hq hWpos.ne')
      have n4 : Near u (k + y.length + 2) (X / W) l := by
        have h4 : Near u (k + 1 + y.length) (X / W) (s / W) := by
          refine ⟨?_, ?_⟩
          · rw [← mul_div_assoc]; gcongr; exact n2.1
          · rw [← mul_div_assoc]; gcongr; exact n2.2
        have := Near.trans u0 u1 h4 n3
        rwa [show k + 1 + y.length + 1 = k + y.length + 2 by omega] at this
      have hl0 : 0 ≤ l := Near.nonneg u1 (div_nonneg hX0 hWpos.le) n4
      have e : X / w.sum = X / W * (W / w.sum) := by field_simp
      have hlow : W / w.sum ≤ (1 + u) ^ y.length := by rw [div_le_iff₀ hwpos]; exact n1.2
      have hup : (1 - u) ^ y.length ≤ W / w.sum := by rw [le_div_iff₀ hwpos]; exact n1.1
      have hr0 : 0 ≤ W / w.sum := (div_pos hWpos hwpos).le
      rw [e]
      constructor
      · calc (1 - u) ^ (k + y.length + 2) * (X / W * (W / w.sum)) = ((1 - u) ^ (k + y.length + 2) * (X / W)) * (W / w.sum) := by ring
          _ ≤ l * (W / w.sum) := mul_le_mul_of_nonneg_right n4.1 hr0
          _ ≤ l * (1 + u) ^ y.length := mul_le_mul_of_nonneg_left hlow hl0
      · calc l * (1 - u) ^ y.length ≤ l * (W / w.sum) := mul_le_mul_of_nonneg_left hup hl0
          _ ≤ ((1 + u) ^ (k + y.length + 2) * (X / W)) * (W / w.sum) := mul_le_mul_of_nonneg_right n4.2 hr0
          _ = (1 + u) ^ (k + y.length + 2) * (X / W * (W / w.sum)) := by ring
    | nan => rw [hW] at hWf; cases hWf
    | pinf => rw [hW] at hWf; cases hWf
    | ninf => rw [hW] at hWf; cases hWf

/-! ## Simple bounds -/

theorem pow_lower (u0 : 0 ≤ u) (u1 : u < 1) : ∀ m : Nat, 1 - m * u ≤ (1 - u) ^ m
  | 0 => by simp
  | m + 1 => by
    have h := pow_lower u0 u1 m
    have : 0 ≤ (m : K) * u * u := mul_nonneg (mul_nonneg (Nat.cast_nonneg m) u0) u0
    calc 1 - ((m + 1 : Nat) : K) * u ≤ (1 - m * u) * (1 - u) := by push_cast; nlinarith
      _ ≤ (1 - u) ^ m * (1 - u) := mul_le_mul_of_nonneg_right h (by linarith)
      _ = (1 - u) ^ (m + 1) := by ring

theorem pow_upper (u0 : 0 ≤ u) (u1 : u < 1) (m : Nat) : (1 + u) ^ m * (1 - m * u) ≤ 1 := by
  calc (1 + u) ^ m * (1 - m * u) ≤ (1 + u) ^ m * (1 - u) ^ m :=
        mul_le_mul_of_nonneg_left (pow_lower u0 u1 m) (pow_nonneg (by linarith) m)
    _ = (1 - u ^ 2) ^ m := by rw [← mul_pow]; ring_nf
    _ ≤ 1 := pow_le_one₀ (by nlinarith) (by nlinarith [sq_nonneg u])

theorem near_close (u0 : 0 ≤ u) (u1 : u < 1) {m : Nat} (hm : m * u ≤ 1 / 2) {x y : K} (hx : 0 ≤ x) (n : Near u m x y) :
    |y - x| ≤ 2 * m * u * x := by
  have h1 := pow_lower u0 u1 m
  have h2 := pow_upper u0 u1 m
  have hmu : 0 ≤ (m : K) * u := mul_nonneg (Nat.cast_nonneg m) u0
  have h3 : (1 + u) ^ m ≤ 1 + 2 * m * u := by
    have hp : 0 ≤ (1 + u) ^ m := pow_nonneg (by linarith) m
    have h5 : 1 ≤ (1 + 2 * m * u) * (1 - m * u) := by nlinarith
    by_contra c
    rw [not_le] at c
    have : (1 + 2 * m * u) * (1 - m * u) < (1 + u) ^ m * (1 - m * u) := mul_lt_mul_of_pos_right c (by linarith)
    linarith
  have h6 := mul_le_mul_of_nonneg_right h1 hx
  have h7 := mul_le_mul_of_nonneg_right h3 hx
  have h8 : 0 ≤ m * u * x := mul_nonneg hmu hx
  rw [abs_le]
  constructor
  · linarith [n.1]
  · linarith [n.2]

end Accuracy
end SR
