import Verif.Spec.Loss
import Verif.Proofs.Stats
import Mathlib.Tactic.Linarith
/-
Signs of rounded arithmetic, and sums.
-/
namespace SR
variable {K : Type} [Field K] [LinearOrder K] [IsStrictOrderedRing K] {R : Rounding K}

/-- Not negative: NaN or at least zero. -/
def NN (v : Fl K) : Prop := v.lt (.fin 0) = false

omit [IsStrictOrderedRing K] in
theorem nn_fin {x : K} : NN (.fin x) ↔ 0 ≤ x := by simp [NN, Fl.lt]

omit [IsStrictOrderedRing K] in
theorem nn_rnd (hR : R.Lawful) {x : K} (h : 0 ≤ x) : NN (R.rnd x) := by
  have := hR.mono h
  rw [hR.zero] at this
  exact (Fl.le_iff rfl (hR.not_nan x)).mp this

omit [IsStrictOrderedRing K] in
/-- Rounding a non-positive number. -/
theorem rnd_nonpos (hR : R.Lawful) {x : K} (h : x ≤ 0) : R.rnd x = .ninf ∨ ∃ y, R.rnd x = .fin y ∧ y ≤ 0 := by
  have := hR.mono h
  rw [hR.zero] at this
  cases hx : R.rnd x with
  | nan => rw [hx] at this; simp [Fl.le] at this
  | ninf => exact .inl rfl
  | fin y => rw [hx] at this; exact .inr ⟨y, rfl, by simpa [Fl.le] using this⟩
  | pinf => rw [hx] at this; simp [Fl.le] at this

omit [IsStrictOrderedRing K] in
theorem rnd_nonneg (hR : R.Lawful) {x : K} (h : 0 ≤ x) : R.rnd x = .pinf ∨ ∃ y, R.rnd x = .fin y ∧ 0 ≤ y := by
  have := hR.mono h
  rw [hR.zero] at this
  cases hx : R.rnd x with
  | nan => rw [hx] at this; simp [Fl.le] at this
  | pinf => exact .inl rfl
  | fin y => rw [hx] at this; exact .inr ⟨y, rfl, by simpa [Fl.le] using this⟩
  | ninf => rw [hx] at this; simp [Fl.le] at this

omit [IsStrictOrderedRing K] in
theorem nn_signInf {x : K} (h : 0 ≤ x) : NN (Rounding.signInf x) := by
  unfold Rounding.signInf
  split
  · rfl
  · rw [if_neg (not_lt.mpr h)]; rfl

theorem nn_add (hR : R.Lawful) {a b : Fl K} (ha : NN a) (hb : NN b) : NN (R.add a b) := by
  cases a <;> cases b <;> simp_all [NN, Fl.lt, Rounding.add]
  exact nn_rnd hR (by linarith)

theorem nn_mul (hR : R.Lawful) {a b : Fl K} (ha : NN a) (hb : NN b) : NN (R.mul a b) := by
  cases a <;> cases b <;> simp_all [NN, Fl.lt, Rounding.mul]
  · exact nn_rnd hR (mul_nonneg ha hb)
  · exact nn_signInf ha
  · exact nn_signInf hb

theorem nn_div (hR : R.Lawful) {a b : Fl K} (ha : NN a) (hb : NN b) : NN (R.div a b) := by
  cases a <;> cases b <;> simp_all [NN, Fl.lt, Rounding.div]
  · rename_i x y
    by_cases hy : y = 0
    · rw [if_pos hy]; exact nn_signInf ha
    · rw [if_neg hy]; exact nn_rnd hR (div_nonneg ha hb)
  · rename_i y; rw [if_neg (not_lt.mpr hb)]

theorem nn_square (hR : R.Lawful) (a : Fl K) : NN (R.mul a a) := by
  cases a <;> simp [NN, Fl.lt, Rounding.mul]
  exact nn_rnd hR (mul_self_nonneg _)

theorem nn_abs (a : Fl K) : NN a.abs := by
  cases a <;> simp [NN, Fl.lt, Fl.abs]
  exact le_of_lt

theorem nn_sum (hR : R.Lawful) (l : List (Fl K)) (h : ∀ v ∈ l, NN v) : NN (R.sum l) := by
  have : ∀ (l : List (Fl K)) (a : Fl K), NN a → (∀ v ∈ l, NN v) → NN (l.foldl R.add a) := by
    intro l
    induction l with
    | nil => intro a ha _; exact ha
    | cons v l ih => intro a ha h; exact ih _ (nn_add hR ha (h v (by simp))) fun x hx => h x (by simp [hx])
  exact this l _ (by simp [NN, Fl.lt]) h

omit [Field K] [LinearOrder K] [IsStrictOrderedRing K] in
theorem mem_zipWith {α β γ : Type} (f : α → β → γ) : ∀ (l1 : List α) (l2 : List β) (x : γ),
    x ∈ List.zipWith f l1 l2 → ∃ a ∈ l1, ∃ b ∈ l2, f a b = x := by
  intro l1
  induction l1 with
  | nil => intro l2 x h; simp at h
  | cons a l1 ih =>
    intro l2 x h
    cases l2 with
    | nil => simp at h
    | cons b l2 =>
      simp at h
      rcases h with h | h
      · exact ⟨a, by simp, b, by simp, h.symm⟩
      · obtain ⟨a', h1, b', h2, h3⟩ := ih l2 x h
        exact ⟨a', by simp [h1], b', by simp [h2], h3⟩

theorem pointLoss_nn (hR : R.Lawful) {lib : LossLib K} (hl : lib.Sane) (l : PointLoss K) (hv : l.Valid R)
    (a b : Fl K) : NN (l.loss R lib a b) := by
  cases l with
  | squared => exact nn_square hR _
  | abs => exact nn_abs _
  | logCosh => exact hl.logcosh_nonneg _
  | lp p => exact hl.powf_nonneg _ _ (nn_abs _)
  | epsIns e =>
    simp only [PointLoss.loss]
    split
    · next h => exact Fl.lt_asymm h
    · simp [NN, Fl.lt]
  | quantile t =>
    obtain ⟨x, rfl, h0, h1⟩ := hv
    simp only [PointLoss.loss]
    split
    · next h => exact nn_mul hR (nn_fin.mpr h0) ((Fl.le_iff rfl (Fl.le_not_nan h).2).mp h)
    · next h =>
      have e : R.sub (.fin x) (.fin 1) = R.rnd (x + -1) := rfl
      rw [e]
      generalize R.sub b a = u at h ⊢
      have hx : x + -1 ≤ 0 := by linarith
      rcases rnd_nonpos hR hx with h2 | ⟨y, h2, h3⟩ <;> rw [h2] <;> cases u <;>
        simp [Fl.le, NN, Rounding.mul, Fl.lt] at h ⊢
      · exact nn_signInf (by linarith)
      · exact nn_signInf (by linarith)
      · exact nn_rnd hR (mul_nonneg_of_nonpos_of_nonpos h3 h.le)
  | huber d =>
    obtain ⟨x, rfl, h0, hrep⟩ := hv
    have hh : ∃ y, R.rnd (1 / 2) = .fin y ∧ 0 ≤ y ∧ y ≤ 1 := by
      obtain ⟨y, h1, h2, h3, _⟩ := rnd_between hR (a := 0) (b := 1) (x := 1 / 2) hR.zero hR.one
        (by norm_num) (by norm_num)
      exact ⟨y, h1, h2, h3⟩
    obtain ⟨y, hy, hy0, hy1⟩ := hh
    simp only [PointLoss.loss, hy]
    generalize R.sub a b = r
    split
    · cases r with
      | nan => simp [NN, Rounding.mul, Fl.lt]
      | pinf => next h => simp [Fl.abs, Fl.le] at h
      | ninf => next h => simp [Fl.abs, Fl.le] at h
      | fin z =>
        simp only [Rounding.mul]
        rcases le_total 0 z with hz | hz
        · rcases rnd_nonneg hR (mul_nonneg hy0 hz) with h2 | ⟨q, h2, h3⟩ <;> rw [h2]
          · exact nn_signInf hz
          · exact nn_rnd hR (mul_nonneg h3 hz)
        · rcases rnd_nonpos hR (mul_nonpos_of_nonneg_of_nonpos hy0 hz) with h2 | ⟨q, h2, h3⟩ <;> rw [h2]
          · exact nn_signInf (by linarith)
          · exact nn_rnd hR (mul_nonneg_of_nonpos_of_nonpos h3 hz)
    · next h =>
      refine nn_mul hR (nn_fin.mpr h0) ?_
      obtain ⟨q, hq, hq0, hq1, _⟩ := rnd_between hR (a := 0) (b := x) (x := y * x) hR.zero (hrep x rfl)
        (mul_nonneg hy0 h0) (by nlinarith)
      simp only [Rounding.mul, hq, Rounding.sub, Fl.neg]
      have hn := nn_abs r
      generalize r.abs = w at h hn
      cases w with
      | nan => simp [NN, Rounding.add, Fl.lt]
      | pinf => simp [NN, Rounding.add, Fl.lt]
      | ninf => simp [NN, Fl.lt] at hn
      | fin z =>
        simp [Fl.le] at h
        exact nn_rnd hR (by linarith)

/-- Summing zeros. -/
theorem sum_zeros (hR : R.Lawful) (l : List (Fl K)) (h : ∀ v ∈ l, v = .fin 0) : R.sum l = .fin 0 := by
  have : ∀ (l : List (Fl K)), (∀ v ∈ l, v = .fin 0) → l.foldl R.add (.fin 0) = .fin 0 := by
    intro l
    induction l with
    | nil => intro _; rfl
    | cons v l ih =>
      intro h
      rw [List.foldl_cons, h v (by simp)]
      have : R.add (.fin 0) (.fin 0) = .fin 0 := by simp [Rounding.add, hR.zero]
      rw [this]
      exact ih fun x hx => h x (by simp [hx])
  exact this l h

theorem sub_self_fin (hR : R.Lawful) (x : K) : R.sub (.fin x) (.fin x) = .fin 0 := by
  simp [Rounding.sub, Rounding.add, Fl.neg, hR.zero]

theorem pointLoss_zero (hR : R.Lawful) {lib : LossLib K} (hl : lib.Sane) (l : PointLoss K) (hv : l.Valid R)
    (x : K) : l.loss R lib (.fin x) (.fin x) = .fin 0 := by
  have habs : (Fl.fin (0 : K)).abs = .fin 0 := by simp [Fl.abs]
  cases l with
  | squared => simp [PointLoss.loss, sub_self_fin hR, Rounding.mul, hR.zero]
  | abs => simp [PointLoss.loss, sub_self_fin hR, habs]
  | logCosh => simp [PointLoss.loss, sub_self_fin hR, hl.logcosh_zero]
  | lp p =>
    obtain ⟨q, rfl, hq⟩ := hv
    simp [PointLoss.loss, sub_self_fin hR, habs, hl.powf_zero q hq]
  | epsIns e =>
    obtain ⟨q, rfl, hq⟩ := hv
    simp only [PointLoss.loss, sub_self_fin hR, habs]
    have : R.sub (.fin 0) (.fin q) = R.rnd (0 + -q) := rfl
    rw [this]
    rcases rnd_nonpos hR (x := 0 + -q) (by linarith) with h | ⟨y, h, h2⟩ <;> rw [h] <;> simp [Fl.lt]
    intro h3; linarith
  | quantile t =>
    obtain ⟨q, rfl, h0, h1⟩ := hv
    simp [PointLoss.loss, sub_self_fin hR, Fl.le, Rounding.mul, hR.zero]
  | huber d =>
    obtain ⟨q, rfl, h0, _⟩ := hv
    obtain ⟨y, h1, _⟩ := rnd_between hR (a := 0) (b := 1) (x := 1 / 2) hR.zero hR.one
        (by norm_num) (by norm_num)
    simp only [PointLoss.loss, sub_self_fin hR, habs]
    rw [if_pos (by simpa [Fl.le] using h0), h1]
    simp [Rounding.mul, hR.zero]

theorem zero_div_of (hR : R.Lawful) {d : Fl K} (hn : d.isNan = false) (h0 : d ≠ .fin 0) :
    R.div (.fin 0) d = .fin 0 := by
  cases d with
  | nan => simp [Fl.isNan] at hn
  | fin y =>
    have : y ≠ 0 := fun h => h0 (by rw [h])
    simp [Rounding.div, this, hR.zero]
  | pinf => rfl
  | ninf => rfl

theorem ofNat_pos (hR : R.Lawful) {n : Nat} (h : 0 < n) : (R.ofNat n).isNan = false ∧ R.ofNat n ≠ .fin 0 := by
  refine ⟨hR.not_nan _, fun h0 => ?_⟩
  have h1 : (1 : K) ≤ n := by exact_mod_cast h
  have := hR.mono h1
  rw [hR.one, show R.rnd (n : K) = .fin 0 from h0] at this
  simp [Fl.le] at this
  exact absurd this (by simp)

/-- A sum of non-negative finite numbers is not NaN. -/
theorem sum_not_nan (hR : R.Lawful) (l : List (Fl K)) (h : ∀ v ∈ l, ∃ x, v = .fin x ∧ 0 ≤ x) :
    (R.sum l).isNan = false := by
  have : ∀ (l : List (Fl K)) (a : Fl K), NN a → a.isNan = false → (∀ v ∈ l, ∃ x, v = .fin x ∧ 0 ≤ x) →
      (l.foldl R.add a).isNan = false := by
    intro l
    induction l with
    | nil => intro a _ ha _; exact ha
    | cons v l ih =>
      intro a hn ha h
      obtain ⟨x, rfl, hx⟩ := h v (by simp)
      refine ih _ (nn_add hR hn (nn_fin.mpr hx)) ?_ fun y hy => h y (by simp [hy])
      cases a with
      | nan => simp [Fl.isNan] at ha
      | ninf => simp [NN, Fl.lt] at hn
      | pinf => rfl
      | fin z => exact hR.not_nan _
  exact this l _ (by simp [NN, Fl.lt]) rfl h

end SR
