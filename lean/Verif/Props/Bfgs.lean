import Verif.Spec.Bfgs
import Verif.Props.Optim
import Verif.Proofs.Stats
import Mathlib.LinearAlgebra.Matrix.Symmetric
import Mathlib.Tactic.Ring
import Mathlib.Tactic.Linarith
import Mathlib.Tactic.FieldSimp
import Mathlib.Algebra.BigOperators.Fin
/-
C67: in exact arithmetic the multi-dimensional minimiser is the textbook BFGS method.
-/
namespace SR
open Matrix
variable {K : Type} [Field K] [LinearOrder K] [IsStrictOrderedRing K] {n : Nat}

/-! ### The formula -/

/-- The quadratic form of the new approximation. -/
theorem bfgsFormula_form (H : Matrix (Fin n) (Fin n) K) (s y v : Fin n → K) :
    v ⬝ᵥ (bfgsFormula H s y *ᵥ v) =
      (v - ((s ⬝ᵥ y)⁻¹ * (s ⬝ᵥ v)) • y) ⬝ᵥ (H *ᵥ (v - ((s ⬝ᵥ y)⁻¹ * (s ⬝ᵥ v)) • y)) + (s ⬝ᵥ y)⁻¹ * (s ⬝ᵥ v) ^ 2 := by
  have h1 : (1 - (s ⬝ᵥ y)⁻¹ • vecMulVec y s) *ᵥ v = v - ((s ⬝ᵥ y)⁻¹ * (s ⬝ᵥ v)) • y := by
    rw [sub_mulVec, one_mulVec, smul_mulVec, vecMulVec_mulVec]
    simp [smul_smul]
  have h2 : v ᵥ* (1 - (s ⬝ᵥ y)⁻¹ • vecMulVec s y) = v - ((s ⬝ᵥ y)⁻¹ * (s ⬝ᵥ v)) • y := by
    rw [vecMul_sub, vecMul_one, vecMul_smul, vecMul_vecMulVec, dotProduct_comm v s]
    simp [smul_smul]
  unfold bfgsFormula
  rw [add_mulVec, dotProduct_add, ← mulVec_mulVec, ← mulVec_mulVec, dotProduct_mulVec, h1, h2, smul_mulVec,
    dotProduct_smul, vecMulVec_mulVec]
  congr 1
  simp [dotProduct_comm v s, sq]

/-- C67: the formula keeps symmetric positive definite approximations symmetric and positive definite whenever the
curvature is positive, and satisfies the secant equation. -/
theorem C67_formula (H : Matrix (Fin n) (Fin n) K) (hH : SPD H) (s y : Fin n → K) (hc : 0 < s ⬝ᵥ y) :
    SPD (bfgsFormula H s y) ∧ bfgsFormula H s y *ᵥ y = s := by
  refine ⟨⟨?_, ?_⟩, ?_⟩
  · unfold bfgsFormula
    simp only [transpose_add, transpose_mul, transpose_sub, transpose_one, transpose_smul, transpose_vecMulVec, hH.symm,
      Matrix.mul_assoc]
  · intro v hv
    rw [bfgsFormula_form]
    by_cases h0 : s ⬝ᵥ v = 0
    · rw [h0]
      simpa using hH.pos v hv
    · have h1 : 0 < (s ⬝ᵥ y)⁻¹ * (s ⬝ᵥ v) ^ 2 := mul_pos (inv_pos.mpr hc) (by positivity)
      have h2 : 0 ≤ (v - ((s ⬝ᵥ y)⁻¹ * (s ⬝ᵥ v)) • y) ⬝ᵥ (H *ᵥ (v - ((s ⬝ᵥ y)⁻¹ * (s ⬝ᵥ v)) • y)) := by
        by_cases hz : v - ((s ⬝ᵥ y)⁻¹ * (s ⬝ᵥ v)) • y = 0
        · rw [hz]; simp
        · exact (hH.pos _ hz).le
      linarith
  · have h1 : (1 - (s ⬝ᵥ y)⁻¹ • vecMulVec y s) *ᵥ y = 0 := by
      rw [sub_mulVec, one_mulVec, smul_mulVec, vecMulVec_mulVec]
      simp [smul_smul, hc.ne']
    unfold bfgsFormula
    rw [add_mulVec, ← mulVec_mulVec, h1, mulVec_zero, zero_add, smul_mulVec, vecMulVec_mulVec]
    simp [smul_smul, hc.ne']

theorem spd_one : SPD (1 : Matrix (Fin n) (Fin n) K) := by
  refine ⟨transpose_one, fun v hv => ?_⟩
  rw [one_mulVec]
  obtain ⟨i, hi⟩ : ∃ i, v i ≠ 0 := by
    by_contra h
    push Not at h
    exact hv (funext h)
  unfold dotProduct
  exact Finset.sum_pos' (fun j _ => mul_self_nonneg _) ⟨i, Finset.mem_univ i, mul_self_pos.mpr hi⟩

theorem nextInverse_spd {H : Matrix (Fin n) (Fin n) K} (hH : SPD H) (s y : Fin n → K) : SPD (nextInverse H s y) := by
  unfold nextInverse
  split
  · next h => exact (C67_formula H hH s y (lt_trans (by positivity) h)).1
  · exact spd_one

/-- C67: whatever steps and gradient changes occur, in whatever number, the approximation stays symmetric and positive
definite, so for every non-zero gradient the direction has negative slope. -/
theorem C67_descent (history : List ((Fin n → K) × (Fin n → K))) (g : Fin n → K) (hg : g ≠ 0) :
    SPD (history.foldl (fun H p => nextInverse H p.1 p.2) 1) ∧
    g ⬝ᵥ (-(history.foldl (fun H p => nextInverse H p.1 p.2) 1 *ᵥ g)) < 0 := by
  have key : ∀ (l : List ((Fin n → K) × (Fin n → K))) (H : Matrix (Fin n) (Fin n) K), SPD H →
      SPD (l.foldl (fun H p => nextInverse H p.1 p.2) H) := by
    intro l
    induction l with
    | nil => exact fun H h => h
    | cons p l ih => exact fun H h => ih _ (nextInverse_spd h _ _)
  have h := key history 1 spd_one
  refine ⟨h, ?_⟩
  rw [dotProduct_neg]
  exact neg_neg_of_pos (h.pos g hg)

/-! ### Flat arrays -/

omit [IsStrictOrderedRing K] [LinearOrder K] in
theorem vec_length (v : Fin n → K) : (vec v).length = n := by simp [vec]

omit [IsStrictOrderedRing K] in
theorem vec_getD (v : Fin n → K) (i : Fin n) : ((vec v)[i.val]?).getD .nan = .fin (v i) := by
  simp [vec]

/-- A matrix as a flat array, row by row. -/
def flat (H : Matrix (Fin n) (Fin n) K) : List (Fl K) :=
  List.ofFn fun k : Fin (n * n) => .fin (H k.divNat k.modNat)

omit [IsStrictOrderedRing K] in
theorem matAt_flat (H : Matrix (Fin n) (Fin n) K) (i j : Fin n) : matAt (flat H) n i j = .fin (H i j) := by
  have hlt : i.val * n + j.val < n * n := by
    calc i.val * n + j.val < i.val * n + n := by omega
      _ = (i.val + 1) * n := by ring
      _ ≤ n * n := Nat.mul_le_mul_right n i.isLt
  have hd : (i.val * n + j.val) / n = i.val := by
    rw [Nat.add_comm, Nat.add_mul_div_right _ _ (by omega), Nat.div_eq_of_lt j.isLt, Nat.zero_add]
  have hm : (i.val * n + j.val) % n = j.val := by
    rw [Nat.add_comm, Nat.add_mul_mod_self_right, Nat.mod_eq_of_lt j.isLt]
  unfold matAt flat
  rw [List.getElem?_ofFn, dif_pos hlt]
  simp only [Option.getD_some]
  congr 1
  congr 1 <;> ext <;> simp [Fin.divNat, Fin.modNat, hd, hm]

omit [IsStrictOrderedRing K] in
theorem range_map_flat (F : Nat → Fl K) (H : Matrix (Fin n) (Fin n) K)
    (h : ∀ k (hk : k < n * n), F k = .fin (H (Fin.divNat (⟨k, hk⟩ : Fin (n * n))) (Fin.modNat ⟨k, hk⟩))) :
    (List.range (n * n)).map F = flat H := by
  refine List.ext_getElem (by simp [flat]) fun k h1 h2 => ?_
  simp only [flat, List.length_ofFn] at h2
  simp [flat, h k h2]

omit [IsStrictOrderedRing K] in
theorem range_map_vec (F : Nat → Fl K) (v : Fin n → K) (h : ∀ i : Fin n, F i = .fin (v i)) :
    (List.range n).map F = vec v := by
  refine List.ext_getElem (by simp [vec]) fun k h1 h2 => ?_
  simp only [vec, List.length_ofFn] at h2
  have := h ⟨k, h2⟩
  simp only at this
  simp [vec, this]

theorem sum_vec (v : Fin n → K) : (Rounding.exact K).sum (vec v) = .fin (∑ i, v i) := by
  have := exact_sum (List.ofFn v)
  rw [List.map_ofFn, List.sum_ofFn] at this
  exact this

omit [IsStrictOrderedRing K] in
theorem zipWith_vec (F : Fl K → Fl K → Fl K) (f : K → K → K) (hF : ∀ a b, F (.fin a) (.fin b) = .fin (f a b))
    (u v : Fin n → K) : List.zipWith F (vec u) (vec v) = vec fun i => f (u i) (v i) := by
  refine List.ext_getElem (by simp [vec]) fun k h1 h2 => ?_
  simp [vec, hF]

theorem exact_fsub (a b : K) : (Rounding.exact K).sub (.fin a) (.fin b) = .fin (a - b) := by
  simp [Rounding.sub, Fl.neg, Rounding.add, Rounding.exact, sub_eq_add_neg]

theorem dot_vec (u v : Fin n → K) (c : Nat) : dot (Rounding.exact K) (vec u) (vec v) c = (.ok (.fin (u ⬝ᵥ v)), c) := by
  have h := zipWith_vec (Rounding.exact K).mul (· * ·) (fun _ _ => rfl) u v
  unfold dot zipEqM
  rw [if_pos (by rw [vec_length, vec_length]), h]
  show (Res.ok ((Rounding.exact K).sum (vec fun i => u i * v i)), c) = _
  rw [sum_vec]; rfl

theorem matvec_flat (H : Matrix (Fin n) (Fin n) K) (v : Fin n → K) :
    matvec (Rounding.exact K) (flat H) (vec v) = vec (H *ᵥ v) := by
  unfold matvec
  simp only [vec_length]
  refine range_map_vec _ _ fun i => ?_
  rw [range_map_vec _ (fun j => H i j * v j) fun j => ?_, sum_vec]
  · rfl
  · rw [matAt_flat, vec_getD]; rfl

theorem infNorm_le (g : Fin n → K) : ∃ m, infNorm (vec g) = .fin m ∧ ∀ t, 0 ≤ t → (m ≤ t ↔ ∀ i, |g i| ≤ t) := by
  have key : ∀ (l : List K) (a : K), ∃ m, (l.map Fl.fin).foldl (fun (a b : Fl K) => a.max b.abs) (.fin a) = .fin m ∧
      ∀ t, m ≤ t ↔ a ≤ t ∧ ∀ x ∈ l, |x| ≤ t := by
    intro l
    induction l with
    | nil => exact fun a => ⟨a, rfl, by simp⟩
    | cons x l ih =>
      intro a
      have hm : (Fl.fin a).max (Fl.fin x).abs = .fin (max a |x|) := by
        show (if Fl.lt (.fin a) (.fin (max x (-x))) = true then Fl.fin (max x (-x)) else Fl.fin a)
          = Fl.fin (max a (max x (-x)))
        by_cases h : a < max x (-x)
        · rw [if_pos (show Fl.lt (.fin a) (.fin (max x (-x))) = true from decide_eq_true h), max_eq_right h.le]
        · rw [if_neg (show ¬ Fl.lt (.fin a) (.fin (max x (-x))) = true from fun h' => h (of_decide_eq_true h')),
            max_eq_left (not_lt.mp h)]
      obtain ⟨m, h1, h2⟩ := ih (max a |x|)
      refine ⟨m, ?_, fun t => ?_⟩
      · rw [List.map_cons, List.foldl_cons, hm]; exact h1
      · rw [h2 t]; simp [and_assoc]
  obtain ⟨m, h1, h2⟩ := key (List.ofFn g) 0
  refine ⟨m, ?_, fun t ht => ?_⟩
  · unfold infNorm vec
    rw [List.map_ofFn] at h1
    exact h1
  · rw [h2 t]
    simp [ht, List.mem_ofFn]

omit [IsStrictOrderedRing K] in
theorem identity_flat : (identity n : List (Fl K)) = flat (1 : Matrix (Fin n) (Fin n) K) := by
  unfold identity
  refine range_map_flat _ _ fun k hk => ?_
  rw [Matrix.one_apply]
  have : (Fin.divNat (⟨k, hk⟩ : Fin (n * n)) = Fin.modNat ⟨k, hk⟩) ↔ k / n = k % n := by
    rw [Fin.ext_iff]; simp [Fin.divNat, Fin.modNat]
  by_cases h : k / n = k % n
  · rw [if_pos h, if_pos (this.mpr h)]
  · rw [if_neg h, if_neg fun h' => h (this.mp h')]

theorem exact_fdiv' (a : K) {b : K} (hb : b ≠ 0) : (Rounding.exact K).div (.fin a) (.fin b) = .fin (a / b) := by
  simp [Rounding.div, hb, Rounding.exact]

/-- The entries of the formula, in the form the code uses. -/
theorem bfgsFormula_apply {H : Matrix (Fin n) (Fin n) K} (hH : H.transpose = H) (s y : Fin n → K) (hc : s ⬝ᵥ y ≠ 0)
    (i j : Fin n) :
    bfgsFormula H s y i j = H i j + (((s ⬝ᵥ y + y ⬝ᵥ (H *ᵥ y)) / ((s ⬝ᵥ y) * (s ⬝ᵥ y))) * s i * s j
      - (1 / (s ⬝ᵥ y)) * ((H *ᵥ y) i * s j + s i * (H *ᵥ y) j)) := by
  have hv : y ᵥ* H = H *ᵥ y := by
    conv_lhs => rw [← hH]
    exact vecMul_transpose H y
  have e1 : vecMulVec s y * H = vecMulVec s (H *ᵥ y) := by rw [vecMulVec_mul, hv]
  have e2 : H * vecMulVec y s = vecMulVec (H *ᵥ y) s := by rw [mul_vecMulVec]
  have e3 : vecMulVec s (H *ᵥ y) * vecMulVec y s = (y ⬝ᵥ (H *ᵥ y)) • vecMulVec s s := by
    rw [vecMulVec_mul_vecMulVec, dotProduct_comm]
    ext a b; simp [vecMulVec_apply]; ring
  have e : bfgsFormula H s y = H - (s ⬝ᵥ y)⁻¹ • vecMulVec (H *ᵥ y) s - (s ⬝ᵥ y)⁻¹ • vecMulVec s (H *ᵥ y)
      + ((s ⬝ᵥ y)⁻¹ * (s ⬝ᵥ y)⁻¹) • ((y ⬝ᵥ (H *ᵥ y)) • vecMulVec s s) + (s ⬝ᵥ y)⁻¹ • vecMulVec s s := by
    unfold bfgsFormula
    rw [sub_mul, one_mul, smul_mul_assoc, e1, mul_sub, mul_one, sub_mul, mul_smul_comm, e2, smul_mul_assoc,
      mul_smul_comm, e3, smul_smul]
    congr 1
    ext a b
    simp
    ring
  rw [e]
  simp only [Matrix.add_apply, Matrix.sub_apply, Matrix.smul_apply, vecMulVec_apply, smul_eq_mul]
  field_simp
  ring

theorem bfgsUpdate_flat {H : Matrix (Fin n) (Fin n) K} (hH : H.transpose = H) (s y : Fin n → K) (c : Nat) :
    bfgsUpdate (Rounding.exact K) n (flat H) (vec s) (vec y) c = (.ok (flat (nextInverse H s y)), c) := by
  have hb : ∀ {α β : Type} (m : OptM α) (f : α → OptM β) (a : α) (c c' : Nat), m c = (.ok a, c') →
      (m >>= f) c = f a c' := by
    intro α β m f a c c' h
    show OptM.bind m f c = _
    unfold OptM.bind
    rw [h]
  unfold bfgsUpdate
  rw [hb _ _ _ _ _ (dot_vec s y c)]
  have hr : (Rounding.exact K).rnd (1 / 10 ^ 12) = .fin (1 / 10 ^ 12) := rfl
  unfold nextInverse
  by_cases h : 1 / 10 ^ 12 < s ⬝ᵥ y
  · have h0 : 0 < s ⬝ᵥ y := lt_trans (by positivity) h
    rw [if_pos h, hr]
    simp only [Fl.isFinite, Fl.lt, h, h0, decide_true, Bool.and_true, Bool.not_true, Bool.false_eq_true, if_false, if_true]
    rw [matvec_flat, hb _ _ _ _ _ (dot_vec y (H *ᵥ y) c)]
    simp only [Fl.isFinite, if_true]
    show (Res.ok _, c) = _
    congr 2
    have e : hessUpdate (Rounding.exact K) n (flat H) (vec s) (vec (H *ᵥ y))
        ((Rounding.exact K).div ((Rounding.exact K).add (.fin (s ⬝ᵥ y)) (.fin (y ⬝ᵥ (H *ᵥ y))))
          ((Rounding.exact K).mul (.fin (s ⬝ᵥ y)) (.fin (s ⬝ᵥ y))))
        ((Rounding.exact K).div (.fin 1) (.fin (s ⬝ᵥ y))) = flat (bfgsFormula H s y) := by
      have ea : (Rounding.exact K).add (.fin (s ⬝ᵥ y)) (.fin (y ⬝ᵥ (H *ᵥ y))) = .fin (s ⬝ᵥ y + y ⬝ᵥ (H *ᵥ y)) := rfl
      have em : (Rounding.exact K).mul (.fin (s ⬝ᵥ y)) (.fin (s ⬝ᵥ y)) = .fin ((s ⬝ᵥ y) * (s ⬝ᵥ y)) := rfl
      rw [ea, em, exact_fdiv' _ (mul_ne_zero h0.ne' h0.ne'), exact_fdiv' _ h0.ne']
      unfold hessUpdate
      refine range_map_flat _ _ fun k hk => ?_
      have hi : k / n = (Fin.divNat (⟨k, hk⟩ : Fin (n * n))).val := rfl
      have hj : k % n = (Fin.modNat (⟨k, hk⟩ : Fin (n * n))).val := rfl
      generalize Fin.divNat (⟨k, hk⟩ : Fin (n * n)) = i at *
      generalize Fin.modNat (⟨k, hk⟩ : Fin (n * n)) = j at *
      simp only [hi, hj, vec_getD, matAt_flat]
      rw [bfgsFormula_apply hH s y h0.ne']
      generalize (s ⬝ᵥ y + y ⬝ᵥ (H *ᵥ y)) / ((s ⬝ᵥ y) * (s ⬝ᵥ y)) = c1
      generalize 1 / (s ⬝ᵥ y) = c2
      have m1 : ∀ a b : K, (Rounding.exact K).mul (.fin a) (.fin b) = .fin (a * b) := fun _ _ => rfl
      have a1 : ∀ a b : K, (Rounding.exact K).add (.fin a) (.fin b) = .fin (a + b) := fun _ _ => rfl
      simp only [m1, a1, exact_fsub]
    rw [e]
    have hs : (bfgsFormula H s y).transpose = bfgsFormula H s y := by
      unfold bfgsFormula
      simp only [transpose_add, transpose_mul, transpose_sub, transpose_one, transpose_smul, transpose_vecMulVec, hH,
        Matrix.mul_assoc]
    generalize bfgsFormula H s y = B at hs
    unfold symmetrize
    refine range_map_flat _ _ fun k hk => ?_
    have hi : k / n = (Fin.divNat (⟨k, hk⟩ : Fin (n * n))).val := rfl
    have hj : k % n = (Fin.modNat (⟨k, hk⟩ : Fin (n * n))).val := rfl
    generalize Fin.divNat (⟨k, hk⟩ : Fin (n * n)) = i at *
    generalize Fin.modNat (⟨k, hk⟩ : Fin (n * n)) = j at *
    simp only [hi, hj]
    have hB : B i j = B j i := by
      conv_lhs => rw [← hs]
      rfl
    split
    · exact matAt_flat B i j
    · have hmm : (Rounding.exact K).add (matAt (flat B) n (min i.val j.val) (max i.val j.val))
          (matAt (flat B) n (max i.val j.val) (min i.val j.val)) = .fin (B i j + B i j) := by
        rcases le_total i.val j.val with h' | h'
        · rw [min_eq_left h', max_eq_right h', matAt_flat, matAt_flat, ← hB]; rfl
        · rw [min_eq_right h', max_eq_left h', matAt_flat, matAt_flat, ← hB]; rfl
      rw [hmm]
      show Fl.fin ((1 / 2) * (B i j + B i j)) = _
      congr 1
      ring
  · rw [if_neg h, hr]
    rw [if_pos (by simpa [Fl.isFinite, Fl.lt] using not_lt.mp h)]
    show (Res.ok _, c) = _
    rw [identity_flat]

theorem bfgsDirection_flat {H : Matrix (Fin n) (Fin n) K} (hH : SPD H) (g : Fin n → K) (hg : g ≠ 0) (c : Nat) :
    bfgsDirection (Rounding.exact K) n (flat H) (vec g) c
      = (.ok (vec (-(H *ᵥ g)), .fin (g ⬝ᵥ -(H *ᵥ g)), flat H), c) := by
  have hneg : ∀ v : Fin n → K, (vec v).map Fl.neg = vec (-v) := by
    intro v; simp [vec, List.map_ofFn, Function.comp_def, Fl.neg]
  have hs : g ⬝ᵥ -(H *ᵥ g) < 0 := by rw [dotProduct_neg]; exact neg_neg_of_pos (hH.pos g hg)
  unfold bfgsDirection
  rw [matvec_flat, hneg]
  show OptM.bind _ _ c = _
  unfold OptM.bind
  rw [dot_vec]
  simp only [badSlope, Fl.isFinite, Fl.le, not_le.mpr hs, decide_false, Bool.not_true, Bool.or_self, Bool.false_eq_true,
    if_false]
  rfl

/-! ### The loop -/

theorem OptM.run_ok {α β : Type} {m : OptM α} {f : α → OptM β} {a : α} {c c' : Nat} (h : m c = (.ok a, c')) :
    (m >>= f) c = f a c' := by
  show OptM.bind m f c = _
  unfold OptM.bind
  rw [h]

theorem OptM.run_fail {α β : Type} {m : OptM α} {f : α → OptM β} {c c' : Nat} (h : m c = (.fail, c')) :
    (m >>= f) c = (.fail, c') := by
  show OptM.bind m f c = _
  unfold OptM.bind
  rw [h]

theorem OptM.run_panic {α β : Type} {m : OptM α} {f : α → OptM β} {c c' : Nat} (h : m c = (.panic, c')) :
    (m >>= f) c = (.panic, c') := by
  show OptM.bind m f c = _
  unfold OptM.bind
  rw [h]

omit [IsStrictOrderedRing K] [LinearOrder K] [Field K] in
theorem OptM.bind_ok_inv {α β : Type} {m : OptM α} {f : α → OptM β} {b : β} {c c' : Nat} (h : (m >>= f) c = (.ok b, c')) :
    ∃ a c1, m c = (.ok a, c1) ∧ f a c1 = (.ok b, c') := by
  change OptM.bind m f c = _ at h
  unfold OptM.bind at h
  rcases hm : m c with ⟨_ | _ | _, c1⟩
  · rw [hm] at h; exact ⟨_, c1, rfl, h⟩
  · rw [hm] at h; cases h
  · rw [hm] at h; cases h

theorem lsHalve_finite (phi : List (Fl K) → OptM (Option (Fl K))) (x s : List (Fl K)) :
    ∀ (k : Nat) (a : Fl K), a.isFinite = true → ∀ c r c', lsHalve (Rounding.exact K) phi x s k a c = (.ok r, c') →
      r.1.isFinite = true := by
  intro k
  induction k with
  | zero => intro a _ c r c' h; cases h
  | succ k ih =>
    intro a ha c r c' h
    unfold lsHalve at h
    obtain ⟨xn, c1, -, h⟩ := OptM.bind_ok_inv h
    obtain ⟨ok, c2, -, h⟩ := OptM.bind_ok_inv h
    split at h
    · obtain ⟨v, c3, -, h⟩ := OptM.bind_ok_inv h
      cases h; exact ha
    · simp only at h
      split at h
      · cases h
      · refine ih _ ?_ _ _ _ h
        cases a with
        | fin v => rfl
        | nan => cases ha
        | pinf => cases ha
        | ninf => cases ha

omit [IsStrictOrderedRing K] in
theorem lsLoop_finite (R : Rounding K) (ls : BackTracking K) (phi : List (Fl K) → OptM (Option (Fl K)))
    (x s : List (Fl K)) (phi0 dphi0 : Fl K) :
    ∀ (k : Nat) (a p : Fl K) (xn : List (Fl K)) (prev : Option (Fl K × Fl K)), a.isFinite = true → ∀ c r c',
      lsLoop R ls phi x s phi0 dphi0 k a p xn prev c = (.ok r, c') → r.1.isFinite = true := by
  intro k
  induction k with
  | zero => intro a p xn prev _ c r c' h; cases h
  | succ k ih =>
    intro a p xn prev ha c r c' h
    unfold lsLoop at h
    split at h
    · cases h; exact ha
    · simp only at h
      split at h
      · cases h
      · next hf =>
        obtain ⟨xn', c1, -, h⟩ := OptM.bind_ok_inv h
        obtain ⟨ok, c2, -, h⟩ := OptM.bind_ok_inv h
        obtain ⟨phi', c3, -, h⟩ := OptM.bind_ok_inv h
        split at h
        · cases h
        · refine ih _ _ _ _ ?_ _ _ _ h
          simp only [Bool.or_eq_true, not_or, Bool.not_eq_true', Bool.not_eq_false] at hf
          exact hf.1

theorem linesearch_finite (ls : BackTracking K) (hms : Fl.le (.fin 0) ls.maxstep = true)
    (phi : List (Fl K) → OptM (Option (Fl K))) (x : List (Fl K)) (s : Fin n → K) (phi0 dphi0 : Fl K) (c : Nat)
    (r : Fl K × Fl K × List (Fl K)) (c' : Nat)
    (h : backtrackingLinesearch (Rounding.exact K) ls x (vec s) (.fin 1) phi0 dphi0 phi c = (.ok r, c')) :
    r.1.isFinite = true := by
  unfold backtrackingLinesearch at h
  split at h
  · cases h
  · obtain ⟨⟨a, p, xn⟩, c1, h1, h⟩ := OptM.bind_ok_inv h
    have ha : a.isFinite = true := by
      refine lsHalve_finite phi x (vec s) _ _ ?_ _ _ _ h1
      obtain ⟨m, hm, -⟩ := infNorm_le s
      unfold cappedStep
      split
      · next hc =>
        simp only [Bool.and_eq_true] at hc
        rw [hm] at hc ⊢
        cases hmx : ls.maxstep with
        | fin q =>
          have hm0 : m ≠ 0 := by
            have := hc.2
            simp only [Fl.lt, decide_eq_true_eq] at this
            exact this.ne'
          rw [exact_fdiv' _ hm0]
          unfold Fl.min
          simp only [Fl.isNan, Bool.false_eq_true, if_false]
          split <;> rfl
        | nan => rw [hmx] at hc; cases hc.1
        | pinf => rw [hmx] at hc; cases hc.1
        | ninf => rw [hmx] at hc; cases hc.1
      · rfl
    simp only at h
    split at h
    · cases h
    · exact lsLoop_finite _ ls phi x (vec s) phi0 dphi0 _ a p xn none ha _ _ _ h

/-- The step length found by the line search of the code (C38). -/
def codeSearch (obj : Objective K) (opts : OptimOptions K) (ls : BackTracking K) (x s : Fin n → K) (fx slope : K) :
    OptM K := do
  let r ← backtrackingLinesearch (Rounding.exact K) ls (vec x) (vec s) (.fin 1) (.fin fx) (.fin slope) (phiAt obj opts)
  pure (match r.1 with | .fin a => a | _ => 0)

/-- Reporting the result. -/
def flResult : Res ((Fin n → K) × K) × Nat → Res (List (Fl K) × Fl K) × Nat
  | (.ok (x, v), c) => (.ok (vec x, .fin v), c)
  | (.fail, c) => (.fail, c)
  | (.panic, c) => (.panic, c)

theorem bfgsLoop_textbook {obj : Objective K} {f : (Fin n → K) → Option K} {grad : (Fin n → K) → Fin n → K}
    (hobj : Computes obj f grad) (opts : OptimOptions K) (tol : K) (htol : opts.gAbstol = .fin tol) (h0 : 0 ≤ tol)
    (ls : BackTracking K) (hms : Fl.le (.fin 0) ls.maxstep = true) :
    ∀ (k : Nat) (x : Fin n → K) (fx : K) (H : Matrix (Fin n) (Fin n) K), SPD H → ∀ c,
      bfgsLoop (Rounding.exact K) obj opts ls k (vec x) (.fin fx) (vec (grad x)) (flat H) c =
        flResult (textbookLoop f grad (codeSearch obj opts ls) (exhausted opts) tol k x fx H c) := by
  intro k
  induction k with
  | zero => intro x fx H _ c; rfl
  | succ k ih =>
    intro x fx H hH c
    unfold bfgsLoop textbookLoop
    by_cases hex : exhausted opts c = true
    · rw [if_pos hex, if_pos (.inl hex)]; rfl
    · rw [if_neg hex]
      obtain ⟨m, hm, hle⟩ := infNorm_le (grad x)
      rw [hm, htol]
      have hcond : ((!(Fl.fin m).isFinite || (Fl.fin m).le (.fin tol)) = true) ↔ m ≤ tol := by
        simp [Fl.isFinite, Fl.le]
      by_cases hg : ∀ i, |grad x i| ≤ tol
      · rw [if_pos (hcond.mpr ((hle tol h0).mpr hg)), if_pos (.inr hg)]; rfl
      · rw [if_neg fun h => hg ((hle tol h0).mp (hcond.mp h)), if_neg (by rintro (h | h) <;> contradiction)]
        have hg0 : grad x ≠ 0 := by
          intro h
          exact hg fun i => by rw [h]; simpa using h0
        have hs : grad x ⬝ᵥ -(H *ᵥ grad x) < 0 := by rw [dotProduct_neg]; exact neg_neg_of_pos (hH.pos _ hg0)
        have hdir := bfgsDirection_flat hH (grad x) hg0 c
        rw [vec_length]
        rw [OptM.run_ok hdir]
        have hbs : ¬ badSlope (Fl.fin (grad x ⬝ᵥ -(H *ᵥ grad x))) = true := by
          simp only [badSlope, Fl.isFinite, Fl.le, not_le.mpr hs, decide_false, Bool.not_true, Bool.or_self,
            Bool.false_eq_true, not_false_eq_true]
        dsimp only
        rw [if_neg hbs]
        generalize hd : -(H *ᵥ grad x) = s at *
        rcases hls : backtrackingLinesearch (Rounding.exact K) ls (vec x) (vec s) (.fin 1) (.fin fx)
          (.fin (grad x ⬝ᵥ s)) (phiAt obj opts) c with ⟨_ | _ | _, c1⟩
        · rename_i r
          obtain ⟨a, p, xn⟩ := r
          have hfin := linesearch_finite ls hms _ _ _ _ _ _ _ _ hls
          have hpt := (C38_linesearch (Rounding.exact_lawful K) obj opts ls hms (vec x) (vec s)
            (by rw [vec_length, vec_length]) _ _ _ _ _ _ _ _ hls).2.1
          cases a with
          | nan => cases hfin
          | pinf => cases hfin
          | ninf => cases hfin
          | fin a =>
            have hxn : xn = vec (x + a • s) := by
              rw [hpt]
              exact zipWith_vec _ (fun u v => u + a * v) (fun _ _ => rfl) x s
            subst hxn
            have hcs : codeSearch obj opts ls x s fx (grad x ⬝ᵥ s) c = (.ok a, c1) := by
              unfold codeSearch
              rw [OptM.run_ok hls]; rfl
            rw [OptM.run_ok hls, OptM.run_ok hcs]
            have hfg := hobj (x + a • s)
            cases hf : f (x + a • s) with
            | none =>
              rw [hf] at hfg
              have e1 : callFg obj (vec (x + a • s)) c1 = (.fail, c1 + 1) := by unfold callFg; rw [hfg]; rfl
              have e2 : callValue f (x + a • s) c1 = (.fail, c1 + 1) := by unfold callValue; rw [hf]
              rw [OptM.run_fail e2]
              exact OptM.run_fail e1
            | some v =>
              rw [hf] at hfg
              have e1 : callFg obj (vec (x + a • s)) c1 = (.ok (.fin v, vec (grad (x + a • s))), c1 + 1) := by
                unfold callFg; rw [hfg]; rfl
              have e2 : callValue f (x + a • s) c1 = (.ok v, c1 + 1) := by unfold callValue; rw [hf]
              rw [OptM.run_ok e2]
              refine (OptM.run_ok e1).trans ?_
              dsimp only
              rw [if_neg (by simp [Fl.isFinite])]
              have hsub : ∀ (u w : Fin n → K) (c : Nat), zipEqM (Rounding.exact K).sub (vec u) (vec w) c
                  = (.ok (vec (u - w)), c) := by
                intro u w c
                unfold zipEqM
                rw [if_pos (by rw [vec_length, vec_length]), zipWith_vec _ (fun a b => a - b) exact_fsub]
                rfl
              rw [OptM.run_ok (hsub _ _ _), OptM.run_ok (hsub _ _ _), OptM.run_ok (bfgsUpdate_flat hH.symm _ _ _)]
              exact ih _ _ _ (nextInverse_spd hH _ _) _
        · rw [OptM.run_fail hls, OptM.run_fail (c' := c1)]
          · rfl
          · unfold codeSearch; exact OptM.run_fail hls
        · rw [OptM.run_panic hls, OptM.run_panic (c' := c1)]
          · rfl
          · unfold codeSearch; exact OptM.run_panic hls

/-- C67: in exact arithmetic, for every objective that computes a (partial) function together with a vector called its
gradient, every start, every options and every line search parameters, the minimiser of the code is the textbook BFGS
method with the line search of C38: same point, same value, same number of calls, same failures.  In particular the
flat indices, the symmetrisation and the resets for bad slopes never change anything. -/
theorem C67_textbook {obj : Objective K} {f : (Fin n → K) → Option K} {grad : (Fin n → K) → Fin n → K}
    (hobj : Computes obj f grad) (opts : OptimOptions K) (tol : K) (htol : opts.gAbstol = .fin tol) (h0 : 0 ≤ tol)
    (ls : BackTracking K) (hms : Fl.le (.fin 0) ls.maxstep = true) (x0 : Fin n → K) (c : Nat) :
    bfgsMinimize (Rounding.exact K) (vec x0) obj opts ls c =
      match textbookBfgs f grad (codeSearch obj opts ls) (exhausted opts) tol opts.iterations x0 c with
      | (.ok (x, v), c') => (.ok ⟨vec x, .fin v, c'⟩, c')
      | (.fail, c') => (.fail, c')
      | (.panic, c') => (.panic, c') := by
  unfold bfgsMinimize textbookBfgs
  have hfg := hobj x0
  cases hf : f x0 with
  | none =>
    rw [hf] at hfg
    have e1 : callFg obj (vec x0) c = (.fail, c + 1) := by unfold callFg; rw [hfg]; rfl
    have e2 : callValue f x0 c = (.fail, c + 1) := by unfold callValue; rw [hf]
    rw [OptM.run_fail e1, OptM.run_fail e2]
  | some v =>
    rw [hf] at hfg
    have e1 : callFg obj (vec x0) c = (.ok (.fin v, vec (grad x0)), c + 1) := by unfold callFg; rw [hfg]; rfl
    have e2 : callValue f x0 c = (.ok v, c + 1) := by unfold callValue; rw [hf]
    rw [OptM.run_ok e1, OptM.run_ok e2]
    simp only [Fl.isFinite, Bool.not_true, Bool.false_eq_true, if_false]
    have h := bfgsLoop_textbook hobj opts tol htol h0 ls hms opts.iterations x0 v 1 spd_one (c + 1)
    rw [vec_length, identity_flat]
    rcases ht : textbookLoop f grad (codeSearch obj opts ls) (exhausted opts) tol opts.iterations x0 v 1 (c + 1) with
      ⟨⟨x, w⟩ | _ | _, c1⟩
    · rw [ht] at h
      exact OptM.run_ok h
    · rw [ht] at h
      exact OptM.run_fail h
    · rw [ht] at h
      exact OptM.run_panic h

/-! ### A concrete case -/

namespace BfgsDemo

/-- `(x - 1)² + 10 (y + 2)²`. -/
def value (v : Fin 2 → ℚ) : Option ℚ := some ((v 0 - 1) ^ 2 + 10 * (v 1 + 2) ^ 2)

def gradient (v : Fin 2 → ℚ) : Fin 2 → ℚ := fun i => if i = 0 then 2 * (v 0 - 1) else 20 * (v 1 + 2)

/-- The objective on lists of floats. -/
def objective : Objective ℚ where
  fOnly
    | [.fin a, .fin b] => some (.fin ((a - 1) ^ 2 + 10 * (b + 2) ^ 2))
    | _ => none
  fg
    | [.fin a, .fin b] => some (.fin ((a - 1) ^ 2 + 10 * (b + 2) ^ 2), [.fin (2 * (a - 1)), .fin (20 * (b + 2))])
    | _ => none

theorem computes : Computes objective value gradient := by
  intro x
  simp [vec, objective, value, gradient]

/-- Concrete: one curvature pair of this objective gives a positive definite approximation. -/
example : (1 / 10 ^ 12 : ℚ) < (fun i : Fin 2 => if i = 0 then (1 : ℚ) else 2) ⬝ᵥ
    (fun i : Fin 2 => if i = 0 then (2 : ℚ) else 40) := by
  simp [dotProduct, Fin.sum_univ_two]; norm_num

/-- Concrete: three iterations of the code on it find a value below 1 from the start value 41. -/
example : (match bfgsMinimize (Rounding.exact ℚ) (vec (fun _ : Fin 2 => (0 : ℚ))) objective ⟨3, 0, .fin (1 / 10 ^ 8)⟩ defaultLs 0
    with
    | (.ok r, _) => r.minimum.lt (.fin 1)
    | _ => false) = true := by decide +kernel

end BfgsDemo
end SR
