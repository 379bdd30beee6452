import Verif.Proofs.Loss
import Verif.Spec.Binary64
import Mathlib.Tactic.FieldSimp
import Mathlib.Tactic.Positivity
/-
C39 (losses), C40 (zero loss), C41 (cost).
-/
namespace SR
variable {K : Type} [Field K] [LinearOrder K] [IsStrictOrderedRing K] {R : Rounding K}

/-- The weights are absent, or non-negative finite numbers. -/
def WeightsOk (w : Option (List (Fl K))) : Prop := ∀ l, w = some l → ∀ v ∈ l, ∃ x : K, v = .fin x ∧ 0 ≤ x

omit [IsStrictOrderedRing K] in
/-- C39: computing a loss panics exactly when the vectors have different lengths. -/
theorem C39_defined (lib : LossLib K) (k : LossKind K) (yhat y : List (Fl K)) (w : Option (List (Fl K))) :
    (k.loss R lib yhat y w).isSome ↔ yhat.length = y.length ∧ ∀ l, w = some l → l.length = y.length := by
  have h : ∀ pl, (meanLoss R pl yhat y w).isSome ↔
      yhat.length = y.length ∧ ∀ l, w = some l → l.length = y.length := by
    intro pl
    cases w with
    | none =>
      simp only [meanLoss]
      by_cases h : yhat.length = y.length
      · rw [if_neg (by simpa using h)]
        split <;> simp [h]
      · rw [if_pos h]; simp [h]
    | some w =>
      simp only [meanLoss]
      by_cases h : yhat.length = y.length ∧ w.length = y.length
      · rw [if_neg (by simp [h.1, h.2])]
        split <;> simp [h.1, h.2]
      · rw [if_pos (by tauto)]
        simp
        intro h1 h2
        exact h ⟨h1, h2⟩
  cases k with
  | mean l => exact h _
  | rmse => simp only [LossKind.loss, Option.isSome_map]; exact h _

/-- C39: for every rounding of the arithmetic, valid parameters and non-negative weights, no built-in loss is ever
negative (it may be NaN or infinite). -/
theorem C39_nonneg (hR : R.Lawful) {lib : LossLib K} (hl : lib.Sane) (k : LossKind K) (hk : k.Valid R)
    (yhat y : List (Fl K)) (w : Option (List (Fl K))) (hw : WeightsOk w) (v : Fl K)
    (h : k.loss R lib yhat y w = some v) : v.lt (.fin 0) = false := by
  have key : ∀ l : PointLoss K, l.Valid R → ∀ v, meanLoss R (l.loss R lib) yhat y w = some v → NN v := by
    intro l hv v h
    have hp : ∀ x ∈ List.zipWith (l.loss R lib) yhat y, NN x := by
      intro x hx
      obtain ⟨a, _, b, _, rfl⟩ := mem_zipWith _ _ _ _ hx
      exact pointLoss_nn hR hl l hv a b
    have hz : NN (Fl.fin (0 : K)) := by simp [NN, Fl.lt]
    cases w with
    | none =>
      simp only [meanLoss] at h
      split at h
      · simp at h
      · split at h
        · simp at h; subst h; exact hz
        · simp at h; subst h
          exact nn_div hR (nn_sum hR _ hp) (nn_rnd hR (Nat.cast_nonneg _))
    | some w =>
      simp only [meanLoss] at h
      have hww : ∀ x ∈ w, NN x := by
        intro x hx
        obtain ⟨z, rfl, hz⟩ := hw w rfl x hx
        exact nn_fin.mpr hz
      split at h
      · simp at h
      · split at h
        · simp at h; subst h; exact hz
        · simp at h; subst h
          refine nn_div hR (nn_sum hR _ ?_) (nn_sum hR _ hww)
          intro x hx
          obtain ⟨a, ha, b, hb, rfl⟩ := mem_zipWith _ _ _ _ hx
          exact nn_mul hR (hww a ha) (hp b hb)
  cases k with
  | mean l => exact key l hk v h
  | rmse =>
    simp only [LossKind.loss, Option.map_eq_some_iff] at h
    obtain ⟨m, h1, rfl⟩ := h
    exact hl.sqrt_nonneg m (key .squared trivial m h1)

/-- C39: for every rounding of the arithmetic, valid parameters and non-negative finite weights, every built-in
loss of a perfect prediction is exactly zero. -/
theorem C39_perfect (hR : R.Lawful) {lib : LossLib K} (hl : lib.Sane) (k : LossKind K) (hk : k.Valid R)
    (y : List K) (w : Option (List (Fl K))) (hw : WeightsOk w) (hlen : ∀ l, w = some l → l.length = y.length) :
    k.loss R lib (y.map .fin) (y.map .fin) w = some (.fin 0) := by
  have key : ∀ l : PointLoss K, l.Valid R →
      meanLoss R (l.loss R lib) (y.map .fin) (y.map .fin) w = some (.fin 0) := by
    intro l hv
    have hp : ∀ x ∈ List.zipWith (l.loss R lib) (y.map .fin) (y.map .fin), x = .fin 0 := by
      intro x hx
      rw [List.zipWith_self] at hx
      obtain ⟨a, ha, rfl⟩ := List.mem_map.mp hx
      obtain ⟨z, _, rfl⟩ := List.mem_map.mp ha
      exact pointLoss_zero hR hl l hv z
    cases w with
    | none =>
      simp only [meanLoss]
      rw [if_neg (by simp)]
      split
      · rfl
      · next h =>
        have hpos : 0 < (y.map Fl.fin).length := by
          rcases y with _ | ⟨a, y⟩
          · simp at h
          · simp
        rw [sum_zeros hR _ hp, zero_div_of hR (ofNat_pos hR hpos).1 (ofNat_pos hR hpos).2]
    | some w =>
      simp only [meanLoss]
      rw [if_neg (by simp [hlen w rfl])]
      split
      · rfl
      · next h =>
        rw [sum_zeros hR, zero_div_of hR (sum_not_nan hR w (hw w rfl))]
        · intro h0; rw [h0] at h; simp [Fl.feq, Fl.le] at h
        · intro x hx
          obtain ⟨a, ha, b, hb, rfl⟩ := mem_zipWith _ _ _ _ hx
          obtain ⟨z, rfl, _⟩ := hw w rfl a ha
          rw [hp b hb]
          simp [Rounding.mul, hR.zero]
  cases k with
  | mean l => exact key l hk
  | rmse =>
    simp only [LossKind.loss]
    rw [key .squared trivial, Option.map_some, hl.sqrt_zero]

theorem zipWith_mul_exact : ∀ (ws ls : List K),
    List.zipWith (Rounding.exact K).mul (ws.map .fin) (ls.map .fin) = (List.zipWith (· * ·) ws ls).map .fin := by
  intro ws
  induction ws with
  | nil => intro ls; simp
  | cons a ws ih => intro ls; cases ls <;> simp [ih, exact_mul]

/-- C39 (exact arithmetic): a mean loss is the average of the pointwise losses, weighted if weights are given. -/
theorem C39_average (pl : Fl K → Fl K → Fl K) (yhat y : List (Fl K)) (ls : List K)
    (hls : List.zipWith pl yhat y = ls.map .fin) (hlen : yhat.length = y.length) :
    (0 < y.length → meanLoss (Rounding.exact K) pl yhat y none = some (.fin (ls.sum / y.length))) ∧
    (∀ ws : List K, ws.length = y.length → ws.sum ≠ 0 → meanLoss (Rounding.exact K) pl yhat y (some (ws.map .fin))
      = some (.fin ((List.zipWith (· * ·) ws ls).sum / ws.sum))) := by
  constructor
  · intro h0
    simp only [meanLoss]
    rw [if_neg (by simpa using hlen), if_neg (by rintro h; simp at h; simp [h] at h0), hls, exact_sum]
    have : ((y.length : Nat) : K) ≠ 0 := by exact_mod_cast h0.ne'
    rw [show (Rounding.exact K).ofNat y.length = .fin (y.length : K) from rfl, exact_div _ _ this]
  · intro ws hw h0
    simp only [meanLoss]
    rw [if_neg (by simp [hlen, hw]), exact_sum, hls, zipWith_mul_exact, exact_sum, exact_div _ _ h0,
      if_neg]
    simp [Fl.feq, Fl.le]
    intro h1
    exact lt_of_le_of_ne h1 h0

/-- C39 (exact arithmetic): a weighted average of numbers between `lo` and `hi` with non-negative weights lies
between `lo` and `hi`; so a mean loss never exceeds the largest pointwise loss. -/
theorem C39_bounds (pl : Fl K → Fl K → Fl K) (yhat y : List (Fl K)) (ls : List K) (lo hi : K)
    (hls : List.zipWith pl yhat y = ls.map .fin) (hlen : yhat.length = y.length)
    (hb : ∀ x ∈ ls, lo ≤ x ∧ x ≤ hi) :
    (0 < y.length → ∃ v, meanLoss (Rounding.exact K) pl yhat y none = some (.fin v) ∧ lo ≤ v ∧ v ≤ hi) ∧
    (∀ ws : List K, ws.length = y.length → (∀ w ∈ ws, 0 ≤ w) → 0 < ws.sum →
      ∃ v, meanLoss (Rounding.exact K) pl yhat y (some (ws.map .fin)) = some (.fin v) ∧ lo ≤ v ∧ v ≤ hi) := by
  obtain ⟨h1, h2⟩ := C39_average pl yhat y ls hls hlen
  have hll : ls.length = y.length := by
    have := congrArg List.length hls
    simpa [hlen] using this.symm
  constructor
  · intro h0
    have hpos : (0 : K) < y.length := by exact_mod_cast h0
    refine ⟨_, h1 h0, ?_, ?_⟩
    · rw [le_div_iff₀ hpos]
      have : ∀ l : List K, (∀ x ∈ l, lo ≤ x ∧ x ≤ hi) → lo * l.length ≤ l.sum := by
        intro l
        induction l with
        | nil => intro _; simp
        | cons a l ih =>
          intro h
          have := ih fun x hx => h x (by simp [hx])
          have := (h a (by simp)).1
          simp only [List.length_cons, List.sum_cons, Nat.cast_add, Nat.cast_one]
          linarith
      rw [← hll]; exact this ls hb
    · rw [div_le_iff₀ hpos]
      have : ∀ l : List K, (∀ x ∈ l, lo ≤ x ∧ x ≤ hi) → l.sum ≤ hi * l.length := by
        intro l
        induction l with
        | nil => intro _; simp
        | cons a l ih =>
          intro h
          have := ih fun x hx => h x (by simp [hx])
          have := (h a (by simp)).2
          simp only [List.length_cons, List.sum_cons, Nat.cast_add, Nat.cast_one]
          linarith
      rw [← hll]; exact this ls hb
  · intro ws hw hnn hpos
    have key : ∀ (ws l : List K), ws.length = l.length → (∀ w ∈ ws, 0 ≤ w) → (∀ x ∈ l, lo ≤ x ∧ x ≤ hi) →
        lo * ws.sum ≤ (List.zipWith (· * ·) ws l).sum ∧ (List.zipWith (· * ·) ws l).sum ≤ hi * ws.sum := by
      intro ws
      induction ws with
      | nil => intro l _ _ _; simp
      | cons a ws ih =>
        intro l hl hn hx
        cases l with
        | nil => simp at hl
        | cons b l =>
          obtain ⟨i1, i2⟩ := ih l (by simpa using hl) (fun w hw => hn w (by simp [hw]))
            (fun x hx' => hx x (by simp [hx']))
          have ha := hn a (by simp)
          have hb := hx b (by simp)
          simp only [List.sum_cons, List.zipWith_cons_cons]
          constructor
          · have := mul_le_mul_of_nonneg_left hb.1 ha; nlinarith
          · have := mul_le_mul_of_nonneg_left hb.2 ha; nlinarith
    obtain ⟨k1, k2⟩ := key ws ls (by rw [hw, hll]) hnn hb
    exact ⟨_, h2 ws hw hpos.ne', by rwa [le_div_iff₀ hpos], by rwa [div_le_iff₀ hpos]⟩

/-- Concrete: the mean absolute loss of `[3, 1]` against `[1, 2]` with weights `[1, 3]` is `5/4`. -/
example : (LossKind.mean .abs).loss (Rounding.exact ℚ) ⟨id, id, id, fun a _ => a, id⟩ [.fin 3, .fin 1]
    [.fin 1, .fin 2] (some [.fin 1, .fin 3]) = some (.fin (5 / 4)) := by decide +kernel

/-! ### C40 -/

theorem zipWith_sq_exact (lib : LossLib K) : ∀ (a b : List K),
    List.zipWith (PointLoss.squared.loss (Rounding.exact K) lib) (a.map .fin) (b.map .fin)
      = (List.zipWith (fun x y => (x - y) * (x - y)) a b).map .fin := by
  intro a
  induction a with
  | nil => intro b; simp
  | cons x a ih =>
    intro b
    cases b with
    | nil => simp
    | cons y b =>
      simp only [List.map_cons, List.zipWith_cons_cons, ih]
      congr 1
      simp [PointLoss.loss, exact_sub, exact_mul]

/-- C40 (exact arithmetic): if the mean squared loss is zero, then the predictions equal the targets on every row
(unweighted), or on every row of positive weight (weighted with non-negative weights of positive sum). -/
theorem C40_zero_certifies (lib : LossLib K) (yhat y : List K) (hlen : yhat.length = y.length) :
    ((LossKind.mean .squared).loss (Rounding.exact K) lib (yhat.map .fin) (y.map .fin) none = some (.fin 0) →
      yhat = y) ∧
    (∀ ws : List K, ws.length = y.length → (∀ w ∈ ws, 0 ≤ w) → 0 < ws.sum →
      (LossKind.mean .squared).loss (Rounding.exact K) lib (yhat.map .fin) (y.map .fin) (some (ws.map .fin))
        = some (.fin 0) →
      ∀ (i : Nat) (w : K), ws[i]? = some w → 0 < w → yhat[i]? = y[i]?) := by
  obtain ⟨h1, h2⟩ := C39_average (PointLoss.squared.loss (Rounding.exact K) lib) (yhat.map .fin) (y.map .fin) _
    (zipWith_sq_exact lib yhat y) (by simpa using hlen)
  have hsum : ∀ (ws ls : List K), ws.length = ls.length → (∀ w ∈ ws, 0 ≤ w) → (∀ x ∈ ls, 0 ≤ x) →
      (List.zipWith (· * ·) ws ls).sum = 0 → ∀ (i : Nat) (w x : K), ws[i]? = some w → ls[i]? = some x →
      0 < w → x = 0 := by
    intro ws
    induction ws with
    | nil => intro ls _ _ _ _ i w x h; simp at h
    | cons a ws ih =>
      intro ls hl hn hx hs i w x hi hxi hw
      cases ls with
      | nil => simp at hl
      | cons b ls =>
        simp only [List.zipWith_cons_cons, List.sum_cons] at hs
        have hab : 0 ≤ a * b := mul_nonneg (hn a (by simp)) (hx b (by simp))
        have hrest : 0 ≤ (List.zipWith (· * ·) ws ls).sum := by
          apply List.sum_nonneg
          intro z hz
          obtain ⟨p, hp, q, hq, rfl⟩ := mem_zipWith _ _ _ _ hz
          exact mul_nonneg (hn p (by simp [hp])) (hx q (by simp [hq]))
        cases i with
        | zero =>
          simp at hi hxi
          subst hi hxi
          have : a * b = 0 := by linarith
          rcases mul_eq_zero.mp this with h | h
          · exact absurd h hw.ne'
          · exact h
        | succ i =>
          exact ih ls (by simpa using hl) (fun w hw => hn w (by simp [hw])) (fun x h => hx x (by simp [h]))
            (by linarith) i w x (by simpa using hi) (by simpa using hxi) hw
  have hsq : ∀ x ∈ List.zipWith (fun x y : K => (x - y) * (x - y)) yhat y, 0 ≤ x := by
    intro x hx
    obtain ⟨a, _, b, _, rfl⟩ := mem_zipWith _ _ _ _ hx
    exact mul_self_nonneg _
  have hrow : ∀ i : Nat, (List.zipWith (fun x y : K => (x - y) * (x - y)) yhat y)[i]? = some 0 → yhat[i]? = y[i]? := by
    intro i hi
    rw [List.getElem?_zipWith] at hi
    cases ha : yhat[i]? <;> cases hb : y[i]? <;> simp [ha, hb] at hi ⊢
    linarith
  have hll : (List.zipWith (fun x y : K => (x - y) * (x - y)) yhat y).length = y.length := by simp [hlen]
  constructor
  · intro h
    apply List.ext_getElem? 
    intro i
    by_cases hi : i < y.length
    · have hy0 : 0 < y.length := by omega
      have h1' := h1 (by simpa using hy0)
      have h3 := h1'.symm.trans h
      simp only [Option.some.injEq, Fl.fin.injEq, List.length_map] at h3
      have hpos : ((y.length : Nat) : K) ≠ 0 := by exact_mod_cast hy0.ne'
      have h4 : (List.zipWith (fun x y : K => (x - y) * (x - y)) yhat y).sum = 0 := by
        rcases div_eq_zero_iff.mp h3 with h | h
        · exact h
        · exact absurd h hpos
      apply hrow
      have hix : i < (List.zipWith (fun x y : K => (x - y) * (x - y)) yhat y).length := by omega
      have hone := hsum (List.replicate y.length 1) (List.zipWith (fun x y : K => (x - y) * (x - y)) yhat y)
        (by simp [hlen]) (by simp) hsq
        (by
          rw [← h4]
          congr 1
          apply List.ext_getElem
          · simp [hlen]
          · intro n h5 h6; simp) i 1 _ (by simp [hi]) (List.getElem?_eq_getElem hix) one_pos
      rw [List.getElem?_eq_getElem hix, hone]
    · rw [List.getElem?_eq_none (by omega), List.getElem?_eq_none (by omega)]
  · intro ws hw hn hpos h i w hi hwp
    have h3 := (h2 ws (by simpa using hw) hpos.ne').symm.trans h
    simp only [Option.some.injEq, Fl.fin.injEq] at h3
    have h4 : (List.zipWith (· * ·) ws (List.zipWith (fun x y : K => (x - y) * (x - y)) yhat y)).sum = 0 := by
      rcases div_eq_zero_iff.mp h3 with h | h
      · exact h
      · exact absurd h hpos.ne'
    apply hrow
    have hix : i < (List.zipWith (fun x y : K => (x - y) * (x - y)) yhat y).length := by
      have : i < ws.length := by
        by_contra hh
        rw [List.getElem?_eq_none (by omega)] at hi; simp at hi
      omega
    have := hsum ws _ (by rw [hll, hw]) hn hsq h4 i w _ hi (List.getElem?_eq_getElem hix) hwp
    rw [List.getElem?_eq_getElem hix, this]

omit [IsStrictOrderedRing K] in
/-- C40 (the exception is real): when all weights are zero, every mean loss of every prediction is zero. -/
theorem C40_zero_weights (hR : R.Lawful) (lib : LossLib K) (l : PointLoss K) (yhat y : List (Fl K)) (n : Nat)
    (h1 : yhat.length = n) (h2 : y.length = n) :
    (LossKind.mean l).loss R lib yhat y (some (List.replicate n (.fin 0))) = some (.fin 0) := by
  have hs : R.sum (List.replicate n (.fin 0)) = .fin 0 := by
    have : ∀ n, (List.replicate n (Fl.fin (0 : K))).foldl R.add (.fin 0) = .fin 0 := by
      intro n
      induction n with
      | zero => rfl
      | succ n ih =>
        rw [List.replicate_succ, List.foldl_cons]
        have : R.add (.fin 0) (.fin 0) = .fin 0 := by simp [Rounding.add, hR.zero]
        rw [this, ih]
    exact this n
  simp only [LossKind.loss, meanLoss]
  rw [if_neg (by simp [h1, h2]), hs, if_pos (by simp [Fl.feq, Fl.le])]

omit [IsStrictOrderedRing K] in
/-- C40 (the exception is real): the epsilon-insensitive loss ignores rows whose target is NaN: with all targets
NaN it reports zero for every prediction. -/
theorem C40_nan_targets (hR : R.Lawful) (lib : LossLib K) (eps : Fl K) (yhat : List (Fl K)) (h0 : yhat ≠ [])
    (hlen : ∀ n : Nat, 0 < n → R.ofNat n ≠ .fin 0) :
    (LossKind.mean (.epsIns eps)).loss R lib yhat (yhat.map fun _ => .nan) none = some (.fin 0) := by
  have hz : ∀ l : List (Fl K), List.zipWith (PointLoss.loss R lib (.epsIns eps)) l (l.map fun _ => .nan)
      = List.replicate l.length (.fin 0) := by
    intro l
    induction l with
    | nil => rfl
    | cons a l ih =>
      rw [List.map_cons, List.zipWith_cons_cons, ih, List.length_cons, List.replicate_succ]
      congr 1
      simp only [PointLoss.loss]
      have e : R.sub a .nan = .nan := by cases a <;> rfl
      rw [e, if_neg]
      cases eps <;> simp [Fl.abs, Rounding.sub, Rounding.add, Fl.neg, Fl.lt]
  have hs : ∀ n, R.sum (List.replicate n (.fin (0 : K))) = .fin 0 := by
    intro n
    induction n with
    | zero => rfl
    | succ n ih =>
      rw [Rounding.sum, List.replicate_succ, List.foldl_cons]
      have : R.add (.fin 0) (.fin 0) = .fin 0 := by simp [Rounding.add, hR.zero]
      rw [this]; exact ih
  have hpos : 0 < yhat.length := List.length_pos_iff.mpr h0
  simp only [LossKind.loss, meanLoss, List.length_map, ne_eq, not_true_eq_false, if_false]
  rw [if_neg (by cases yhat <;> simp at h0 ⊢), hz, hs]
  have hn := hlen _ hpos
  have hnn : (R.ofNat yhat.length).isNan = false := hR.not_nan _
  cases hd : R.ofNat yhat.length with
  | nan => rw [hd] at hnn; simp [Fl.isNan] at hnn
  | pinf => rfl
  | ninf => rfl
  | fin q =>
    have : q ≠ 0 := by rintro rfl; exact hn hd
    simp [Rounding.div, this, hR.zero]

/-- C40 (the exception is real): in `f64` arithmetic a residual below `2^-538` squares to zero, so the mean
squared loss of a wrong prediction can be exactly zero. -/
theorem C40_underflow_binary64 : (LossKind.mean .squared).loss binary64 ⟨id, id, id, fun a _ => a, id⟩
    [.fin (1 / 2 ^ 600)] [.fin 0] none = some (.fin 0) := by decide +kernel

/-- Concrete: a non-zero loss. -/
example : (LossKind.mean .squared).loss binary64 ⟨id, id, id, fun a _ => a, id⟩ [.fin 3, .fin 1]
    [.fin 1, .fin 1] none = some (.fin 2) := by decide +kernel

/-! ### C41 -/

/-- The baseline that counts: `max(baseline, 0.01)` when a finite baseline of at least `0.01` is given and enabled,
`0.01` otherwise. -/
def IsDenominator (floor : Fl K) (useBaseline : Bool) (baseline : Option (Fl K)) (d : Fl K) : Prop :=
  (useBaseline = true ∧ baseline = some d ∧ d.isFinite = true ∧ floor.le d = true) ∨
  ((useBaseline = false ∨ baseline = none ∨ ∃ b, baseline = some b ∧ (b.isFinite = false ∨ floor.le b = false)) ∧
    d = floor)

omit [IsStrictOrderedRing K] in
/-- C41: the cost is loss over the denominator plus parsimony times complexity. -/
theorem C41_formula (loss : Fl K) (cx : Nat) (p : Fl K) (ub : Bool) (b : Option (Fl K)) :
    ∃ d, IsDenominator (R.rnd (1 / 100)) ub b d ∧
      lossToCost R loss cx p ub b = R.add (R.div loss d) (R.mul p (R.ofNat cx)) := by
  refine ⟨costDenom R ub b, ?_, rfl⟩
  unfold costDenom IsDenominator costFloor
  cases ub with
  | false => exact .inr ⟨.inl rfl, rfl⟩
  | true =>
    cases b with
    | none => exact .inr ⟨.inr (.inl rfl), rfl⟩
    | some v =>
      by_cases h : (v.isFinite && (R.rnd (1 / 100)).le v) = true
      · simp only [if_true, h]
        rw [Bool.and_eq_true] at h
        exact .inl ⟨trivial, trivial, h⟩
      · simp only [if_true, h]
        refine .inr ⟨.inr (.inr ⟨v, rfl, ?_⟩), rfl⟩
        rw [Bool.and_eq_true, not_and_or] at h
        simpa using h

/-- C41 (exact arithmetic): with a finite baseline, the cost is `loss / max(baseline, 0.01) + parsimony *
complexity`, which is finite. -/
theorem C41_exact (l b p : K) (cx : Nat) :
    lossToCost (Rounding.exact K) (.fin l) cx (.fin p) true (some (.fin b))
      = .fin (l / max b (1 / 100) + p * cx) ∧
    lossToCost (Rounding.exact K) (.fin l) cx (.fin p) false (some (.fin b)) = .fin (l / (1 / 100) + p * cx) ∧
    ∀ ub, lossToCost (Rounding.exact K) (.fin l) cx (.fin p) ub none = .fin (l / (1 / 100) + p * cx) := by
  have hf : costFloor (Rounding.exact K) = .fin (1 / 100) := rfl
  have h100 : (1 / 100 : K) ≠ 0 := by positivity
  have ho : (Rounding.exact K).ofNat cx = .fin (cx : K) := rfl
  refine ⟨?_, ?_, ?_⟩
  · simp only [lossToCost, costDenom, hf, if_true, Fl.isFinite, Bool.true_and, ho]
    by_cases h : (1 / 100 : K) ≤ b
    · have hb : b ≠ 0 := by
        have : (0 : K) < 1 / 100 := by positivity
        exact (this.trans_le h).ne'
      rw [if_pos (by simpa [Fl.le] using h), exact_div _ _ hb, exact_mul, exact_add, max_eq_left h]
    · rw [if_neg (by simpa [Fl.le] using h), exact_div _ _ h100, exact_mul, exact_add,
        max_eq_right (not_le.mp h).le]
  · have : costDenom (Rounding.exact K) false (some (.fin b)) = .fin (1 / 100) := by
      unfold costDenom; simp [hf]
    rw [lossToCost, this, ho, exact_div _ _ h100, exact_mul, exact_add]
  · intro ub
    have : costDenom (Rounding.exact K) ub none = .fin (1 / 100) := by
      unfold costDenom; cases ub <;> simp [hf]
    rw [lossToCost, this, ho, exact_div _ _ h100, exact_mul, exact_add]

omit [IsStrictOrderedRing K] in
theorem div_mono_pos [IsStrictOrderedRing K] (hR : R.Lawful) {a b : Fl K} {y : K} (hy : 0 < y)
    (h : a.le b = true) : (R.div a (.fin y)).le (R.div b (.fin y)) = true := by
  have hyn : ¬ y < 0 := not_lt.mpr hy.le
  cases a <;> cases b <;> simp [Fl.le, Rounding.div, hy.ne', hyn] at h ⊢
  · cases hb : R.rnd (_ / y) <;> simp [Fl.le]
    have := hR.not_nan (‹K› / y)
    rw [hb] at this; simp [Fl.isNan] at this
  · exact hR.mono (div_le_div_of_nonneg_right h hy.le)
  · cases hb : R.rnd (_ / y) <;> simp [Fl.le]
    have := hR.not_nan (‹K› / y)
    rw [hb] at this; simp [Fl.isNan] at this

/-- Adding a number that is not minus infinity or NaN is monotone. -/
theorem add_mono_right (hR : R.Lawful) {a b c : Fl K} (h : a.le b = true) (hc : c ≠ .nan) (hc' : c ≠ .pinf)
    (hc'' : c ≠ .ninf) : (R.add a c).le (R.add b c) = true := by
  cases c with
  | nan => exact absurd rfl hc
  | pinf => exact absurd rfl hc'
  | ninf => exact absurd rfl hc''
  | fin z =>
    have hn := hR.not_nan
    cases a <;> cases b <;> simp [Fl.le, Rounding.add] at h ⊢
    · rename_i x
      have := hn (x + z)
      cases hb : R.rnd (x + z) <;> simp_all [Fl.isNan]
    · exact hR.mono (by linarith)
    · rename_i x
      have := hn (x + z)
      cases hb : R.rnd (x + z) <;> simp_all [Fl.isNan]

/-- C41: for every rounding in which `0.01` is positive, the cost is monotone in the loss (the parsimony term being
finite), whatever the baseline. -/
theorem C41_monotone_loss (hR : R.Lawful) (floor : K) (hfl : R.rnd (1 / 100) = .fin floor) (hpos : 0 < floor)
    (l l' : Fl K) (hl : l.le l' = true) (cx : Nat) (p : Fl K) (hp : (R.mul p (R.ofNat cx)).isFinite = true)
    (ub : Bool) (b : Option (Fl K)) : (lossToCost R l cx p ub b).le (lossToCost R l' cx p ub b) = true := by
  have hd : ∃ y, costDenom R ub b = .fin y ∧ 0 < y := by
    unfold costDenom costFloor
    rw [hfl]
    split
    · split
      · split
        · next h =>
          rename_i bb
          cases bb <;> simp [Fl.isFinite, Fl.le] at h
          exact ⟨_, rfl, lt_of_lt_of_le hpos h⟩
        · exact ⟨_, rfl, hpos⟩
      · exact ⟨_, rfl, hpos⟩
    · exact ⟨_, rfl, hpos⟩
  obtain ⟨y, hy, hy0⟩ := hd
  unfold lossToCost
  rw [hy]
  refine add_mono_right hR (div_mono_pos hR hy0 hl) ?_ ?_ ?_ <;> intro h <;> rw [h] at hp <;> simp [Fl.isFinite] at hp

/-- C41: for every rounding, with a non-negative parsimony the cost of a finite loss is monotone in the
complexity. -/
theorem C41_monotone_complexity (hR : R.Lawful) (l : Fl K) (c c' : Nat) (hc : c ≤ c') (p : K) (hp : 0 ≤ p)
    (ub : Bool) (b : Option (Fl K)) (hn : (R.ofNat c').isFinite = true)
    (hl : (R.div l (costDenom R ub b)).isFinite = true) :
    (lossToCost R l c (.fin p) ub b).le (lossToCost R l c' (.fin p) ub b) = true := by
  unfold lossToCost
  cases hx : R.div l (costDenom R ub b) with
  | nan => rw [hx] at hl; simp [Fl.isFinite] at hl
  | pinf => rw [hx] at hl; simp [Fl.isFinite] at hl
  | ninf => rw [hx] at hl; simp [Fl.isFinite] at hl
  | fin x =>
    have hm : (R.ofNat c).le (R.ofNat c') = true := hR.mono (by exact_mod_cast hc)
    have h0 : NN (R.ofNat c) := nn_rnd hR (Nat.cast_nonneg c)
    cases hc1 : R.ofNat c' with
    | nan => rw [hc1] at hn; simp [Fl.isFinite] at hn
    | pinf => rw [hc1] at hn; simp [Fl.isFinite] at hn
    | ninf => rw [hc1] at hn; simp [Fl.isFinite] at hn
    | fin n' =>
      rw [hc1] at hm
      cases hc0 : R.ofNat c with
      | nan => rw [hc0] at hm; simp [Fl.le] at hm
      | pinf => rw [hc0] at hm; simp [Fl.le] at hm
      | ninf => rw [hc0] at h0; simp [NN, Fl.lt] at h0
      | fin n =>
        rw [hc0] at hm h0
        have hn0 : 0 ≤ n := nn_fin.mp h0
        have hnn : n ≤ n' := by simpa [Fl.le] using hm
        have hr := hR.mono (mul_le_mul_of_nonneg_left hnn hp)
        simp only [Rounding.mul]
        rcases rnd_nonneg hR (mul_nonneg hp hn0) with h1 | ⟨u, h1, _⟩ <;>
          rcases rnd_nonneg hR (mul_nonneg hp (hn0.trans hnn)) with h2 | ⟨u', h2, _⟩ <;>
          rw [h1, h2] at hr <;> rw [h1, h2] <;> simp [Rounding.add, Fl.le] at hr ⊢
        · have := hR.not_nan (x + u)
          cases hb : R.rnd (x + u) <;> simp_all [Fl.isNan]
        · exact hR.mono (by linarith)

/-- C41 (the exception is real): in `f64` arithmetic the cost of a finite loss can overflow to infinity. -/
theorem C41_overflow_binary64 :
    lossToCost binary64 (.fin (2 ^ 1023)) 1 (.fin 0) true none = .pinf := by decide +kernel

/-- Concrete: the hypotheses of the monotonicity theorems hold for `f64` with the default parsimony 0. -/
example : (∃ x, binary64.rnd (1 / 100) = .fin x ∧ 0 < x) ∧
    (binary64.mul (.fin 0) (binary64.ofNat 30)).isFinite = true := by
  refine ⟨?_, by decide +kernel⟩
  cases h : binary64.rnd (1 / 100) with
  | fin x => 
    refine ⟨x, rfl, ?_⟩
    have h1 : Fl.lt (.fin 0) (binary64.rnd (1 / 100)) = true := by decide +kernel
    rw [h] at h1; simpa [Fl.lt] using h1
  | nan => exact absurd h (by decide +kernel)
  | pinf => exact absurd h (by decide +kernel)
  | ninf => exact absurd h (by decide +kernel)

end SR
