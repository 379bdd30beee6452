import Verif.Model.Web
import Verif.Spec.Metrics
import Verif.Props.Loss
import Mathlib.Algebra.Order.BigOperators.Group.List
import Mathlib.Tactic.Linarith
import Mathlib.Tactic.Positivity
/-
C62: the metrics of the web interface.
-/
namespace SR
open MRow

/-- One row as the code sees it. -/
def MRow.code (weighted : Bool) (r : MRow) : Fl ℝ × Fl ℝ × Option (Fl ℝ) :=
  (.fin r.pred, .fin r.target, if weighted then some (.fin r.weight) else none)

theorem WeightsOf.isSome {l : List MRow} {w : Option (List (Fl ℝ))} (h : WeightsOf l w) :
    w.isSome = false → ∀ r ∈ l, r.weight = 1 := by
  rcases h with rfl | ⟨rfl, h⟩
  · simp
  · exact fun _ => h

theorem metricRows_code {l : List MRow} {w : Option (List (Fl ℝ))} (h : WeightsOf l w) :
    metricRows (preds l) (targets l) w = some (l.map (MRow.code w.isSome)) := by
  rcases h with rfl | ⟨rfl, -⟩
  · unfold metricRows
    rw [if_neg (by simp [preds, targets, weights])]
    congr 1
    induction l with
    | nil => rfl
    | cons r l ih => simpa [preds, targets, weights, MRow.code] using ih
  · unfold metricRows
    rw [if_neg (by simp [preds, targets])]
    congr 1
    induction l with
    | nil => rfl
    | cons r l ih => simpa [preds, targets, MRow.code] using ih

theorem total_cons (r : MRow) (l : List MRow) (f : MRow → ℝ) : total (r :: l) f = f r + total l f := by simp [total]

theorem sse_cons (r : MRow) (l : List MRow) : sse (r :: l) = r.weight * (r.pred - r.target) ^ 2 + sse l := total_cons _ _ _

local notation "RX" => Rounding.exact ℝ

theorem fin_abs (x : ℝ) : Fl.abs (.fin x) = .fin |x| := by simp [Fl.abs, abs]

theorem exact_ops (x y : ℝ) : (RX).add (.fin x) (.fin y) = .fin (x + y) ∧ (RX).sub (.fin x) (.fin y) = .fin (x - y) ∧
    (RX).mul (.fin x) (.fin y) = .fin (x * y) :=
  ⟨rfl, by simp [Rounding.sub, Fl.neg, Rounding.add, Rounding.exact, sub_eq_add_neg], rfl⟩

theorem exact_fdiv (x : ℝ) {y : ℝ} (hy : y ≠ 0) : (RX).div (.fin x) (.fin y) = .fin (x / y) := by
  simp [Rounding.div, hy, Rounding.exact]

/-- The accumulators after the loop. -/
theorem metricLoop_exact (wt : Bool) (l : List MRow) (hw : wt = false → ∀ r ∈ l, r.weight = 1) (m a s : ℝ) (lo : Fl ℝ)
    (hi : ℝ) (hlo : lo = .pinf ∨ ∃ v, lo = .fin v) :
    ∃ lo' hi', metricLoop RX (l.map (MRow.code wt)) ⟨.fin m, .fin a, .fin s, lo, .fin hi⟩ =
      ⟨.fin (m + sse l), .fin (a + total l fun r => r.weight * r.absErr),
        .fin (if wt then s + total l (·.weight) else s), lo', .fin hi'⟩ ∧
      (∀ r ∈ l, ∃ v, lo' = .fin v ∧ v ≤ r.absErr) ∧ (∀ r ∈ l, r.absErr ≤ hi') ∧
      (lo' = lo ∨ ∃ r ∈ l, lo' = .fin r.absErr) ∧ (hi' = hi ∨ ∃ r ∈ l, hi' = r.absErr) ∧ hi ≤ hi' ∧
      (∀ v, lo = .fin v → ∃ v', lo' = .fin v' ∧ v' ≤ v) := by
  induction l generalizing m a s lo hi with
  | nil => exact ⟨lo, hi, by simp [metricLoop, sse, total], by simp, by simp, .inl rfl, .inl rfl, le_refl _,
      fun v h => ⟨v, h, le_refl _⟩⟩
  | cons r l ih =>
    have hrow : ∃ lo1 hi1, metricRow RX ⟨.fin m, .fin a, .fin s, lo, .fin hi⟩ (.fin r.pred) (.fin r.target)
        (if wt then some (.fin r.weight) else none) =
        ⟨.fin (m + r.weight * (r.pred - r.target) ^ 2), .fin (a + r.weight * r.absErr),
          .fin (if wt then s + r.weight else s), .fin lo1, .fin hi1⟩ ∧ lo1 ≤ r.absErr ∧ r.absErr ≤ hi1 ∧
        (.fin lo1 = lo ∨ lo1 = r.absErr) ∧ (hi1 = hi ∨ hi1 = r.absErr) ∧ hi ≤ hi1 ∧ (∀ v, lo = .fin v → lo1 ≤ v) := by
      have h1 : ∃ lo1, (if (Fl.fin r.absErr).lt lo then Fl.fin r.absErr else lo) = .fin lo1 ∧ lo1 ≤ r.absErr ∧
          (.fin lo1 = lo ∨ lo1 = r.absErr) ∧ (∀ v, lo = .fin v → lo1 ≤ v) := by
        rcases hlo with rfl | ⟨v, rfl⟩
        · exact ⟨r.absErr, rfl, le_refl _, .inr rfl, by simp⟩
        · by_cases hv : r.absErr < v
          · exact ⟨r.absErr, by simp [Fl.lt, hv], le_refl _, .inr rfl, by rintro _ ⟨⟩; exact hv.le⟩
          · exact ⟨v, by simp [Fl.lt, hv], not_lt.mp hv, .inl rfl, by rintro _ ⟨⟩; exact le_refl _⟩
      have h2 : ∃ hi1, (if (Fl.fin hi).lt (Fl.fin r.absErr) then Fl.fin r.absErr else .fin hi) = .fin hi1 ∧
          r.absErr ≤ hi1 ∧ (hi1 = hi ∨ hi1 = r.absErr) ∧ hi ≤ hi1 := by
        by_cases hv : hi < r.absErr
        · exact ⟨r.absErr, by simp [Fl.lt, hv], le_refl _, .inr rfl, hv.le⟩
        · exact ⟨hi, by simp [Fl.lt, hv], not_lt.mp hv, .inl rfl, le_refl _⟩
      obtain ⟨lo1, l1, l2, l3, l4⟩ := h1
      obtain ⟨hi1, u1, u2, u3, u4⟩ := h2
      refine ⟨lo1, hi1, ?_, l2, u2, l3, u3, u4, l4⟩
      have herr : Fl.abs (.fin (r.pred - r.target)) = .fin r.absErr := fin_abs _
      unfold metricRow
      simp only [(exact_ops _ _).2.1, herr, l1, u1]
      cases wt with
      | true =>
        simp only [if_true, (exact_ops _ _).2.2, (exact_ops _ _).1]
        congr 2
        ring
      | false =>
        simp only [Bool.false_eq_true, if_false, (exact_ops _ _).2.2, (exact_ops _ _).1]
        rw [hw rfl r (by simp)]
        congr 2
        · ring
        · ring
    obtain ⟨lo1, hi1, e, l2, u2, l3, u3, u4, l4⟩ := hrow
    obtain ⟨lo', hi', e', a1, a2, a3, a4, a5, a6⟩ := ih (fun h x hx => hw h x (by simp [hx]))
      (m + r.weight * (r.pred - r.target) ^ 2) (a + r.weight * r.absErr) (if wt then s + r.weight else s) (.fin lo1) hi1
      (.inr ⟨_, rfl⟩)
    obtain ⟨v', hv', hv1⟩ := a6 lo1 rfl
    refine ⟨lo', hi', ?_, ?_, ?_, ?_, ?_, u4.trans a5, ?_⟩
    · rw [List.map_cons, MRow.code, metricLoop, e, e']
      cases wt <;> simp only [sse, total_cons, if_true, Bool.false_eq_true, if_false, add_assoc]
    · intro x hx
      rcases List.mem_cons.mp hx with rfl | hx
      · exact ⟨v', hv', hv1.trans l2⟩
      · exact a1 x hx
    · intro x hx
      rcases List.mem_cons.mp hx with rfl | hx
      · exact u2.trans a5
      · exact a2 x hx
    · rcases a3 with rfl | ⟨x, hx, h⟩
      · rcases l3 with h | h
        · exact .inl h
        · exact .inr ⟨r, by simp, by rw [h]⟩
      · exact .inr ⟨x, by simp [hx], h⟩
    · rcases a4 with rfl | ⟨x, hx, h⟩
      · rcases u3 with h | h
        · exact .inl h
        · exact .inr ⟨r, by simp, h⟩
      · exact .inr ⟨x, by simp [hx], h⟩
    · intro v hv
      exact ⟨v', hv', hv1.trans (l4 v hv)⟩

theorem sumSquares_exact (wt : Bool) (mu : ℝ) (l : List MRow) (hw : wt = false → ∀ r ∈ l, r.weight = 1) (a b : ℝ) :
    sumSquares RX (.fin mu) (l.map (MRow.code wt)) (.fin a, .fin b) =
      (.fin (a + sse l), .fin (b + total l fun r => r.weight * (r.target - mu) ^ 2)) := by
  induction l generalizing a b with
  | nil => simp [sumSquares, sse, total]
  | cons r l ih =>
    have ih := fun a b => ih (fun h x hx => hw h x (by simp [hx])) a b
    rw [List.map_cons, MRow.code]
    cases wt with
    | true =>
      simp only [if_true, sumSquares, (exact_ops _ _).2.1, (exact_ops _ _).2.2, (exact_ops _ _).1]
      rw [ih, sse_cons, total_cons]
      congr 2 <;> ring
    | false =>
      simp only [Bool.false_eq_true, if_false, sumSquares, (exact_ops _ _).2.1, (exact_ops _ _).2.2, (exact_ops _ _).1]
      rw [ih, sse_cons, total_cons, hw rfl r (by simp)]
      congr 2 <;> ring

theorem covSums_exact (mp mt : ℝ) (l : List MRow) (a b c : ℝ) :
    covSums RX (.fin mp) (.fin mt) ((preds l).zip (targets l)) (.fin a, .fin b, .fin c) =
      (.fin (a + total l fun r => (r.pred - mp) * (r.target - mt)), .fin (b + total l fun r => (r.target - mt) ^ 2),
        .fin (c + total l fun r => (r.pred - mp) ^ 2)) := by
  induction l generalizing a b c with
  | nil => simp [covSums, total, preds, targets]
  | cons r l ih =>
    have : (preds (r :: l)).zip (targets (r :: l)) = (.fin r.pred, .fin r.target) :: (preds l).zip (targets l) := rfl
    rw [this]
    simp only [covSums, (exact_ops _ _).2.1, (exact_ops _ _).2.2, (exact_ops _ _).1]
    rw [ih, total_cons, total_cons, total_cons]
    exact Prod.ext (congrArg Fl.fin (by ring)) (Prod.ext (congrArg Fl.fin (by ring)) (congrArg Fl.fin (by ring)))

theorem sum_exact (l : List MRow) (f : MRow → ℝ) : (RX).sum (l.map fun r => .fin (f r)) = .fin (total l f) := by
  have : ∀ (l : List MRow) (a : ℝ), (l.map fun r => Fl.fin (f r)).foldl (RX).add (.fin a) = .fin (a + total l f) := by
    intro l
    induction l with
    | nil => intro a; simp [total]
    | cons r l ih => intro a; rw [List.map_cons, List.foldl_cons, (exact_ops _ _).1, ih, total_cons, add_assoc]
  rw [Rounding.sum, this, zero_add]

/-- The rows count: there is one, and the weights have a positive sum. -/
structure Weighted (l : List MRow) (w : Option (List (Fl ℝ))) : Prop where
  nonempty : l ≠ []
  weights : WeightsOf l w
  pos : 0 < total l (·.weight)

theorem Weighted.count {l : List MRow} {w : Option (List (Fl ℝ))} (h : Weighted l w) (hn : w.isSome = false) :
    total l (·.weight) = l.length := by
  have := WeightsOf.isSome h.weights hn
  rw [total, List.map_congr_left (g := fun _ => (1 : ℝ)) this]
  simp

theorem targetMean_exact {l : List MRow} {w : Option (List (Fl ℝ))} (h : Weighted l w) :
    targetMean RX (targets l) w = .fin (mean l (·.target)) := by
  have hp := h.pos.ne'
  rcases h.weights with rfl | ⟨rfl, hw⟩
  · have hs : (RX).sum (weights l) = .fin (total l (·.weight)) := sum_exact l _
    have hm : (RX).sum (List.zipWith (RX).mul (targets l) (weights l)) = .fin (total l fun r => r.weight * r.target) := by
      rw [← sum_exact]
      congr 1
      induction l with
      | nil => rfl
      | cons r l ih =>
        show (RX).mul _ _ :: List.zipWith _ (targets l) (weights l) = _ :: _
        congr 1
        · show Fl.fin _ = _; rw [mul_comm]
        · clear ih hs h hp
          induction l with
          | nil => rfl
          | cons r l ih => show (RX).mul _ _ :: List.zipWith _ (targets l) (weights l) = _ :: _
                           rw [ih]; congr 1; show Fl.fin _ = _; rw [mul_comm]
    show (if ((RX).sum (weights l)).feq (.fin 0) = true then _ else (RX).div ((RX).sum (List.zipWith (RX).mul _ _)) _) = _
    rw [hs, hm, exact_fdiv _ hp, if_neg (by simp [Fl.feq, Fl.le]; intro h1; exact lt_of_le_of_ne h1 hp)]
    rfl
  · have hc := h.count rfl
    have hs : (RX).sum (targets l) = .fin (total l (·.target)) := sum_exact l _
    unfold targetMean
    rw [hs]
    show (RX).div _ (.fin _) = _
    rw [show (targets l).length = l.length by simp [targets], ← hc, exact_fdiv _ hp, mean]
    congr 2
    unfold total
    congr 1
    exact List.map_congr_left fun r hr => by rw [hw r hr, one_mul]

/-- The result of the metrics computation in exact arithmetic. -/
theorem C62_formulas {l : List MRow} {w : Option (List (Fl ℝ))} (h : Weighted l w) :
    ∃ lo hi, computeMetrics RX LossLib.real.sqrt (preds l) (targets l) w = some
      { n := l.length, mse := .fin (mean l fun r => (r.pred - r.target) ^ 2), mae := .fin (mean l absErr),
        rmse := .fin (√(mean l fun r => (r.pred - r.target) ^ 2)), r2 := .fin (r2 l), corr := .fin (mixedCorr l),
        minAbsErr := .fin lo, maxAbsErr := .fin hi } ∧
      IsLeast {e | ∃ r ∈ l, e = absErr r} lo ∧ IsGreatest {e | ∃ r ∈ l, e = absErr r} hi := by
  have hp := h.pos.ne'
  have hlen : (targets l).length = l.length := by simp [targets]
  have hlen' : (preds l).length = l.length := by simp [preds]
  have hl0 : 0 < l.length := List.length_pos_iff.mpr h.nonempty
  obtain ⟨lo, hi, e, a1, a2, a3, a4, a5, -⟩ := metricLoop_exact w.isSome l (WeightsOf.isSome h.weights) 0 0 0 .pinf 0
    (.inl rfl)
  have hex : ∃ r, r ∈ l := List.exists_mem_of_ne_nil _ h.nonempty
  obtain ⟨r0, hr0⟩ := hex
  obtain ⟨v, rfl, hv⟩ := a1 r0 hr0
  have hmean : metricMean RX (targets l).length w.isSome
      (metricLoop RX (l.map (MRow.code w.isSome)) ⟨.fin 0, .fin 0, .fin 0, .pinf, .fin 0⟩) =
      ⟨.fin (mean l fun r => (r.pred - r.target) ^ 2), .fin (mean l absErr),
        .fin (if w.isSome then 0 + total l (·.weight) else 0), .fin v, .fin hi⟩ := by
    rw [e]
    unfold metricMean
    cases hw : w.isSome with
    | true =>
      have : (Fl.fin 0).lt (Fl.fin (total l (·.weight))) = true := by simp [Fl.lt, h.pos]
      simp only [if_true, zero_add, this, exact_fdiv _ hp]
      rfl
    | false =>
      have hc := h.count hw
      have : (0 : ℕ) < (targets l).length := by omega
      simp only [Bool.false_eq_true, if_false, this, if_true, zero_add]
      show (MetricAcc.mk ((RX).div _ (.fin _)) ((RX).div _ (.fin _)) _ _ _) = _
      rw [hlen, ← hc, exact_fdiv _ hp, exact_fdiv _ hp]
      rfl
  rw [hlen] at hmean
  have hr2 : r2AndCorr RX LossLib.real.sqrt (preds l) (targets l) w = some (.fin (r2 l), .fin (mixedCorr l)) := by
    unfold r2AndCorr
    rw [if_neg (by
      have : targets l ≠ [] := by rw [← List.length_pos_iff]; omega
      simp [this, hlen, hlen'])]
    rw [metricRows_code h.weights]
    simp only [Option.bind_eq_bind, Option.bind_some, targetMean_exact h,
      sumSquares_exact _ _ l (WeightsOf.isSome h.weights)]
    have hs : (RX).sum (preds l) = .fin (total l (·.pred)) := sum_exact l _
    have hpm : (RX).div ((RX).sum (preds l)) ((RX).ofNat (preds l).length) = .fin (plainMean l (·.pred)) := by
      rw [hs, hlen']
      exact exact_fdiv _ (by exact_mod_cast hl0.ne')
    rw [hpm, covSums_exact]
    simp only [zero_add]
    have z : ∀ x : ℝ, (Fl.fin x).feq (.fin 0) = decide (x = 0) := by
      intro x; simp [Fl.feq, Fl.le, le_antisymm_iff, Bool.decide_and]
    congr 2
    · rw [z, r2]
      show (if decide (sst l = 0) = true then _ else _) = _
      by_cases h0 : sst l = 0
      · simp [h0]
      · simp only [h0, decide_false, Bool.false_eq_true, if_false]
        show (RX).sub _ ((RX).div (.fin _) (.fin (sst l))) = _
        rw [exact_fdiv _ h0, (exact_ops _ _).2.1]
    · rw [z, z, mixedCorr]
      simp only [Bool.or_eq_true, decide_eq_true_eq]
      split
      · rfl
      · next hne =>
        rw [not_or] at hne
        show (RX).div _ ((RX).mul (.fin _) (.fin _)) = _
        rw [(exact_ops _ _).2.2, exact_fdiv]
        have nn : ∀ f : MRow → ℝ, 0 ≤ total l fun r => f r ^ 2 := fun f => by
          unfold total
          exact List.sum_nonneg (by simp only [List.mem_map]; rintro _ ⟨r, -, rfl⟩; positivity)
        exact mul_ne_zero (Real.sqrt_ne_zero'.mpr (lt_of_le_of_ne (nn _) (Ne.symm hne.1)))
          (Real.sqrt_ne_zero'.mpr (lt_of_le_of_ne (nn _) (Ne.symm hne.2)))
  refine ⟨v, hi, ?_, ⟨?_, ?_⟩, ⟨?_, ?_⟩⟩
  · unfold computeMetrics
    rw [metricRows_code h.weights]
    simp only [Option.bind_eq_bind, Option.bind_some, hmean, hr2, hlen]
    rfl
  · rcases a3 with h | ⟨r, hr, h⟩
    · exact absurd h (by simp)
    · exact ⟨r, hr, by simpa using h⟩
  · rintro _ ⟨r, hr, rfl⟩
    obtain ⟨v', e', hv'⟩ := a1 r hr
    cases e'
    exact hv'
  · rcases a4 with rfl | ⟨r, hr, h⟩
    · exact ⟨r0, hr0, le_antisymm (abs_nonneg _) (a2 r0 hr0)⟩
    · exact ⟨r, hr, h⟩
  · rintro _ ⟨r, hr, rfl⟩
    exact a2 r hr


/-! ### What the formulas give -/

theorem total_nonneg {l : List MRow} {f : MRow → ℝ} (h : ∀ r ∈ l, 0 ≤ f r) : 0 ≤ total l f :=
  List.sum_nonneg (by simp only [List.mem_map]; rintro _ ⟨r, hr, rfl⟩; exact h r hr)

theorem total_mono {l : List MRow} {f g : MRow → ℝ} (h : ∀ r ∈ l, f r ≤ g r) : total l f ≤ total l g :=
  List.sum_le_sum h

theorem total_mul (l : List MRow) (f : MRow → ℝ) (c : ℝ) : total l (fun r => f r * c) = total l f * c :=
  List.sum_map_mul_right _ _ _

/-- A mean with non-negative weights lies between the bounds of its values. -/
theorem mean_bounds {l : List MRow} (hw : ∀ r ∈ l, 0 ≤ r.weight) (hp : 0 < total l (·.weight)) {f : MRow → ℝ} {lo hi : ℝ}
    (h : ∀ r ∈ l, lo ≤ f r ∧ f r ≤ hi) : lo ≤ mean l f ∧ mean l f ≤ hi := by
  unfold mean
  constructor
  · rw [le_div_iff₀ hp, mul_comm, ← total_mul]
    exact total_mono fun r hr => mul_le_mul_of_nonneg_left (h r hr).1 (hw r hr)
  · rw [div_le_iff₀ hp, mul_comm hi, ← total_mul]
    exact total_mono fun r hr => mul_le_mul_of_nonneg_left (h r hr).2 (hw r hr)

theorem total_eq_sum (l : List MRow) (f : MRow → ℝ) : total l f = ∑ i : Fin l.length, f (l.get i) := by
  unfold total
  rw [← List.sum_ofFn]
  congr 1
  apply List.ext_getElem <;> simp

/-- The Cauchy-Schwarz inequality. -/
theorem cauchy (l : List MRow) (f g : MRow → ℝ) :
    |total l fun r => f r * g r| ≤ √(total l fun r => g r ^ 2) * √(total l fun r => f r ^ 2) := by
  rw [← Real.sqrt_mul (total_nonneg fun r _ => sq_nonneg _)]
  refine Real.abs_le_sqrt ?_
  rw [total_eq_sum, total_eq_sum, total_eq_sum, mul_comm]
  exact Finset.sum_mul_sq_le_sq_mul_sq _ _ _

/-- C62: with non-negative weights the mean and root mean squared errors lie between the least and the greatest error,
`r2` is at most 1, and the correlation lies between -1 and 1. -/
theorem C62_range {l : List MRow} {w : Option (List (Fl ℝ))} (h : Weighted l w) (hw : ∀ r ∈ l, 0 ≤ r.weight) :
    ∃ lo mae rmse hi r2 corr m, computeMetrics (Rounding.exact ℝ) LossLib.real.sqrt (preds l) (targets l) w = some m ∧
      m.minAbsErr = .fin lo ∧ m.mae = .fin mae ∧ m.rmse = .fin rmse ∧ m.maxAbsErr = .fin hi ∧ m.r2 = .fin r2 ∧
      m.corr = .fin corr ∧ 0 ≤ lo ∧ lo ≤ mae ∧ mae ≤ hi ∧ lo ≤ rmse ∧ rmse ≤ hi ∧ r2 ≤ 1 ∧ -1 ≤ corr ∧ corr ≤ 1 := by
  obtain ⟨lo, hi, e, ⟨⟨r0, hr0, l1⟩, l2⟩, ⟨u1, u2⟩⟩ := C62_formulas h
  have hb : ∀ r ∈ l, lo ≤ absErr r ∧ absErr r ≤ hi := fun r hr => ⟨l2 ⟨r, hr, rfl⟩, u2 ⟨r, hr, rfl⟩⟩
  have lo0 : 0 ≤ lo := by rw [l1]; exact abs_nonneg _
  have hi0 : 0 ≤ hi := lo0.trans ((hb r0 hr0).1.trans (hb r0 hr0).2)
  obtain ⟨m1, m2⟩ := mean_bounds hw h.pos hb
  have hsq : ∀ r ∈ l, lo ^ 2 ≤ (r.pred - r.target) ^ 2 ∧ (r.pred - r.target) ^ 2 ≤ hi ^ 2 := fun r hr => by
    rw [← sq_abs (r.pred - r.target)]
    exact ⟨pow_le_pow_left₀ lo0 (hb r hr).1 2, pow_le_pow_left₀ (abs_nonneg _) (hb r hr).2 2⟩
  obtain ⟨q1, q2⟩ := mean_bounds (f := fun r => (r.pred - r.target) ^ 2) hw h.pos hsq
  refine ⟨lo, _, _, hi, _, _, _, e, rfl, rfl, rfl, rfl, rfl, rfl, lo0, m1, m2, ?_, ?_, ?_, ?_⟩
  · exact Real.le_sqrt_of_sq_le q1
  · exact (Real.sqrt_le_sqrt q2).trans (by rw [Real.sqrt_sq hi0])
  · unfold r2
    split
    · exact zero_le_one
    · have h1 : 0 ≤ sse l := total_nonneg fun r hr => mul_nonneg (hw r hr) (sq_nonneg _)
      have h2 : 0 ≤ sst l := total_nonneg fun r hr => mul_nonneg (hw r hr) (sq_nonneg _)
      have := div_nonneg h1 h2
      linarith
  · rw [← abs_le]
    unfold mixedCorr
    simp only
    split
    · simp
    · have := cauchy l (fun r => r.pred - plainMean l (·.pred)) (fun r => r.target - mean l (·.target))
      rw [abs_div, abs_of_nonneg (mul_nonneg (Real.sqrt_nonneg _) (Real.sqrt_nonneg _))]
      exact div_le_one_of_le₀ this (by positivity)

/-- C62: without weights, or with equal ones, the correlation is Pearson's coefficient. -/
theorem C62_pearson {l : List MRow} (c : ℝ) (hc : 0 < c) (hw : ∀ r ∈ l, r.weight = c) : mixedCorr l = pearson l := by
  have : mean l (·.target) = plainMean l (·.target) := by
    unfold mean plainMean
    have h1 : (total l fun r => r.weight * r.target) = total l (·.target) * c := by
      rw [← total_mul]
      unfold total
      congr 1
      exact List.map_congr_left fun r hr => by rw [hw r hr, mul_comm]
    have h2 : total l (·.weight) = l.length * c := by
      unfold total
      rw [List.map_congr_left (g := fun _ => c) hw]
      simp
    rw [h1, h2, mul_div_mul_right _ _ hc.ne']
  unfold mixedCorr pearson
  rw [this]

/-- C62: perfect predictions have no error; `r2` is 1 unless the target is constant, and without weights so is the
correlation. -/
theorem C62_perfect {l : List MRow} {w : Option (List (Fl ℝ))} (h : Weighted l w) (hp : ∀ r ∈ l, r.pred = r.target) :
    ∃ m, computeMetrics (Rounding.exact ℝ) LossLib.real.sqrt (preds l) (targets l) w = some m ∧
      m.mse = .fin 0 ∧ m.mae = .fin 0 ∧ m.rmse = .fin 0 ∧ m.minAbsErr = .fin 0 ∧ m.maxAbsErr = .fin 0 ∧
      (sst l ≠ 0 → m.r2 = .fin 1) ∧ (w = none → (∃ r ∈ l, ∃ r' ∈ l, r.target ≠ r'.target) → m.corr = .fin 1) := by
  obtain ⟨lo, hi, e, ⟨⟨r0, hr0, l1⟩, -⟩, ⟨⟨r1, hr1, u1⟩, -⟩⟩ := C62_formulas h
  have hz : ∀ r ∈ l, r.pred - r.target = 0 := fun r hr => by rw [hp r hr, sub_self]
  have tz : ∀ f : MRow → ℝ, (∀ r ∈ l, f r = 0) → total l f = 0 := fun f hf => by
    unfold total
    rw [List.map_congr_left (g := fun _ => (0 : ℝ)) hf]
    simp
  have hmse : (mean l fun r => (r.pred - r.target) ^ 2) = 0 := by
    unfold mean
    rw [tz _ fun r hr => by simp [hz r hr], zero_div]
  refine ⟨_, e, by simp only [hmse], ?_, by simp only [hmse, Real.sqrt_zero], ?_, ?_, ?_, ?_⟩
  · simp only [mean]
    rw [tz _ fun r hr => by rw [absErr, hz r hr]; simp, zero_div]
  · simp only [l1, absErr, hz r0 hr0, abs_zero]
  · simp only [u1, absErr, hz r1 hr1, abs_zero]
  · intro hs
    have : sse l = 0 := tz _ fun r hr => by rw [hz r hr]; simp
    simp only [r2, if_neg hs, this, zero_div, sub_zero]
  · rintro rfl ⟨a, ha, b, hb, hab⟩
    have hw := WeightsOf.isSome h.weights rfl
    simp only
    rw [C62_pearson 1 one_pos hw]
    have tc : ∀ f g : MRow → ℝ, (∀ r ∈ l, f r = g r) → total l f = total l g := fun f g hf => by
      unfold total
      rw [List.map_congr_left hf]
    have hm : plainMean l (·.pred) = plainMean l (·.target) := by unfold plainMean; rw [tc _ _ hp]
    have hv : (total l fun r => (r.pred - plainMean l (·.pred)) ^ 2) =
        total l fun r => (r.target - plainMean l (·.target)) ^ 2 := tc _ _ fun r hr => by rw [hm, hp r hr]
    have hcov : (total l fun r => (r.pred - plainMean l (·.pred)) * (r.target - plainMean l (·.target))) =
        total l fun r => (r.target - plainMean l (·.target)) ^ 2 := tc _ _ fun r hr => by rw [hm, hp r hr]; ring
    have hpos : 0 < total l fun r => (r.target - plainMean l (·.target)) ^ 2 := by
      refine lt_of_le_of_ne (total_nonneg fun _ _ => sq_nonneg _) fun h0 => hab ?_
      have each : ∀ r ∈ l, r.target = plainMean l (·.target) := by
        intro r hr
        have hle : (r.target - plainMean l (·.target)) ^ 2 ≤ total l fun r => (r.target - plainMean l (·.target)) ^ 2 := by
          unfold total
          refine List.single_le_sum ?_ _ (List.mem_map.mpr ⟨r, hr, rfl⟩)
          simp only [List.mem_map]
          rintro _ ⟨x, -, rfl⟩
          exact sq_nonneg _
        rw [← h0] at hle
        have := pow_eq_zero_iff (two_ne_zero) |>.mp (le_antisymm hle (sq_nonneg _))
        linarith
      rw [each a ha, each b hb]
    unfold pearson
    simp only
    rw [hv, hcov, if_neg (by simp [hpos.ne']), Real.mul_self_sqrt hpos.le, div_self hpos.ne']

/-! ### The exceptions -/

/-- C62 (exception): perfect predictions of a constant target get `r2 = 0`, as if they were no better than the mean. -/
theorem C62_constant_target {l : List MRow} {w : Option (List (Fl ℝ))} (h : Weighted l w) (c : ℝ)
    (hc : ∀ r ∈ l, r.target = c) :
    ∃ m, computeMetrics (Rounding.exact ℝ) LossLib.real.sqrt (preds l) (targets l) w = some m ∧ m.r2 = .fin 0 := by
  obtain ⟨lo, hi, e, -⟩ := C62_formulas h
  refine ⟨_, e, ?_⟩
  have hm : mean l (·.target) = c := by
    unfold mean
    have : (total l fun r => r.weight * r.target) = total l (·.weight) * c := by
      rw [← total_mul]
      unfold total
      rw [List.map_congr_left fun r hr => by rw [hc r hr]]
    rw [this, mul_div_cancel_left₀ _ h.pos.ne']
  have : sst l = 0 := by
    unfold sst total
    rw [List.map_congr_left (g := fun _ => (0 : ℝ)) fun r hr => by rw [hm, hc r hr]; simp]
    simp
  simp only [r2, if_pos this]

/-- C62 (exception): with weights the reported correlation is not a correlation: the predictions below are perfect, and
the reported value is below 1, because the deviations of the target are taken from its weighted mean. -/
theorem C62_weighted_corr : ∃ l : List MRow, Weighted l (some (weights l)) ∧ (∀ r ∈ l, r.pred = r.target) ∧
    pearson l = 1 ∧ ∃ m c, computeMetrics (Rounding.exact ℝ) LossLib.real.sqrt (preds l) (targets l) (some (weights l)) =
      some m ∧ m.corr = .fin c ∧ c < 1 := by
  have hW : Weighted [⟨0, 0, 1⟩, ⟨1, 1, 3⟩] (some (weights [⟨0, 0, 1⟩, ⟨1, 1, 3⟩])) :=
    ⟨by simp, .inl rfl, by norm_num [total]⟩
  obtain ⟨lo, hi, e, -⟩ := C62_formulas hW
  refine ⟨_, hW, by simp, ?_, _, _, e, rfl, ?_⟩
  · unfold pearson plainMean
    norm_num [total]
    rw [← mul_inv, Real.mul_self_sqrt (by norm_num)]
    norm_num
  · unfold mixedCorr mean plainMean
    norm_num [total]
    rw [div_lt_one (by positivity)]
    rw [← Real.sqrt_div (by norm_num), ← Real.sqrt_inv, ← Real.sqrt_mul (by norm_num)]
    refine Real.lt_sqrt_of_sq_lt ?_
    norm_num


/-! ### In rounded arithmetic -/

section
variable {K : Type} [Field K] [LinearOrder K] (R : Rounding K)

theorem metricRows_isSome (yhat y : List (Fl K)) (w : Option (List (Fl K))) :
    (metricRows yhat y w).isSome = true ↔ yhat.length = y.length ∧ ∀ v, w = some v → v.length = y.length := by
  cases w with
  | none => unfold metricRows; by_cases h : yhat.length = y.length <;> simp [h]
  | some v => unfold metricRows; by_cases h : yhat.length = y.length <;> by_cases h' : v.length = y.length <;> simp [h, h']

/-- C62: the metrics are computed (no panic) exactly if there are as many predictions (and weights) as targets, in any
arithmetic and for any values. -/
theorem C62_total (sqrt : Fl K → Fl K) (yhat y : List (Fl K)) (w : Option (List (Fl K))) :
    (computeMetrics R sqrt yhat y w).isSome = true ↔
      yhat.length = y.length ∧ ∀ v, w = some v → v.length = y.length := by
  rw [← metricRows_isSome]
  unfold computeMetrics
  cases h : metricRows yhat y w with
  | none => simp
  | some rows =>
    have : (r2AndCorr R sqrt yhat y w).isSome = true := by
      unfold r2AndCorr
      split
      · rfl
      · rw [h]; rfl
    obtain ⟨v, hv⟩ := Option.isSome_iff_exists.mp this
    simp [hv]

theorem metricLoop_bounds (rows : List (Fl K × Fl K × Option (Fl K))) (acc : MetricAcc K)
    (ha : acc.minAbs.isNan = false) (hb : acc.maxAbs.isNan = false) :
    let acc' := metricLoop R rows acc
    acc'.minAbs.isNan = false ∧ acc'.maxAbs.isNan = false ∧ acc'.minAbs.le acc.minAbs = true ∧
      acc.maxAbs.le acc'.maxAbs = true ∧
      ∀ p ∈ rows, (R.sub p.1 p.2.1).abs.isNan = false →
        acc'.minAbs.le (R.sub p.1 p.2.1).abs = true ∧ (R.sub p.1 p.2.1).abs.le acc'.maxAbs = true := by
  induction rows generalizing acc with
  | nil =>
    refine ⟨ha, hb, ?_, ?_, by simp⟩
    · exact Fl.le_refl ha
    · exact Fl.le_refl hb
  | cons p rows ih =>
    obtain ⟨yh, yi, w⟩ := p
    generalize he : (R.sub yh yi).abs = ar
    have hmin : (metricRow R acc yh yi w).minAbs = if ar.lt acc.minAbs then ar else acc.minAbs := by
      rw [← he]; rfl
    have hmax : (metricRow R acc yh yi w).maxAbs = if acc.maxAbs.lt ar then ar else acc.maxAbs := by
      rw [← he]; rfl
    have h1 : (metricRow R acc yh yi w).minAbs.isNan = false ∧ (metricRow R acc yh yi w).minAbs.le acc.minAbs = true ∧
        (ar.isNan = false → (metricRow R acc yh yi w).minAbs.le ar = true) := by
      rw [hmin]
      split
      · next h =>
        refine ⟨?_, Fl.le_of_lt h, fun hn => Fl.le_refl hn⟩
        cases ar <;> simp_all [Fl.lt, Fl.isNan]
      · next h => exact ⟨ha, Fl.le_refl ha, fun hn => (Fl.le_iff ha hn).mpr (by simpa using h)⟩
    have h2 : (metricRow R acc yh yi w).maxAbs.isNan = false ∧ acc.maxAbs.le (metricRow R acc yh yi w).maxAbs = true ∧
        (ar.isNan = false → ar.le (metricRow R acc yh yi w).maxAbs = true) := by
      rw [hmax]
      split
      · next h =>
        refine ⟨?_, Fl.le_of_lt h, fun hn => Fl.le_refl hn⟩
        cases acc.maxAbs <;> cases ar <;> simp_all [Fl.lt, Fl.isNan]
      · next h => exact ⟨hb, Fl.le_refl hb, fun hn => (Fl.le_iff hn hb).mpr (by simpa using h)⟩
    obtain ⟨i1, i2, i3, i4, i5⟩ := ih (metricRow R acc yh yi w) h1.1 h2.1
    refine ⟨i1, i2, Fl.le_trans i3 h1.2.1, Fl.le_trans h2.2.1 i4, fun p hp hn => ?_⟩
    rcases List.mem_cons.mp hp with rfl | hp
    · simp only at hn ⊢
      rw [he] at hn ⊢
      exact ⟨Fl.le_trans i3 (h1.2.2 hn), Fl.le_trans (h2.2.2 hn) i4⟩
    · exact i5 p hp hn

/-- C62 (any arithmetic): every row's computed absolute error that is a number is at most the reported greatest error,
and at least the reported least error (unless that is reported as 0). -/
theorem C62_extremes (sqrt : Fl K → Fl K) (yhat y : List (Fl K)) (w : Option (List (Fl K))) (m : Metrics K)
    (h : computeMetrics R sqrt yhat y w = some m) (i : Nat) (a b : Fl K) (ha : yhat[i]? = some a) (hb : y[i]? = some b)
    (hn : (R.sub a b).abs.isNan = false) :
    (R.sub a b).abs.le m.maxAbsErr = true ∧ (m.minAbsErr.le (R.sub a b).abs = true ∨ m.minAbsErr = .fin 0) := by
  unfold computeMetrics at h
  simp only [Option.bind_eq_bind, Option.bind_eq_some_iff] at h
  obtain ⟨rows, hr, ⟨r2, corr⟩, -, h⟩ := h
  simp only [Option.some.injEq] at h
  obtain ⟨-, -, -, -, key⟩ := metricLoop_bounds R rows ⟨.fin 0, .fin 0, .fin 0, .pinf, .fin 0⟩ rfl rfl
  generalize metricLoop R rows ⟨.fin 0, .fin 0, .fin 0, .pinf, .fin 0⟩ = acc at key h
  have hmm : (metricMean R y.length w.isSome acc).minAbs = acc.minAbs ∧
      (metricMean R y.length w.isSome acc).maxAbs = acc.maxAbs := by
    unfold metricMean
    split
    · split <;> exact ⟨rfl, rfl⟩
    · split <;> exact ⟨rfl, rfl⟩
  have hmem : ∃ x, (a, b, x) ∈ rows := by
    cases w with
    | none =>
      simp only [metricRows] at hr
      split at hr
      · cases hr
      · cases hr
        exact ⟨none, List.mem_of_getElem? (i := i) (by simp [List.getElem?_zip_eq_some, ha, hb])⟩
    | some v =>
      simp only [metricRows] at hr
      split at hr
      · cases hr
      · next hl =>
        cases hr
        have hi : i < v.length := by
          have := (List.getElem?_eq_some_iff.mp hb).1
          omega
        exact ⟨some v[i], List.mem_of_getElem? (i := i) (by simp [List.getElem?_zip_eq_some, ha, hb, hi])⟩
  obtain ⟨x, hx⟩ := hmem
  obtain ⟨k1, k2⟩ := key _ hx hn
  subst h
  refine ⟨by rw [hmm.2]; exact k2, ?_⟩
  simp only [hmm.1]
  split
  · exact .inl k1
  · exact .inr rfl

/-- C62 (exception): with weights whose sum is not positive the errors are reported as 0, whatever the predictions. -/
theorem C62_nonpositive_weights (sqrt : Fl K → Fl K) (yhat y v : List (Fl K)) (m : Metrics K)
    (h : computeMetrics R sqrt yhat y (some v) = some m) (hv : (Fl.fin 0).lt (R.sum v) = false) :
    m.mse = .fin 0 ∧ m.mae = .fin 0 := by
  unfold computeMetrics at h
  simp only [Option.bind_eq_bind, Option.bind_eq_some_iff] at h
  obtain ⟨rows, hr, ⟨r2, corr⟩, -, h⟩ := h
  simp only [Option.some.injEq] at h
  have hsum : ∀ (p : List (Fl K × Fl K)) (v : List (Fl K)) (acc : MetricAcc K), p.length = v.length →
      (metricLoop R (List.zipWith (fun p w => (p.1, p.2, some w)) p v) acc).sumW = v.foldl R.add acc.sumW := by
    intro p
    induction p with
    | nil => intro v acc hl; cases v with | nil => rfl | cons _ _ => simp at hl
    | cons q p ih =>
      intro v acc hl
      cases v with
      | nil => simp at hl
      | cons w v =>
        rw [List.zipWith_cons_cons, metricLoop, ih v _ (by simpa using hl)]
        rfl
  simp only [metricRows] at hr
  split at hr
  · cases hr
  · next hl =>
    cases hr
    have e : yhat.zip (y.zip (v.map some)) = List.zipWith (fun p w => (p.1, p.2, some w)) (yhat.zip y) v := by
      apply List.ext_getElem?
      intro i
      simp only [List.getElem?_zip_eq_some, List.zip, List.getElem?_zipWith, List.getElem?_map]
      cases yhat[i]? <;> cases y[i]? <;> cases v[i]? <;> rfl
    have hs := hsum (yhat.zip y) v ⟨.fin 0, .fin 0, .fin 0, .pinf, .fin 0⟩ (by simp; omega)
    rw [← e] at hs
    have hs' : (Fl.fin 0).lt (metricLoop R (yhat.zip (y.zip (v.map some)))
      ⟨.fin 0, .fin 0, .fin 0, .pinf, .fin 0⟩).sumW = false := by rw [hs]; exact hv
    subst h
    simp only [metricMean, Option.isSome_some, if_true, hs', Bool.false_eq_true, if_false]
    exact ⟨trivial, trivial⟩

end

/-- The hypotheses of `C62_perfect` and `C62_range` are met. -/
example : Weighted [⟨0, 0, 1⟩, ⟨1, 1, 1⟩] none ∧ Weighted [⟨0, 1, 2⟩, ⟨1, 1, 1⟩] (some [.fin 2, .fin 1]) :=
  ⟨⟨by simp, .inr ⟨rfl, by simp⟩, by norm_num [total]⟩, ⟨by simp, .inl rfl, by norm_num [total]⟩⟩

end SR
