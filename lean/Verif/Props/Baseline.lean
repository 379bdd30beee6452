import Verif.Model.Dataset
import Verif.Model.Search
import Verif.Spec.Dataset
import Verif.Props.Loss
import Verif.Props.Member
import Verif.Proofs.Stats
import Verif.Spec.Demo
import Mathlib.Tactic.Ring
import Mathlib.Tactic.Linarith
import Mathlib.Tactic.FieldSimp
/-
C65: costs are relative to the prediction of zero.  C66: the average target.
-/
namespace SR
section
variable {K : Type} [Field K] [LinearOrder K] [E : Env K]

theorem zero_setting {d : Dataset K} (hd : d.WF) (hrows : 0 < d.x.cols) (hf : d.x.rows ≤ u16Max) :
    ExprSetting d (zeroExpr : PostfixExpr (Fl K)) (.const 0) where
  nodes := rfl
  wf := by simp [Tree.WF, zeroExpr]
  lim := ⟨hf, by simp [zeroExpr, u16Max], by simp [Tree.numOps, u16Max]⟩
  data := hd
  rows := hrows

theorem zero_predictions (d : Dataset K) :
    predictions d (.const 0) (zeroExpr : PostfixExpr (Fl K)).consts = List.replicate d.x.cols (.fin 0) := by
  unfold predictions
  rw [List.eq_replicate_iff]
  refine ⟨by simp, fun b hb => ?_⟩
  obtain ⟨r, -, rfl⟩ := List.mem_map.mp hb
  simp [Tree.eval, constAt, zeroExpr]; rfl

theorem zero_computable (d : Dataset K) : Computable d (.const 0) (zeroExpr : PostfixExpr (Fl K)).consts := by
  constructor
  · intro o ts hm
    simp [Tree.subtrees] at hm
  · intro c hc
    cases hc
    rfl

/-- C65: for every data set (at least one row), loss and operator set, the baseline loss is computed without a panic, and
it is the loss of predicting zero on every row; it is absent when that loss is not finite. -/
theorem C65_baseline (o : SOptions K) (d : Dataset K) (hd : d.WF) (hrows : 0 < d.x.cols) (hf : d.x.rows ≤ u16Max) :
    ∃ l, o.loss.loss E.RT E.lossLib (List.replicate d.x.cols (.fin 0)) d.y d.weights = some l ∧
      baselineLoss o d = some (if l.isFinite then some l else none) := by
  have hs := zero_setting hd hrows hf
  obtain ⟨p, hp, -⟩ := evalPlanArrayInto_correct E.ops E.hash d.x (zeroExpr : PostfixExpr (Fl K)).consts strictOpts hs.wf
    hs.lim.1 hs.lim.2.1 hs.lim.2.2
  rw [← hs.nodes] at hp
  obtain ⟨yhat, ok, scratch, h1, -, h3, h4⟩ := evalStrict_spec hs hp
    (ev := ⟨List.replicate d.x.cols (.fin 0), Buf.zeros 0 0⟩) ⟨by simp, by simp [Buf.WF, Buf.zeros]⟩
  have hok : ok = true := h3.mpr (zero_computable d)
  obtain ⟨l, hl⟩ := loss_some o d hd (yhat := List.replicate d.x.cols (.fin 0)) (by simp)
  refine ⟨l, hl, ?_⟩
  unfold baselineLoss
  simp only
  rw [hp]
  simp only [Option.bind_eq_bind, Option.bind_some]
  rw [h1]
  simp only [Option.bind_some, hok]
  rw [h4 hok, zero_predictions, hl]
  rfl

/-- C65: what a search does with it: with `use_baseline` the data set it works on carries that baseline, otherwise none;
the data are unchanged. -/
theorem C65_search_data (o : SOptions K) (d : Dataset K) (hd : d.WF) (hrows : 0 < d.x.cols) (hf : d.x.rows ≤ u16Max) :
    ∃ d' l, tagged o d = some d' ∧ d'.x = d.x ∧ d'.y = d.y ∧ d'.weights = d.weights ∧
      o.loss.loss E.RT E.lossLib (List.replicate d.x.cols (.fin 0)) d.y d.weights = some l ∧
      d'.baseline = if o.useBaseline = true ∧ l.isFinite = true then some l else none := by
  obtain ⟨l, hl, hb⟩ := C65_baseline o d hd hrows hf
  unfold tagged
  cases hu : o.useBaseline with
  | false => exact ⟨_, l, rfl, rfl, rfl, rfl, hl, by simp⟩
  | true =>
    rw [hb]
    exact ⟨_, l, rfl, rfl, rfl, rfl, hl, by simp⟩

variable [IsStrictOrderedRing K]

/-- C65: in exact arithmetic, on the data set the search works on, every member whose evaluation completes gets the cost
`loss / max(loss of predicting zero, 1/100) + parsimony * complexity`. -/
theorem C65_cost (hE : E.RT = Rounding.exact K) (o : SOptions K) (hu : o.useBaseline = true) (p : K)
    (hpar : o.parsimony = .fin p) (d : Dataset K) (hf : d.x.rows ≤ u16Max) (b : K)
    (hb : o.loss.loss E.RT E.lossLib (List.replicate d.x.cols (.fin 0)) d.y d.weights = some (.fin b))
    (d' : Dataset K) (hd' : tagged o d = some d')
    (m : Member K) (t : Tree) (hs : ExprSetting d' m.expr t) (hp : PlanOf d' m.expr m.plan) (ev : Evaluator K)
    (hev : ev.Ready d') (hw : o.cx.WF) (hD : t.ArityLe o.cx.D) :
    ∃ m' ok ev', m.evaluate o d' ev = some (m', ok, ev') ∧
      (ok = true → ∃ l, m'.loss = .fin l ∧ m'.cost = .fin (l / max b (1 / 100) + p * m'.complexity)) ∧
      (ok = true → predictions d' t m.expr.consts = List.replicate d'.x.cols (.fin 0) → 1 / 100 ≤ b →
        m'.cost = .fin (1 + p * m'.complexity)) := by
  have hx : d'.x = d.x ∧ d'.y = d.y ∧ d'.weights = d.weights := by
    unfold tagged at hd'
    rw [if_pos hu] at hd'
    cases hbl : baselineLoss o d with
    | none => rw [hbl] at hd'; cases hd'
    | some v => rw [hbl] at hd'; cases hd'; exact ⟨rfl, rfl, rfl⟩
  have hdw : d.WF := ⟨by rw [← hx.1, ← hx.2.1]; exact hs.data.y, fun w h => by
    rw [← hx.1]; exact hs.data.w w (by rw [hx.2.2]; exact h)⟩
  obtain ⟨d2, l2, h1, -, -, -, h5, h6⟩ := C65_search_data o d hdw (by rw [← hx.1]; exact hs.rows) hf
  rw [hd'] at h1
  cases h1
  rw [hb] at h5
  cases h5
  rw [if_pos ⟨hu, rfl⟩] at h6
  obtain ⟨m', ok, ev', g1, -, -, -, ⟨l, gl, g2, g3⟩, -⟩ := C55_evaluate o d' m t hs hp ev hev hw hD
  refine ⟨m', ok, ev', g1, ?_, ?_⟩
  · intro hok
    obtain ⟨e1, e2⟩ := g3 hok
    have hfin := (g2.mp hok).2
    cases l with
    | fin v =>
      refine ⟨v, e1, ?_⟩
      rw [e2, h6, hE, hu, hpar]
      exact (C41_exact v b p m'.complexity).1
    | nan => cases hfin
    | pinf => cases hfin
    | ninf => cases hfin
  · intro hok hz hb1
    obtain ⟨e1, e2⟩ := g3 hok
    rw [hz, hx.1, hx.2.1, hx.2.2, hb] at gl
    cases gl
    rw [e2, h6, hE, hu, hpar, (C41_exact b b p m'.complexity).1, max_eq_left hb1]
    have : (0 : K) < b := lt_of_lt_of_le (by norm_num) hb1
    rw [div_self this.ne']

end

section
open Demo
local instance instBaseline : Env ℚ := env

/-- Concrete: predicting zero has loss 10 on the demonstration data, so this is the baseline; the member of the
demonstration expression is evaluated and its cost is relative to it. -/
example :
    opts.loss.loss env.RT env.lossLib (List.replicate data.x.cols (.fin 0)) data.y data.weights = some (.fin 10) ∧
    ((tagged { opts with useBaseline := true } data).map (·.baseline)) = some (some (.fin 10)) ∧
    ((do
      let d' ← tagged { opts with useBaseline := true } data
      let m ← Member.fromExpr 0 none 0 expr data.x.rows
      let (m', ok, _) ← m.evaluate { opts with useBaseline := true } d' (Evaluator.new data.x.cols)
      if ok && m'.cost == (match m'.loss with | .fin l => .fin (l / 10) | v => v) then some m'.complexity else none :
      Option Nat).isSome) = true := by decide +kernel
end

/-! ## C66 -/

section
variable {K : Type} [Field K] [LinearOrder K]

/-- C66: the constructors accept exactly the data whose targets (and weights, if any) have one entry per row; they keep
the data and the names as given. -/
theorem C66_constructors (R : Rounding K) (x : Mat (Fl K)) (y : List (Fl K)) (w : Option (List (Fl K)))
    (names : List String) :
    ((newWeightedDataset R x y w names).isSome = true ↔ y.length = x.cols ∧ ∀ v, w = some v → v.length = x.cols) ∧
    (∀ u, newWeightedDataset R x y w names = some u → u.data.x = x ∧ u.data.y = y ∧ u.data.weights = w ∧
      u.names = names ∧ computeAvgY R y w = some u.avgY) ∧
    newDataset R x y = newWeightedDataset R x y none [] := by
  refine ⟨?_, ?_, rfl⟩
  · unfold newWeightedDataset buildDataset computeAvgY
    cases w with
    | none =>
      by_cases h : y.length = x.cols
      · simp only [h, ne_eq, not_true, if_false, Option.any_none, Bool.false_eq_true]
        split <;> simp
      · simp [h]
    | some v =>
      by_cases h : y.length = x.cols
      · by_cases hv : v.length = x.cols
        · simp only [h, hv, ne_eq, not_true, if_false, Option.any_some, decide_false, Bool.false_eq_true]
          split <;> simp [hv]
        · simp [h, hv]
      · simp [h]
  · intro u hu
    unfold newWeightedDataset buildDataset at hu
    split at hu
    · cases hu
    · split at hu
      · cases hu
      · cases ha : computeAvgY R y w with
        | none => rw [ha] at hu; cases hu
        | some a => rw [ha] at hu; cases hu; exact ⟨rfl, rfl, rfl, rfl, rfl⟩

theorem pairs_mul_exact (l : List (K × K)) :
    List.zipWith (Rounding.exact K).mul (l.map fun p => .fin p.1) (l.map fun p => .fin p.2)
      = (l.map fun p => p.1 * p.2).map Fl.fin := by
  induction l with
  | nil => rfl
  | cons p l ih => simp only [List.map_cons, List.zipWith_cons_cons, ih]; rfl

/-- C66: in exact arithmetic the average target is the (weighted) mean. -/
theorem C66_mean [IsStrictOrderedRing K] (l : List (K × K)) (hl : l ≠ []) (hW : totalWeight l ≠ 0) :
    computeAvgY (Rounding.exact K) (l.map fun p => .fin p.1) (some (l.map fun p => .fin p.2))
      = some (.fin (weightedMean l)) := by
  have h2 : (Rounding.exact K).sum (l.map fun p => Fl.fin p.2) = .fin (totalWeight l) := by
    have := exact_sum (l.map Prod.snd)
    rwa [List.map_map] at this
  unfold computeAvgY
  rw [if_neg (by simpa using hl)]
  simp only [List.length_map, ne_eq, not_true, if_false]
  rw [pairs_mul_exact, exact_sum, h2]
  simp [Rounding.div, hW, Rounding.exact, weightedMean]

/-- C66: without weights every row counts the same, as with equal weights. -/
theorem C66_unweighted [IsStrictOrderedRing K] (l : List K) (hl : l ≠ []) :
    computeAvgY (Rounding.exact K) (l.map .fin) none = some (.fin (l.sum / l.length)) ∧
    l.sum / l.length = weightedMean (l.map fun y => (y, 1)) := by
  have hn : (l.length : K) ≠ 0 := by simpa using hl
  constructor
  · unfold computeAvgY
    rw [if_neg (by simpa using hl)]
    simp only [exact_sum, List.length_map]
    simp [Rounding.div, Rounding.ofNat, Rounding.exact, hn]
  · unfold weightedMean totalWeight
    simp only [List.map_map, Function.comp_def, mul_one, List.map_id', List.map_const', List.sum_replicate, nsmul_eq_mul]

theorem constSSE_shift (l : List (K × K)) (c m : K) :
    constSSE l c = constSSE l m + 2 * (m - c) * ((l.map fun p => p.1 * p.2).sum - m * totalWeight l)
      + totalWeight l * (c - m) ^ 2 := by
  unfold constSSE totalWeight
  induction l with
  | nil => simp
  | cons p l ih => simp only [List.map_cons, List.sum_cons, ih]; ring

/-- C66: the average target is the unique best constant prediction in the sense of weighted least squares, whenever the
total weight is positive. -/
theorem C66_least_squares [IsStrictOrderedRing K] (l : List (K × K)) (hW : 0 < totalWeight l) (c : K) :
    constSSE l (weightedMean l) ≤ constSSE l c ∧
    (constSSE l c = constSSE l (weightedMean l) ↔ c = weightedMean l) := by
  have h0 : (l.map fun p => p.1 * p.2).sum - weightedMean l * totalWeight l = 0 := by
    unfold weightedMean
    rw [div_mul_cancel₀ _ hW.ne', sub_self]
  have h := constSSE_shift l c (weightedMean l)
  rw [h0, mul_zero, add_zero] at h
  constructor
  · rw [h]
    have : 0 ≤ totalWeight l * (c - weightedMean l) ^ 2 := mul_nonneg hW.le (sq_nonneg _)
    linarith
  · constructor
    · intro he
      rw [he] at h
      have : totalWeight l * (c - weightedMean l) ^ 2 = 0 := by linarith
      rcases mul_eq_zero.mp this with h1 | h1
      · exact absurd h1 hW.ne'
      · exact sub_eq_zero.mp (pow_eq_zero_iff (two_ne_zero) |>.mp h1)
    · rintro rfl; rfl

/-- C66: with non-negative weights the average lies between the smallest and the largest target. -/
theorem C66_between [IsStrictOrderedRing K] (l : List (K × K)) (hW : 0 < totalWeight l) (hw : ∀ p ∈ l, 0 ≤ p.2) (a b : K)
    (hab : ∀ p ∈ l, a ≤ p.1 ∧ p.1 ≤ b) : a ≤ weightedMean l ∧ weightedMean l ≤ b := by
  have key : a * totalWeight l ≤ (l.map fun p => p.1 * p.2).sum ∧ (l.map fun p => p.1 * p.2).sum ≤ b * totalWeight l := by
    unfold totalWeight
    clear hW
    induction l with
    | nil => simp
    | cons p l ih =>
      obtain ⟨i1, i2⟩ := ih (fun q hq => hw q (List.mem_cons_of_mem _ hq)) (fun q hq => hab q (List.mem_cons_of_mem _ hq))
      obtain ⟨j1, j2⟩ := hab p List.mem_cons_self
      have hp := hw p List.mem_cons_self
      simp only [List.map_cons, List.sum_cons, mul_add]
      exact ⟨add_le_add (mul_le_mul_of_nonneg_right j1 hp) i1, add_le_add (mul_le_mul_of_nonneg_right j2 hp) i2⟩
  unfold weightedMean
  rw [le_div_iff₀ hW, div_le_iff₀ hW]
  exact key

/-- C66, exception: weights that sum to zero give no number. -/
theorem C66_zero_weights [IsStrictOrderedRing K] (l : List (K × K)) (hl : l ≠ []) (hW : totalWeight l = 0) :
    ∃ v, computeAvgY (Rounding.exact K) (l.map fun p => .fin p.1) (some (l.map fun p => .fin p.2)) = some v ∧
      v.isFinite = false := by
  have h2 : (Rounding.exact K).sum (l.map fun p => Fl.fin p.2) = .fin 0 := by
    have := exact_sum (l.map Prod.snd)
    rw [List.map_map] at this
    rw [← hW]; exact this
  unfold computeAvgY
  rw [if_neg (by simpa using hl)]
  simp only [List.length_map, ne_eq, not_true, if_false]
  rw [pairs_mul_exact, exact_sum, h2]
  refine ⟨_, rfl, ?_⟩
  simp only [Rounding.div, if_true, Rounding.signInf]
  split
  · rfl
  · split <;> rfl

/-- Concrete: targets 1 and 4 with weights 3 and 1. -/
example : computeAvgY (Rounding.exact ℚ) [.fin 1, .fin 4] (some [.fin 3, .fin 1]) = some (.fin (7 / 4)) ∧
    computeAvgY (Rounding.exact ℚ) [.fin 1, .fin 4] none = some (.fin (5 / 2)) ∧
    (0 : ℚ) < totalWeight [((1 : ℚ), (3 : ℚ)), (4, 1)] := by decide +kernel

end
end SR
