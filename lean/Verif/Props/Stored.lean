import Verif.Spec.Stored
import Verif.Proofs.SlotMachine
import Verif.Spec.Loss
import Mathlib.Algebra.Order.Ring.Rat
import Mathlib.Algebra.Field.Rat
/-
C93: the layout of the arrays of a data set in memory.
-/
namespace SR
variable {K : Type} [Field K] [LinearOrder K]

section Arr1
variable {α : Type}

theorem Arr1.get?_isSome (a : Arr1 α) (h : a.WF) (i : Nat) (hi : i < a.len) : (a.get? i).isSome := by
  have := h i hi
  rw [Arr1.get?, if_pos hi, List.getElem?_eq_getElem (by omega)]
  rfl

theorem filterMap_range_get (f : Nat → Option α) (n : Nat) (h : ∀ i < n, (f i).isSome) :
    ((List.range n).filterMap f).length = n ∧ ∀ i < n, ((List.range n).filterMap f)[i]? = f i := by
  induction n with
  | zero => simp
  | succ n ih =>
    obtain ⟨hl, hg⟩ := ih fun i hi => h i (by omega)
    obtain ⟨v, hv⟩ := Option.isSome_iff_exists.1 (h n (by omega))
    rw [List.range_succ, List.filterMap_append]
    have h1 : List.filterMap f [n] = [v] := by simp [hv]
    rw [h1]
    refine ⟨by simp [hl], fun i hi => ?_⟩
    by_cases hin : i < n
    · rw [List.getElem?_append_left (by omega)]; exact hg i hin
    · obtain rfl : i = n := by omega
      rw [List.getElem?_append_right (by omega), hl]; simp [hv]

theorem Arr1.numbers_length (a : Arr1 α) (h : a.WF) : a.numbers.length = a.len :=
  (filterMap_range_get a.get? a.len fun i hi => a.get?_isSome h i hi).1

theorem Arr1.numbers_get (a : Arr1 α) (h : a.WF) (i : Nat) : a.numbers[i]? = a.get? i := by
  by_cases hi : i < a.len
  · exact (filterMap_range_get a.get? a.len fun i hi => a.get?_isSome h i hi).2 i hi
  · rw [List.getElem?_eq_none (by rw [a.numbers_length h]; omega), Arr1.get?, if_neg hi]

theorem Arr1.asSlice_contiguous (a : Arr1 α) (h : a.WF) (hc : a.Contiguous) : a.asSlice = some a.numbers := by
  have hc' : a.len ≤ 1 ∨ a.stride = 1 := hc
  rw [Arr1.asSlice, if_pos hc']
  congr 1
  apply List.ext_getElem?
  intro i
  rw [a.numbers_get h, Arr1.get?]
  by_cases hi : i < a.len
  · rw [if_pos hi, List.getElem?_take_of_lt hi, List.getElem?_drop]
    congr 1
    rw [Arr1.place]
    rcases hc with hc | hc
    · obtain rfl : i = 0 := by omega
      simp
    · rw [hc]; omega
  · rw [if_neg hi, List.getElem?_eq_none (by simp; omega)]

theorem Arr1.asSlice_strided (a : Arr1 α) (hc : ¬ a.Contiguous) : a.asSlice = none := by
  have hc' : ¬ (a.len ≤ 1 ∨ a.stride = 1) := hc
  rw [Arr1.asSlice, if_neg hc']

end Arr1

section Arr2
omit [Field K] [LinearOrder K]

theorem Arr2.elements_get (a : Arr2 (Fl K)) (f r : Nat) (hf : f < a.rows) (hr : r < a.cols) :
    a.elements[f * a.cols + r]? = some ((a.get? f r).getD .nan) := by
  have h := Mat.data_slice a.numbers f hf
  have h2 : a.elements = a.numbers.data := rfl
  have hc : a.numbers.cols = a.cols := rfl
  rw [h2]
  rw [hc, slice?] at h
  split at h
  · rw [Option.some.injEq] at h
    have h3 := congrArg (fun l => l[r]?) h
    rw [List.getElem?_take_of_lt hr, List.getElem?_drop] at h3
    rw [h3]
    simp [hr, Arr2.numbers]
  · exact absurd h (by simp)

theorem grid_lt {f r rows cols : Nat} (hf : f < rows) (hr : r < cols) : f * cols + r < rows * cols := by
  have : (f + 1) * cols ≤ rows * cols := Nat.mul_le_mul_right cols hf
  rw [Nat.add_mul] at this; omega

theorem Arr2.standard_rows (a : Arr2 (Fl K)) : a.standard.rows = a.rows := by
  unfold Arr2.standard; split <;> rfl

theorem Arr2.standard_cols (a : Arr2 (Fl K)) : a.standard.cols = a.cols := by
  unfold Arr2.standard; split <;> rfl

theorem Arr2.standard_isStandard (a : Arr2 (Fl K)) : a.standard.isStandard = true := by
  unfold Arr2.standard
  split
  · assumption
  · simp [Arr2.isStandard]

theorem Arr2.standard_get (a : Arr2 (Fl K)) (f r : Nat) : (a.standard.get? f r).getD .nan = (a.get? f r).getD .nan := by
  unfold Arr2.standard
  split
  · rfl
  · by_cases h : f < a.rows ∧ r < a.cols
    · have := a.elements_get f r h.1 h.2
      rw [Arr2.get?, if_pos h]
      have hp : (Arr2.place (⟨a.elements, 0, a.rows, a.cols, a.cols, 1⟩ : Arr2 (Fl K)) f r).toNat = f * a.cols + r := by
        simp only [Arr2.place]
        push_cast
        omega
      rw [hp]
      simp only [this, Option.getD_some]
    · rw [Arr2.get?, if_neg h, Arr2.get?, if_neg h]

theorem Arr2.standard_numbers (a : Arr2 (Fl K)) : a.standard.numbers = a.numbers := by
  unfold Arr2.numbers
  rw [a.standard_rows, a.standard_cols]
  congr 1
  funext f r
  exact a.standard_get f r

theorem Arr2.matrix_standard (a : Arr2 (Fl K)) (h : a.isStandard = true) : a.matrix = some a.numbers := by
  rw [Arr2.matrix, Arr2.asSlice, if_pos h, Option.map_some]
  congr 1
  unfold Arr2.numbers
  congr 1
  funext f r
  by_cases hfr : f < a.rows ∧ r < a.cols
  · rw [if_pos hfr, Arr2.get?, if_pos hfr, List.getD_eq_getElem?_getD,
      List.getElem?_take_of_lt (grid_lt hfr.1 hfr.2), List.getElem?_drop]
    congr 2
    simp only [Arr2.isStandard, decide_eq_true_eq] at h
    have h0 : (a.cols = 1 ∨ a.colStride = 1) ∧ (a.rows = 1 ∨ a.rowStride = a.cols) := by
      rcases h with h | h | h
      · omega
      · omega
      · exact h
    have e1 : (f : Int) * a.rowStride = ((f * a.cols : Nat) : Int) := by
      rcases h0.2 with h1 | h1
      · obtain rfl : f = 0 := by omega
        simp
      · rw [h1]; push_cast; rfl
    have e2 : (r : Int) * a.colStride = (r : Int) := by
      rcases h0.1 with h1 | h1
      · obtain rfl : r = 0 := by omega
        simp
      · rw [h1]; simp
    rw [Arr2.place, e1, e2]
    omega
  · rw [if_neg hfr, Arr2.get?, if_neg hfr]; rfl

end Arr2

/-! ## The property -/

/-- **C93 (layout of the inputs and of the target).**  Whatever the layout of `x`, and whatever the gap-free arrays `y`
and weights are slices of, the constructor accepts the data exactly when it accepts the bare numbers, the average target
is that of the numbers, and what every evaluation (loss, derivatives, baseline) reads is exactly the data set of the
numbers. -/
theorem C93_layout (R : Rounding K) (x : Arr2 (Fl K)) (y : Arr1 (Fl K)) (w : Option (Arr1 (Fl K)))
    (names : List String) (hy : y.WF) (hw : ∀ a ∈ w, a.WF) (cy : y.Contiguous) (cw : ∀ a ∈ w, a.Contiguous) :
    (newStored R x y w names).map (fun s => (s.names, s.avgY, fun b => s.read b)) =
      (newWeightedDataset R x.numbers y.numbers (w.map Arr1.numbers) names).map fun u =>
        (u.names, u.avgY, fun b => some { u.data with baseline := b }) := by
  have ey := y.asSlice_contiguous hy cy
  have ew : w.bind Arr1.asSlice = w.map Arr1.numbers := by
    cases w with
    | none => rfl
    | some a => exact a.asSlice_contiguous (hw a rfl) (cw a rfl)
  have ec : x.standard.cols = x.numbers.cols := x.standard_cols
  have em : x.standard.matrix = some x.numbers := by
    rw [Arr2.matrix_standard _ x.standard_isStandard, x.standard_numbers]
  have el : y.len = y.numbers.length := (y.numbers_length hy).symm
  have ewl : (w.any fun a => a.len ≠ x.numbers.cols) = ((w.map Arr1.numbers).any fun l => l.length ≠ x.numbers.cols) := by
    cases w with
    | none => rfl
    | some a => simp [a.numbers_length (hw a rfl)]
  unfold newStored newWeightedDataset buildStored buildDataset storedAvgY
  rw [ec, ewl, el, ey, ew]
  simp only [Option.bind_some]
  split
  · rfl
  · split
    · rfl
    · rw [Option.map_map, Option.map_map]
      congr 1
      funext v
      simp only [Function.comp, StoredDataset.read, em, ey, ew, Option.bind_some, Option.map_some]

/-- **C93 (weights with gaps).**  Weights that are not gap-free (two rows or more) are accepted, but they change nothing:
the average target, and what every evaluation on the whole data set reads, are those of the data set **without** weights. -/
theorem C93_weights_ignored (R : Rounding K) (x : Arr2 (Fl K)) (y : Arr1 (Fl K)) (w : Arr1 (Fl K))
    (names : List String) (hw : w.len = x.cols) (cw : ¬ w.Contiguous) :
    (newStored R x y (some w) names).map (fun s => (s.names, s.avgY, fun b => s.read b)) =
      (newStored R x y none names).map fun s => (s.names, s.avgY, fun b => s.read b) := by
  have ew := w.asSlice_strided cw
  have ec : w.len = x.standard.cols := by rw [x.standard_cols, hw]
  unfold newStored buildStored storedAvgY
  simp only [Option.any_some, ec, ne_eq, not_true_eq_false, decide_false, Bool.false_eq_true, if_false,
    Option.any_none, Option.bind_some, ew, Option.bind_none]
  split
  · rfl
  · rw [Option.map_map, Option.map_map]
    congr 1
    funext v
    simp only [Function.comp, StoredDataset.read, Option.bind_some, ew, Option.bind_none]

/-- **C93 (target with gaps).**  A target that is not gap-free panics in the constructor. -/
theorem C93_target_panics (R : Rounding K) (x : Arr2 (Fl K)) (y : Arr1 (Fl K)) (w : Option (Arr1 (Fl K)))
    (names : List String) (cy : ¬ y.Contiguous) : newStored R x y w names = none := by
  unfold newStored buildStored storedAvgY
  rw [y.asSlice_strided cy]
  simp

/-- **C93 (mini-batches).**  Mini-batches are copied element by element: they hold the rows and the weights of the
numbers, however they are stored, also when the weights are not gap-free. -/
theorem C93_batches (R : Rounding K) (x : Arr2 (Fl K)) (y : Arr1 (Fl K)) (w : Option (Arr1 (Fl K)))
    (names : List String) (hy : y.WF) (hw : ∀ a ∈ w, a.WF) (s : StoredDataset K)
    (h : newStored R x y w names = some s) (baseline : Option (Fl K)) :
    let full : Dataset K := ⟨x.numbers, y.numbers, w.map Arr1.numbers, baseline⟩
    (∀ n, s.makeBatchBuffer n = SR.makeBatchBuffer full n) ∧ ∀ b, s.resample b = resampleFrom full b := by
  intro full
  obtain ⟨hx, hy', hw'⟩ : s.x = x.standard ∧ s.y = y ∧ s.weights = w := by
    unfold newStored buildStored at h
    split at h
    · exact absurd h (by simp)
    · split at h
      · exact absurd h (by simp)
      · simp only [Option.map_eq_some_iff] at h
        obtain ⟨a, -, rfl⟩ := h
        exact ⟨rfl, rfl, rfl⟩
  have er : s.x.rows = full.x.rows := by rw [hx, x.standard_rows]; rfl
  have ec : s.x.cols = full.x.cols := by rw [hx, x.standard_cols]; rfl
  have eg : ∀ f r, (s.x.get? f r).getD .nan = full.x.at' f r := fun f r => by rw [hx, x.standard_get]; rfl
  have ew : s.weights.isSome = full.weights.isSome := by rw [hw']; cases w <;> rfl
  have row : ∀ b dst src, s.copyRow b dst src = SR.copyRow full b dst src := by
    intro b dst src
    have e1 : s.y.get? src = full.y[src]? := by rw [hy']; exact (y.numbers_get hy src).symm
    have e2 : s.copyWeight b dst src = match b.weights, full.weights with
        | some wd, some ws => ws[src]?.map fun w => some (wd.set dst w)
        | wd, _ => some wd := by
      rw [StoredDataset.copyWeight, hw']
      cases w with
      | none => cases b.weights <;> rfl
      | some a =>
        cases b.weights with
        | none => rfl
        | some wd =>
          show _ = Option.map _ (a.numbers[src]?)
          rw [a.numbers_get (hw a rfl)]
    unfold StoredDataset.copyRow SR.copyRow
    rw [e1, e2]
    simp only [eg]
    cases full.y[src]? with
    | none => rfl
    | some v => cases b.weights <;> cases full.weights <;> rfl
  have loop : ∀ k dst b, s.resampleLoop k dst b = SR.resampleLoop full k dst b := by
    intro k
    induction k with
    | zero => intro dst b; rfl
    | succ k ih =>
      intro dst b
      unfold StoredDataset.resampleLoop SR.resampleLoop
      rw [ec]
      congr 1
      funext src
      rw [row]
      congr 1
      funext b'
      exact ih _ _
  refine ⟨fun n => ?_, fun b => ?_⟩
  · unfold StoredDataset.makeBatchBuffer SR.makeBatchBuffer
    rw [er, ec, hw']
    congr 2
    cases w <;> rfl
  · unfold StoredDataset.resample resampleFrom
    rw [er, ec, ew, loop]

variable [E : Env K]

/-- **C93 (scores).**  Together: the score of an expression on weights with gaps is its score on the data set without
weights, and on gap-free weights it is the score on the numbers. -/
theorem C93_scores (R : Rounding K) (x : Arr2 (Fl K)) (y : Arr1 (Fl K)) (w : Option (Arr1 (Fl K)))
    (names : List String) (hy : y.WF) (hw : ∀ a ∈ w, a.WF) (s : StoredDataset K)
    (h : newStored R x y w names = some s) (o : SOptions K) (baseline : Option (Fl K)) (ev : Evaluator K)
    (m : Member K) :
    m.evaluateStored o s baseline ev =
      m.evaluate o ⟨x.numbers, y.numbers, w.bind fun a => if a.Contiguous then some a.numbers else none, baseline⟩ ev := by
  obtain ⟨hx, hy', hw'⟩ : s.x = x.standard ∧ s.y = y ∧ s.weights = w := by
    unfold newStored buildStored at h
    split at h
    · exact absurd h (by simp)
    · split at h
      · exact absurd h (by simp)
      · simp only [Option.map_eq_some_iff] at h
        obtain ⟨a, -, rfl⟩ := h
        exact ⟨rfl, rfl, rfl⟩
  have cy : y.Contiguous := by
    by_contra hc
    rw [C93_target_panics R x y w names hc] at h
    exact absurd h (by simp)
  have em : s.x.matrix = some x.numbers := by
    rw [hx, Arr2.matrix_standard _ x.standard_isStandard, x.standard_numbers]
  have ey : s.y.asSlice = some y.numbers := by rw [hy', y.asSlice_contiguous hy cy]
  have ew : s.weights.bind Arr1.asSlice = w.bind fun a => if a.Contiguous then some a.numbers else none := by
    rw [hw']
    cases w with
    | none => rfl
    | some a =>
      simp only [Option.bind_some]
      by_cases hc : a.Contiguous
      · rw [if_pos hc, a.asSlice_contiguous (hw a rfl) hc]
      · rw [if_neg hc, a.asSlice_strided hc]
  rw [Member.evaluateStored, StoredDataset.read, em, ey, ew]
  rfl

/-! ## The exception, and concrete cases -/

namespace StoredDemo

/-- Two features and two rows, stored column by column. -/
def x : Arr2 (Fl ℚ) := ⟨[.fin 1, .fin 2, .fin 3, .fin 4], 0, 2, 2, 1, 2⟩

/-- The target, in the middle of a larger buffer. -/
def y : Arr1 (Fl ℚ) := ⟨[.fin 7, .fin 0, .fin 1, .fin 7], 1, 2, 1⟩

/-- The weights 1 and 3, every second element of a buffer. -/
def w : Arr1 (Fl ℚ) := ⟨[.fin 1, .fin 9, .fin 3, .fin 9], 0, 2, 2⟩

/-- The same weights without gaps. -/
def w' : Arr1 (Fl ℚ) := ⟨[.fin 5, .fin 1, .fin 3], 1, 2, 1⟩

theorem y_wf : y.WF := show ∀ i < 2, _ by decide
theorem w_wf : w.WF := show ∀ i < 2, _ by decide
theorem w'_wf : w'.WF := show ∀ i < 2, _ by decide

end StoredDemo

open StoredDemo in
/-- **C93, the exception is real.**  The same weights, 1 and 3, of the targets 0 and 1: stored without gaps the average
target is 3/4 and evaluations see the weights; as every second element of a buffer the average is 1/2 and they do not. -/
theorem C93_exception :
    w.numbers = w'.numbers ∧ w.numbers = [.fin 1, .fin 3] ∧ y.numbers = [.fin 0, .fin 1] ∧
    (newStored (Rounding.exact ℚ) x y (some w') []).map (·.avgY) = some (.fin (3 / 4)) ∧
    (newStored (Rounding.exact ℚ) x y (some w) []).map (·.avgY) = some (.fin (1 / 2)) ∧
    (∀ s, newStored (Rounding.exact ℚ) x y (some w') [] = some s →
      ∀ b, (s.read b).map (·.weights) = some (some [.fin 1, .fin 3])) ∧
    ∀ s, newStored (Rounding.exact ℚ) x y (some w) [] = some s → ∀ b, (s.read b).map (·.weights) = some none := by
  refine ⟨by decide +kernel, by decide +kernel, by decide +kernel, by decide +kernel, by decide +kernel, ?_, ?_⟩
  · intro s hs b
    have h := C93_layout (Rounding.exact ℚ) x y (some w') [] y_wf (by rintro a ⟨⟩; exact w'_wf) (Or.inr rfl)
      (by rintro a ⟨⟩; exact Or.inr rfl)
    rw [hs] at h
    obtain ⟨u, hu, hsu⟩ := Option.map_eq_some_iff.1 h.symm
    have hr := congrFun (congrArg (fun t => t.2.2) hsu) b
    have hu' : u.data.weights = some w'.numbers := by
      unfold newWeightedDataset buildDataset at hu
      split at hu
      · exact absurd hu (by simp)
      · split at hu
        · exact absurd hu (by simp)
        · obtain ⟨a, -, rfl⟩ := Option.map_eq_some_iff.1 hu
          rfl
    rw [← show some { u.data with baseline := b } = s.read b from hr]
    simp only [Option.map_some, hu']
    decide +kernel
  · intro s hs b
    have h := C93_weights_ignored (Rounding.exact ℚ) x y w [] rfl (by decide)
    have h2 := C93_layout (Rounding.exact ℚ) x y none [] y_wf (by rintro a ⟨⟩) (Or.inr rfl) (by rintro a ⟨⟩)
    rw [h2, hs] at h
    obtain ⟨u, hu, hsu⟩ := Option.map_eq_some_iff.1 h.symm
    have hr := congrFun (congrArg (fun t => t.2.2) hsu) b
    have hu' : u.data.weights = none := by
      unfold newWeightedDataset buildDataset at hu
      split at hu
      · exact absurd hu (by simp)
      · split at hu
        · exact absurd hu (by simp)
        · obtain ⟨a, -, rfl⟩ := Option.map_eq_some_iff.1 hu
          rfl
    rw [← show some { u.data with baseline := b } = s.read b from hr]
    simp only [Option.map_some, hu']

open StoredDemo in
/-- The hypotheses are met: a column-major `x`, a target in the middle of a buffer. -/
example : x.isStandard = false ∧ x.numbers.data = [.fin 1, .fin 3, .fin 2, .fin 4] ∧ y.WF ∧ y.Contiguous ∧ w.WF ∧
    ¬ w.Contiguous ∧ (newStored (Rounding.exact ℚ) x y (some w) []).isSome :=
  ⟨by decide, by decide +kernel, y_wf, Or.inr rfl, w_wf, by decide, by decide +kernel⟩

end SR
