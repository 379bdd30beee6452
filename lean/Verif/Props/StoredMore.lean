import Verif.Props.Stored
/-
C93: arrays built from a list lie without gaps; the standard layout stays inside its buffer and loses nothing.
-/
namespace SR
variable {K : Type} [Field K] [LinearOrder K]

/-- An array made from a list lies inside its buffer without gaps, shows the elements of the list, and can be read as a slice. -/
theorem C93_from_list {α : Type} (l : List α) : (Arr1.ofList l).WF ∧ (Arr1.ofList l).Contiguous ∧ (Arr1.ofList l).len = l.length ∧
    (Arr1.ofList l).numbers = l ∧ (Arr1.ofList l).asSlice = some l := by
  have hwf : (Arr1.ofList l).WF := by
    intro i hi
    have hi' : i < l.length := hi
    show (0 : Int) ≤ ((0 : Nat) : Int) + i * 1 ∧ ((0 : Nat) : Int) + i * 1 < (l.length : Int)
    omega
  have hn : (Arr1.ofList l).numbers = l := by
    apply List.ext_getElem?
    intro i
    rw [Arr1.numbers_get _ hwf, Arr1.get?]
    show (if i < l.length then l[(((0 : Nat) : Int) + i * 1).toNat]? else none) = _
    by_cases hi : i < l.length
    · rw [if_pos hi]; congr 1; omega
    · rw [if_neg hi, List.getElem?_eq_none (by omega)]
  exact ⟨hwf, .inr rfl, rfl, hn, by rw [Arr1.asSlice_contiguous _ hwf (.inr rfl), hn]⟩

omit [Field K] [LinearOrder K] in
theorem Arr2.elements_length (a : Arr2 (Fl K)) : a.elements.length = a.rows * a.cols := by
  simp [Arr2.elements, List.length_flatMap]

omit [Field K] [LinearOrder K] in
theorem Arr2.get?_isSome (a : Arr2 (Fl K)) (h : a.WF) (i j : Nat) (hi : i < a.rows) (hj : j < a.cols) : ∃ v, a.get? i j = some v := by
  have := h i hi j hj
  rw [Arr2.get?, if_pos ⟨hi, hj⟩, List.getElem?_eq_getElem (by omega)]
  exact ⟨_, rfl⟩

omit [Field K] [LinearOrder K] in
theorem Arr2.standard_wf (x : Arr2 (Fl K)) (h : x.WF) : x.standard.WF := by
  unfold Arr2.standard
  split
  · exact h
  · intro i hi j hj
    have hi : i < x.rows := hi
    have hj : j < x.cols := hj
    have := grid_lt hi hj
    show (0 : Int) ≤ ((0 : Nat) : Int) + i * (x.cols : Int) + j * 1 ∧ ((0 : Nat) : Int) + i * (x.cols : Int) + j * 1 < (x.elements.length : Int)
    rw [x.elements_length]
    have e : (i : Int) * (x.cols : Int) = ((i * x.cols : Nat) : Int) := by push_cast; rfl
    rw [e]
    omega

omit [Field K] [LinearOrder K] in
theorem Arr2.place_standard (a : Arr2 (Fl K)) (h : a.isStandard = true) (f r : Nat) (hf : f < a.rows) (hr : r < a.cols) :
    a.place f r = ((a.offset + (f * a.cols + r) : Nat) : Int) := by
  simp only [Arr2.isStandard, decide_eq_true_eq] at h
  have h0 : (a.cols = 1 ∨ a.colStride = 1) ∧ (a.rows = 1 ∨ a.rowStride = a.cols) := by
    rcases h with h | h | h
    · omega
    · omega
    · exact h
  have e1 : (f : Int) * a.rowStride = ((f * a.cols : Nat) : Int) := by
    rcases h0.2 with h1 | h1
    · obtain rfl : f = 0 := by omega
      simp
    · rw [h1]; push_cast; rfl
  have e2 : (r : Int) * a.colStride = (r : Int) := by
    rcases h0.1 with h1 | h1
    · obtain rfl : r = 0 := by omega
      simp
    · rw [h1]; simp
  rw [Arr2.place, e1, e2]
  push_cast; omega

omit [Field K] [LinearOrder K] in
theorem Arr2.slice_standard (a : Arr2 (Fl K)) (h : a.isStandard = true) (hw : a.WF) :
    ((a.buf.drop a.offset).take (a.rows * a.cols)).length = a.rows * a.cols ∧
      ∀ i < a.rows, ∀ j < a.cols, ((a.buf.drop a.offset).take (a.rows * a.cols))[i * a.cols + j]? = a.get? i j := by
  constructor
  · rcases Nat.eq_zero_or_pos (a.rows * a.cols) with h0 | h0
    · simp [h0]
    · have hr : 0 < a.rows := Nat.pos_of_mul_pos_right h0
      have hc : 0 < a.cols := Nat.pos_of_mul_pos_left h0
      have hp := hw (a.rows - 1) (by omega) (a.cols - 1) (by omega)
      rw [a.place_standard h _ _ (by omega) (by omega)] at hp
      have e : (a.rows - 1) * a.cols + (a.cols - 1) + 1 = a.rows * a.cols := by
        obtain ⟨n, hn⟩ : ∃ n, a.rows = n + 1 := ⟨a.rows - 1, by omega⟩
        rw [hn, Nat.add_mul]
        simp only [Nat.add_sub_cancel]
        omega
      rw [List.length_take, List.length_drop]
      omega
  · intro i hi j hj
    rw [List.getElem?_take_of_lt (grid_lt hi hj), List.getElem?_drop, Arr2.get?, if_pos ⟨hi, hj⟩, a.place_standard h i j hi hj]
    rfl

omit [Field K] [LinearOrder K] in
/-- The copy in standard layout lies inside its buffer, is in standard layout, has the same shape, shows the same elements, and can be read as a
slice of `rows * cols` numbers. -/
theorem C93_standard_inside (x : Arr2 (Fl K)) (h : x.WF) : x.standard.WF ∧ x.standard.isStandard = true ∧
    x.standard.rows = x.rows ∧ x.standard.cols = x.cols ∧
    (∀ i < x.rows, ∀ j < x.cols, ∃ v, x.get? i j = some v ∧ x.standard.get? i j = some v) ∧
    ∃ s, x.standard.asSlice = some s ∧ s.length = x.rows * x.cols ∧
      ∀ i < x.rows, ∀ j < x.cols, s[i * x.cols + j]? = x.get? i j := by
  have hw := x.standard_wf h
  have hr := x.standard_rows
  have hc := x.standard_cols
  have hsame : ∀ i < x.rows, ∀ j < x.cols, ∃ v, x.get? i j = some v ∧ x.standard.get? i j = some v := by
    intro i hi j hj
    obtain ⟨v, hv⟩ := x.get?_isSome h i j hi hj
    obtain ⟨v', hv'⟩ := x.standard.get?_isSome hw i j (by omega) (by omega)
    have := x.standard_get i j
    rw [hv, hv'] at this
    exact ⟨v, hv, by rw [hv']; exact congrArg some this⟩
  have hst := x.standard_isStandard
  obtain ⟨hl, hg⟩ := x.standard.slice_standard hst hw
  rw [hr, hc] at hl hg
  refine ⟨hw, hst, hr, hc, hsame, (x.standard.buf.drop x.standard.offset).take (x.rows * x.cols), ?_, hl, ?_⟩
  · rw [Arr2.asSlice, if_pos hst, hr, hc]
  · intro i hi j hj
    obtain ⟨v, hv, hv'⟩ := hsame i hi j hj
    rw [hg i hi j hj, hv, hv']

/-- A transposed 2 by 2 array, and one whose first element is at place zero of its buffer. -/
example : Arr2.WF (⟨[.fin 1, .fin 2, .fin 3, .fin 4], 0, 2, 2, 1, 2⟩ : Arr2 (Fl ℚ)) ∧
    (⟨[.fin 1, .fin 2, .fin 3, .fin 4], 0, 2, 2, 1, 2⟩ : Arr2 (Fl ℚ)).isStandard = false := by
  refine ⟨?_, rfl⟩
  intro i hi j hj
  have hi : i < 2 := hi
  have hj : j < 2 := hj
  show (0 : Int) ≤ ((0 : Nat) : Int) + i * 1 + j * 2 ∧ ((0 : Nat) : Int) + i * 1 + j * 2 < ((4 : Nat) : Int)
  omega

end SR
