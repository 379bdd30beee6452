import Verif.Proofs.Stats
import Mathlib.Data.Rat.Defs
import Mathlib.Algebra.Order.Ring.Rat
import Mathlib.Tactic.NormNum
/-
C28 (complexity-frequency statistics).
-/
namespace SR
variable {K : Type} [Field K] [LinearOrder K]

/-- The operations on the statistics. -/
inductive StatsOp where
  | update (size : Nat)
  | updateAll (sizes : List Nat)
  | moveWindow
  | normalize

/-- The effect of one operation. -/
def StatsOp.apply (R : Rounding K) (s : Stats K) : StatsOp → Stats K
  | .update n => s.updateFrequencies R n
  | .updateAll ns => s.updateFromPopulation R ns
  | .moveWindow => s.moveWindow R
  | .normalize => s.normalize R

/-- How many sizes the operation records. -/
def StatsOp.records : StatsOp → Nat
  | .update _ => 1
  | .updateAll ns => ns.length
  | _ => 0

/-- The statistics after a history of operations. -/
def statsAfter (R : Rounding K) (maxsize window : Nat) (ops : List StatsOp) : Stats K :=
  ops.foldl (StatsOp.apply R) (Stats.new R maxsize window)

section
variable [IsStrictOrderedRing K]

theorem updateAll_ok {R : Rounding K} (hR : R.Lawful) {B : Nat} (hB : R.CountsTo B) (ns : List Nat) :
    ∀ (n : Nat) (s : Stats K), n + ns.length ≤ B → (∀ v ∈ s.frequencies, EntryOk R n v) →
    (∀ v ∈ (s.updateFromPopulation R ns).frequencies, EntryOk R (n + ns.length) v) ∧
      (s.updateFromPopulation R ns).frequencies.length = s.frequencies.length := by
  induction ns with
  | nil => intro n s _ h; exact ⟨by simpa [Stats.updateFromPopulation] using h, rfl⟩
  | cons a ns ih =>
    intro n s hn h
    simp only [List.length_cons] at hn
    obtain ⟨h1, h2⟩ := updateFrequencies_ok hR hB (by omega) s h a
    obtain ⟨h3, h4⟩ := ih (n + 1) (s.updateFrequencies R a) (by omega) h1
    refine ⟨?_, h4.trans h2⟩
    intro v hv
    have := h3 v hv
    rw [List.length_cons, show n + (ns.length + 1) = n + 1 + ns.length by omega]
    exact this

/-- C28: in every arithmetic in which counting up to `B` is exact (`f64`: `B = 2^53`), after every history of
operations recording fewer than `B` sizes, the table keeps its length and every frequency is a finite number
between one and one plus the number of recorded sizes. -/
theorem C28_at_least_one (R : Rounding K) (hR : R.Lawful) (B : Nat) (hB : R.CountsTo B) (maxsize window : Nat)
    (ops : List StatsOp) (hcount : 1 + (ops.map StatsOp.records).sum ≤ B) :
    (statsAfter R maxsize window ops).frequencies.length = maxsize ∧
    ∀ v ∈ (statsAfter R maxsize window ops).frequencies,
      ∃ x, v = .fin x ∧ 1 ≤ x ∧ x ≤ ((1 + (ops.map StatsOp.records).sum : Nat) : K) := by
  have gen : ∀ (ops : List StatsOp) (n : Nat) (s : Stats K), n + (ops.map StatsOp.records).sum ≤ B →
      (∀ v ∈ s.frequencies, EntryOk R n v) →
      (∀ v ∈ (ops.foldl (StatsOp.apply R) s).frequencies,
        EntryOk R (n + (ops.map StatsOp.records).sum) v) ∧
        (ops.foldl (StatsOp.apply R) s).frequencies.length = s.frequencies.length := by
    intro ops
    induction ops with
    | nil => intro n s _ h; exact ⟨by simpa using h, rfl⟩
    | cons op ops ih =>
      intro n s hn h
      rw [List.map_cons, List.sum_cons] at hn
      have step : (∀ v ∈ (op.apply R s).frequencies, EntryOk R (n + op.records) v) ∧
          (op.apply R s).frequencies.length = s.frequencies.length := by
        cases op with
        | update m =>
          simp only [StatsOp.records] at hn
          exact updateFrequencies_ok hR hB (by omega) s h m
        | updateAll ms =>
          simp only [StatsOp.records] at hn
          exact updateAll_ok hR hB ms n s (by omega) h
        | moveWindow =>
          simp only [StatsOp.apply, Stats.moveWindow, StatsOp.records, Nat.add_zero]
          split
          · exact ⟨h, rfl⟩
          · exact windowLoop_ok hR hB (by simp only [StatsOp.records] at hn; omega) _ _ _ h
        | normalize =>
          simp only [StatsOp.apply, Stats.normalize, StatsOp.records, Nat.add_zero]
          split <;> exact ⟨h, rfl⟩
      obtain ⟨h1, h2⟩ := ih (n + op.records) (op.apply R s) (by omega) step.1
      refine ⟨?_, h2.trans step.2⟩
      intro v hv
      rw [List.map_cons, List.sum_cons, ← Nat.add_assoc]
      exact h1 v hv
  obtain ⟨h1, h2⟩ := gen ops 1 (Stats.new R maxsize window) hcount (by
    intro v hv
    simp only [Stats.new] at hv
    rw [List.eq_of_mem_replicate hv]
    exact ⟨1, rfl, hR.one, le_refl _, by simp⟩)
  refine ⟨by rw [statsAfter, h2]; simp [Stats.new], ?_⟩
  intro v hv
  obtain ⟨x, e, _, h3, h4⟩ := h1 v hv
  exact ⟨x, e, h3, h4⟩

omit [IsStrictOrderedRing K] in
/-- C28: a looked-up frequency is never below the floor `1e-6`, whatever the state, in any arithmetic. -/
theorem C28_freq_floor (R : Rounding K) (hR : R.Lawful) (s : Stats K) (size : Nat) :
    (R.rnd (1 / 1000000)).le (s.freq R size) = true := by
  have hn := hR.not_nan (1 / 1000000)
  have hrefl := Fl.le_refl hn
  rw [Stats.freq]
  split
  · exact hrefl
  · split
    · exact hrefl
    · next v hv =>
      rw [Fl.max]
      split
      · exact hrefl
      · next hvn =>
        rw [if_neg (by rw [hn]; exact Bool.false_ne_true)]
        split
        · exact hrefl
        · next h => exact (Fl.le_iff hn (by simpa using hvn)).mpr (by simpa using h)

/-- C28 (exact arithmetic): normalising makes the normalised frequencies positive with sum one, each
proportional to its frequency. -/
theorem C28_normalize (s : Stats K) (xs : List K) (hs : s.frequencies = xs.map .fin) (h1 : ∀ x ∈ xs, 1 ≤ x)
    (hne : xs ≠ []) :
    ∃ ps, (s.normalize (Rounding.exact K)).normalized = ps.map .fin ∧
      ps = xs.map (fun x => x / xs.sum) ∧ (∀ p ∈ ps, 0 < p) ∧ ps.sum = 1 ∧
      (s.normalize (Rounding.exact K)).frequencies = s.frequencies := by
  have hpos : 0 < xs.sum := by
    cases xs with
    | nil => exact absurd rfl hne
    | cons x xs =>
      have := h1 x (by simp)
      have h2 : 0 ≤ xs.sum := List.sum_nonneg fun y hy => by
        have := h1 y (by simp [hy]); linarith
      rw [List.sum_cons]; linarith
  have hf : ((Rounding.exact K).sum s.frequencies).feq (.fin 0) = false := by
    rw [hs, exact_sum]; simp [Fl.feq, Fl.le, hpos]
  rw [Stats.normalize, if_neg (by simp [hf])]
  refine ⟨_, ?_, rfl, ?_, ?_, rfl⟩
  · simp only
    rw [hs, exact_sum, List.map_map, List.map_map]
    apply List.map_congr_left
    intro x _
    exact exact_div x xs.sum hpos.ne'
  · intro p hp
    obtain ⟨x, hx, rfl⟩ := List.mem_map.mp hp
    have := h1 x hx
    exact div_pos (by linarith) hpos
  · have : ∀ l : List K, (l.map fun x => x / xs.sum).sum = l.sum / xs.sum := by
      intro l
      induction l with
      | nil => simp
      | cons a l ih => rw [List.map_cons, List.sum_cons, ih, List.sum_cons, add_div]
    rw [this, div_self hpos.ne']

/-- C28: when the frequencies add up to zero (only possible for statistics not made by `new`, or of size zero) the
normalised frequencies are all zero: there is no division by zero. -/
theorem C28_normalize_zero (R : Rounding K) (s : Stats K) (h : R.sum s.frequencies = .fin 0) :
    ∀ p ∈ (s.normalize R).normalized, p = .fin 0 := by
  rw [Stats.normalize, if_pos (by rw [h]; simp [Fl.feq, Fl.le])]
  simp

/-- C28 (exact arithmetic): the new statistics are uniform and normalised. -/
theorem C28_new (maxsize window : Nat) (h : 0 < maxsize) :
    ∃ ps, (Stats.new (Rounding.exact K) maxsize window).normalized = ps.map .fin ∧
      ps = List.replicate maxsize (1 / (maxsize : K)) ∧ ps.sum = 1 := by
  have hK : (0 : K) < maxsize := by exact_mod_cast h
  have hsum : (List.replicate maxsize (1 : K)).sum = maxsize := by simp
  have he : (List.replicate maxsize (Fl.fin (1 : K))) = (List.replicate maxsize (1 : K)).map .fin := by simp
  refine ⟨_, ?_, rfl, ?_⟩
  · simp only [Stats.new]
    rw [he, exact_sum, hsum, List.map_map, List.map_replicate, List.map_replicate]
    congr 1
    exact exact_div 1 (maxsize : K) hK.ne'
  · simp [hK.ne']

/-- C28 (exact arithmetic): moving the window never lowers an entry below one, never raises an entry, and moves
the total towards the window without crossing it; when the total is within the window nothing changes. -/
theorem C28_window (s : Stats K) (xs : List K) (w : K) (hs : s.frequencies = xs.map .fin)
    (hw : s.windowSize = .fin w) (h1 : ∀ x ∈ xs, 1 ≤ x) :
    ∃ ys, (s.moveWindow (Rounding.exact K)).frequencies = ys.map .fin ∧
      List.Forall₂ (fun y x => 1 ≤ y ∧ y ≤ x) ys xs ∧
      ys.sum ≤ xs.sum ∧ min xs.sum w ≤ ys.sum ∧ (xs.sum ≤ w → ys = xs) := by
  rw [Stats.moveWindow, hs, exact_sum, hw]
  by_cases h : xs.sum ≤ w
  · rw [if_pos (by simpa [Fl.le] using h)]
    refine ⟨xs, hs, ?_, le_refl _, min_le_left _ _, fun _ => rfl⟩
    rw [List.forall₂_same]
    exact fun x hx => ⟨h1 x hx, le_refl _⟩
  · rw [if_neg (by simpa [Fl.le] using h)]
    push Not at h
    simp only [exact_sub]
    obtain ⟨ys, e, h2, h3, h4⟩ := windowLoop_exact 1001 xs (xs.sum - w) h1 (by linarith)
    exact ⟨ys, e, h2, h3, by rw [min_eq_right h.le]; linarith, fun hh => absurd hh (not_le.mpr h)⟩

/-- C28 (exact arithmetic): if the entries lie on a grid of step at least `1e-6` above one (for instance when
they are whole numbers) and there are at most 1000 of them, moving the window brings the total exactly to the
window, or to the smallest possible total (all entries one) if the window is smaller than that. -/
theorem C28_window_enforced (s : Stats K) (xs : List K) (w g : K) (hs : s.frequencies = xs.map .fin)
    (hw : s.windowSize = .fin w) (hg : (1 : K) / 1000000 ≤ g) (hgrid : ∀ x ∈ xs, ∃ k : Nat, x = 1 + k * g)
    (hlen : xs.length ≤ 1000) (hgt : w < xs.sum) :
    ∃ ys : List K, (s.moveWindow (Rounding.exact K)).frequencies = ys.map .fin ∧
      ys.length = xs.length ∧ ys.sum = max w (xs.length : K) := by
  rw [Stats.moveWindow, hs, exact_sum, hw, if_neg (by simpa [Fl.le] using hgt)]
  simp only [exact_sub]
  have hn : nAbove xs ≤ 1001 := by
    have : nAbove xs ≤ xs.length := List.length_filter_le _ _
    omega
  obtain ⟨ys, e, h2, h3⟩ := windowLoop_exact_grid g hg 1001 xs (xs.sum - w) hgrid (by linarith) hn
  exact ⟨ys, e, h3, by rw [h2]; congr 1; ring⟩

/-- C28: recording a size in range adds one to that entry only; a size out of range is ignored. -/
theorem C28_update (s : Stats K) (xs : List K) (hs : s.frequencies = xs.map .fin) (size : Nat) :
    (s.updateFrequencies (Rounding.exact K) size).frequencies =
      (xs.zipIdx.map fun p => if p.2 + 1 = size then p.1 + 1 else p.1).map .fin := by
  rw [Stats.updateFrequencies]
  have key : ∀ (j : Nat), ((xs.zipIdx.map fun p => if p.2 + 1 = size then p.1 + 1 else p.1).map Fl.fin)[j]?
      = xs[j]?.map fun x => Fl.fin (if j + 1 = size then x + 1 else x) := by
    intro j
    rw [List.getElem?_map, List.getElem?_map, List.getElem?_zipIdx]
    cases xs[j]? <;> simp
  split
  · next h =>
    apply List.ext_getElem?
    intro j
    rw [key j, List.getElem?_modify, hs, List.getElem?_map]
    cases xs[j]? with
    | none => simp
    | some x =>
      simp only [Option.map_some, Option.map_eq_map]
      by_cases hj : size - 1 = j
      · rw [if_pos hj, if_pos (by omega), exact_add]
      · rw [if_neg hj, if_neg (by omega)]
  · next h =>
    rw [hs] at h ⊢
    apply List.ext_getElem?
    intro j
    rw [key j, List.getElem?_map]
    cases hx : xs[j]? with
    | none => rfl
    | some x =>
      have : j < xs.length := by
        by_contra hh
        rw [List.getElem?_eq_none (by omega)] at hx; simp at hx
      simp only [Option.map_some]
      rw [if_neg]
      rintro rfl
      simp at h
      omega
end

/-! ### Concrete cases -/

/-- Exact arithmetic counts exactly, so the hypotheses of `C28_at_least_one` can be met. -/
example (B : Nat) : (Rounding.exact ℚ).CountsTo B := ⟨fun _ _ => rfl, fun _ _ _ _ => rfl⟩

/-- Frequencies 1, 4, 6 with window 5: the two large ones are lowered by 3, the larger one by 2 more. -/
example : ((⟨.fin 5, [.fin 1, .fin 4, .fin 6], []⟩ : Stats ℚ).moveWindow (Rounding.exact ℚ)).frequencies
    = [.fin 1, .fin 1, .fin 3] := by decide +kernel
/-- A window smaller than the number of entries: all entries end at one. -/
example : ((⟨.fin 2, [.fin 1, .fin 4, .fin 6], []⟩ : Stats ℚ).moveWindow (Rounding.exact ℚ)).frequencies
    = [.fin 1, .fin 1, .fin 1] := by decide +kernel
/-- The exact enforcement really needs the grid: an entry just above one makes a single call stop early. -/
example : ((⟨.fin 5, [.fin (1 + 1 / 10000000), .fin 1000], []⟩ : Stats ℚ).moveWindow
      (Rounding.exact ℚ)).frequencies
    = [.fin 1, .fin (1000 - 1 / 10000000)] := by decide +kernel

end SR
