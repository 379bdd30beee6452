import Verif.Model.Population
import Verif.Proofs.Random
import Mathlib.Tactic.Positivity
import Mathlib.Tactic.FieldSimp
/-
Lemmas for the complexity-frequency statistics.
-/
namespace SR
variable {K : Type} [Field K] [LinearOrder K]

/-! ### Any rounding -/

/-- Counting by ones is exact up to `B` (for `f64`: `B = 2 ^ 53`). -/
structure Rounding.CountsTo (R : Rounding K) (B : Nat) : Prop where
  nat : ∀ n : Nat, n ≤ B → R.rnd (n : K) = .fin (n : K)
  pred : ∀ x : K, R.rnd x = .fin x → 1 < x → x ≤ B → R.rnd (x - 1) = .fin (x - 1)

theorem rnd_between {R : Rounding K} (hR : R.Lawful) {a b x : K} (ha : R.rnd a = .fin a)
    (hb : R.rnd b = .fin b) (h1 : a ≤ x) (h2 : x ≤ b) :
    ∃ y, R.rnd x = .fin y ∧ a ≤ y ∧ y ≤ b ∧ R.rnd y = .fin y := by
  have m1 := hR.mono h1
  have m2 := hR.mono h2
  rw [ha] at m1
  rw [hb] at m2
  cases hx : R.rnd x with
  | nan => rw [hx] at m1; simp [Fl.le] at m1
  | ninf => rw [hx] at m1; simp [Fl.le] at m1
  | pinf => rw [hx] at m2; simp [Fl.le] at m2
  | fin y =>
    rw [hx] at m1 m2
    exact ⟨y, rfl, by simpa [Fl.le] using m1, by simpa [Fl.le] using m2, hR.idem hx⟩

/-- A frequency entry: representable, at least one, at most `n`. -/
def EntryOk (R : Rounding K) (n : Nat) (v : Fl K) : Prop :=
  ∃ x, v = .fin x ∧ R.rnd x = .fin x ∧ 1 ≤ x ∧ x ≤ n

omit [Field K] in
theorem foldl_min_fin (l : List (Fl K)) : ∀ (b : Fl K), b.isNan = false → (∀ v ∈ l, v.isNan = false) →
    (l.foldl Fl.min b).isNan = false ∧ (l.foldl Fl.min b).le b = true ∧
    (∀ v ∈ l, (l.foldl Fl.min b).le v = true) ∧ (l.foldl Fl.min b = b ∨ l.foldl Fl.min b ∈ l) := by
  induction l with
  | nil => intro b hb _; exact ⟨hb, Fl.le_refl hb, by simp, .inl rfl⟩
  | cons a l ih =>
    intro b hb hl
    have ha := hl a (by simp)
    have hmin : Fl.min b a = if a.lt b = true then a else b := by
      simp [Fl.min, ha, hb]
    have hmn : (Fl.min b a).isNan = false := by rw [hmin]; split <;> assumption
    have hm1 : (Fl.min b a).le b = true := by
      rw [hmin]; split
      · next h => exact Fl.le_of_lt h
      · exact Fl.le_refl hb
    have hm2 : (Fl.min b a).le a = true := by
      rw [hmin]; split
      · exact Fl.le_refl ha
      · next h => exact (Fl.le_iff hb ha).mpr (by simpa using h)
    obtain ⟨h1, h2, h3, h4⟩ := ih (Fl.min b a) hmn fun v hv => hl v (by simp [hv])
    rw [List.foldl_cons]
    refine ⟨h1, Fl.le_trans h2 hm1, ?_, ?_⟩
    · intro v hv
      rcases List.mem_cons.mp hv with rfl | hv
      · exact Fl.le_trans h2 hm2
      · exact h3 v hv
    · rcases h4 with h4 | h4
      · rw [h4, hmin]
        split
        · exact .inr (by simp)
        · exact .inl rfl
      · exact .inr (by simp [h4])

variable [IsStrictOrderedRing K]

theorem subAbove_ok {R : Rounding K} (hR : R.Lawful) {B n : Nat} (hB : R.CountsTo B) (hn : n ≤ B)
    (freqs : List (Fl K)) (hf : ∀ v ∈ freqs, EntryOk R n v) (rem : Fl K)
    (hne : (above freqs).isEmpty = false) (hpos : Fl.lt (.fin 0) (windowAmount R freqs rem) = true) :
    ∀ v ∈ subAbove R (windowAmount R freqs rem) freqs, EntryOk R n v := by
  have hab : ∀ v ∈ above freqs, EntryOk R n v ∧ Fl.lt (.fin 1) v = true := by
    intro v hv
    have := List.mem_filter.mp hv
    exact ⟨hf v this.1, by simpa using this.2⟩
  have hnn : ∀ v ∈ above freqs, v.isNan = false := by
    intro v hv
    obtain ⟨⟨x, rfl, _⟩, _⟩ := hab v hv
    rfl
  obtain ⟨h1, h2, h3, h4⟩ := foldl_min_fin (above freqs) .pinf rfl hnn
  set M := (above freqs).foldl Fl.min .pinf with hM
  obtain ⟨v0, hv0⟩ : ∃ v0, v0 ∈ above freqs := by
    cases h : above freqs with
    | nil => rw [h] at hne; simp at hne
    | cons a l => exact ⟨a, by simp⟩
  have hMmem : M ∈ above freqs := by
    rcases h4 with h4 | h4
    · exfalso
      obtain ⟨⟨x, rfl, _⟩, _⟩ := hab v0 hv0
      have := h3 _ hv0
      rw [h4] at this; simp [Fl.le] at this
    · exact h4
  obtain ⟨⟨m, hm, hmr, hm1, hmn⟩, hmgt⟩ := hab M hMmem
  rw [hm] at hmgt
  have hmgt' : 1 < m := by simpa [Fl.lt] using hmgt
  have hmB : m ≤ (B : K) := hmn.trans (by exact_mod_cast hn)
  have hsub : R.sub M (.fin 1) = .fin (m - 1) := by
    rw [hm]
    simp only [Rounding.sub, Rounding.add, Fl.neg, ← sub_eq_add_neg]
    exact hB.pred m hmr hmgt' hmB
  -- the amount
  have hamt : ∃ a, windowAmount R freqs rem = .fin a ∧ 0 < a ∧ a ≤ m - 1 := by
    have hle : (windowAmount R freqs rem).le (.fin (m - 1)) = true := by
      rw [windowAmount, ← hM, hsub]
      generalize R.div rem (R.ofNat (above freqs).length) = d
      cases hd : d.isNan with
      | true => simp [Fl.min, hd, Fl.le]
      | false =>
        have hb : (Fl.fin (m - 1)).isNan = false := rfl
        rw [Fl.min, if_neg (by simp [hd]), if_neg (by simp [hb])]
        split
        · simp [Fl.le]
        · next h => exact (Fl.le_iff hd hb).mpr (by simpa using h)
    generalize windowAmount R freqs rem = w at hle hpos
    cases w with
    | nan => simp [Fl.lt] at hpos
    | ninf => simp [Fl.lt] at hpos
    | pinf => simp [Fl.le] at hle
    | fin a => exact ⟨a, rfl, by simpa [Fl.lt] using hpos, by simpa [Fl.le] using hle⟩
  obtain ⟨a, ha, ha0, ham⟩ := hamt
  intro v hv
  rw [subAbove, List.mem_map] at hv
  obtain ⟨u, hu, rfl⟩ := hv
  obtain ⟨x, rfl, hxr, hx1, hxn⟩ := hf u hu
  by_cases hgt : 1 < x
  · rw [if_pos (by simpa [Fl.lt] using hgt), ha]
    have hmx : m ≤ x := by
      have hxm : Fl.fin x ∈ above freqs := List.mem_filter.mpr ⟨hu, by simpa [Fl.lt] using hgt⟩
      have := h3 _ hxm
      rw [hm] at this
      simpa [Fl.le] using this
    simp only [Rounding.sub, Rounding.add, Fl.neg, ← sub_eq_add_neg]
    obtain ⟨y, hy, hy1, hy2, hyr⟩ := rnd_between hR hR.one hxr (show (1 : K) ≤ x - a by linarith)
      (show x - a ≤ x by linarith)
    exact ⟨y, hy, hyr, hy1, hy2.trans hxn⟩
  · rw [if_neg (by simpa [Fl.lt] using hgt)]
    exact ⟨x, rfl, hxr, hx1, hxn⟩

omit [Field K] [LinearOrder K] [IsStrictOrderedRing K] in
theorem subAbove_length [Field K] [LinearOrder K] (R : Rounding K) (a : Fl K) (freqs : List (Fl K)) :
    (subAbove R a freqs).length = freqs.length := by simp [subAbove]

theorem windowLoop_ok {R : Rounding K} (hR : R.Lawful) {B n : Nat} (hB : R.CountsTo B) (hn : n ≤ B)
    (fuel : Nat) : ∀ (freqs : List (Fl K)) (rem : Fl K), (∀ v ∈ freqs, EntryOk R n v) →
    (∀ v ∈ windowLoop R fuel freqs rem, EntryOk R n v) ∧
      (windowLoop R fuel freqs rem).length = freqs.length := by
  induction fuel with
  | zero => intro freqs rem hf; exact ⟨hf, rfl⟩
  | succ fuel ih =>
    intro freqs rem hf
    rw [windowLoop]
    split
    · split
      · exact ⟨hf, rfl⟩
      · next hne =>
        simp only
        split
        · next hpos =>
          have hok := subAbove_ok hR hB hn freqs hf rem (by simpa using hne) hpos
          split
          · exact ⟨hok, by simp [subAbove]⟩
          · have := ih (subAbove R (windowAmount R freqs rem) freqs)
              (R.sub rem (R.mul (windowAmount R freqs rem) (R.ofNat (above freqs).length))) hok
            exact ⟨this.1, this.2.trans (by simp [subAbove])⟩
        · exact ⟨hf, rfl⟩
    · exact ⟨hf, rfl⟩

omit [IsStrictOrderedRing K] in
theorem EntryOk.mono {R : Rounding K} [IsStrictOrderedRing K] {n m : Nat} (h : n ≤ m) {v : Fl K}
    (hv : EntryOk R n v) : EntryOk R m v := by
  obtain ⟨x, h1, h2, h3, h4⟩ := hv
  exact ⟨x, h1, h2, h3, h4.trans (by exact_mod_cast h)⟩

theorem updateFrequencies_ok {R : Rounding K} (hR : R.Lawful) {B n : Nat} (hB : R.CountsTo B) (hn : n + 1 ≤ B)
    (s : Stats K) (hf : ∀ v ∈ s.frequencies, EntryOk R n v) (size : Nat) :
    (∀ v ∈ (s.updateFrequencies R size).frequencies, EntryOk R (n + 1) v) ∧
      (s.updateFrequencies R size).frequencies.length = s.frequencies.length := by
  have hf' : ∀ v ∈ s.frequencies, EntryOk R (n + 1) v := fun v hv => (hf v hv).mono (by omega)
  rw [Stats.updateFrequencies]
  split
  · simp only
    refine ⟨?_, by simp⟩
    intro v hv
    obtain ⟨j, hj⟩ := List.mem_iff_getElem?.mp hv
    rw [List.getElem?_modify] at hj
    split at hj
    · next h =>
      cases hu : s.frequencies[j]? with
      | none => rw [hu] at hj; simp at hj
      | some u =>
        rw [hu] at hj
        simp at hj
        subst hj
        obtain ⟨x, rfl, hxr, hx1, hxn⟩ := hf u (List.mem_of_getElem? hu)
        obtain ⟨y, hy, hy1, hy2, hyr⟩ := rnd_between hR hR.one (hB.nat (n + 1) hn)
          (show (1 : K) ≤ x + 1 by linarith) (show x + 1 ≤ ((n + 1 : Nat) : K) by push_cast; linarith)
        exact ⟨y, hy, hyr, hy1, hy2⟩
    · have hj' : s.frequencies[j]? = some v := by simpa using hj
      exact hf' v (List.mem_of_getElem? hj')
  · exact ⟨hf', rfl⟩

/-! ### Exact arithmetic -/

theorem exact_div (x y : K) (hy : y ≠ 0) : (Rounding.exact K).div (.fin x) (.fin y) = .fin (x / y) := by
  simp [Rounding.div, hy, Rounding.exact]

theorem exact_foldl_add (xs : List K) : ∀ t : K,
    (xs.map Fl.fin).foldl (Rounding.exact K).add (.fin t) = .fin (t + xs.sum) := by
  induction xs with
  | nil => intro t; simp
  | cons x xs ih =>
    intro t
    rw [List.map_cons, List.foldl_cons, exact_add, ih, List.sum_cons]
    congr 1; ring

theorem exact_sum (xs : List K) : (Rounding.exact K).sum (xs.map .fin) = .fin xs.sum := by
  rw [Rounding.sum, exact_foldl_add, zero_add]

/-- Number of entries above one. -/
def nAbove (xs : List K) : Nat := (xs.filter fun x => decide (1 < x)).length

omit [IsStrictOrderedRing K] in
theorem above_fin (xs : List K) : above (xs.map Fl.fin) = (xs.filter fun x => decide (1 < x)).map .fin := by
  rw [above, List.filter_map]
  rfl

/-- Subtract `a` from the entries above one. -/
def lower (a : K) (xs : List K) : List K := xs.map fun x => if 1 < x then x - a else x

theorem subAbove_fin (a : K) (xs : List K) :
    subAbove (Rounding.exact K) (.fin a) (xs.map .fin) = (lower a xs).map .fin := by
  rw [subAbove, lower, List.map_map, List.map_map]
  apply List.map_congr_left
  intro x _
  simp only [Function.comp, Fl.lt, decide_eq_true_eq]
  split
  · rw [exact_sub]
  · rfl

theorem lower_sum (a : K) (xs : List K) : (lower a xs).sum = xs.sum - a * nAbove xs := by
  induction xs with
  | nil => simp [lower, nAbove]
  | cons x xs ih =>
    have e1 : lower a (x :: xs) = (if 1 < x then x - a else x) :: lower a xs := rfl
    rw [e1, List.sum_cons, ih, List.sum_cons]
    by_cases h : 1 < x
    · have : nAbove (x :: xs) = nAbove xs + 1 := by simp [nAbove, h]
      rw [this, if_pos h]; push_cast; ring
    · have : nAbove (x :: xs) = nAbove xs := by simp [nAbove, h]
      rw [this, if_neg h]; ring

/-- The least entry above one, and the amount subtracted. -/
theorem windowAmount_fin (xs : List K) (hne : 0 < nAbove xs) (r : K) :
    ∃ m, m ∈ xs ∧ 1 < m ∧ (∀ x ∈ xs, 1 < x → m ≤ x) ∧
      windowAmount (Rounding.exact K) (xs.map .fin) (.fin r) = .fin (min (r / nAbove xs) (m - 1)) := by
  have hl : (0 : K) < nAbove xs := by exact_mod_cast hne
  obtain ⟨h1, h2, h3, h4⟩ := foldl_min_fin (above (xs.map Fl.fin)) .pinf rfl (by
    intro v hv
    rw [above_fin] at hv
    obtain ⟨x, _, rfl⟩ := List.mem_map.mp hv
    rfl)
  have hmem : ∃ m, (above (xs.map Fl.fin)).foldl Fl.min .pinf = .fin m ∧ m ∈ xs ∧ 1 < m := by
    rcases h4 with h4 | h4
    · exfalso
      obtain ⟨x, hx⟩ : ∃ x, x ∈ xs.filter fun x => decide (1 < x) := by
        cases h : xs.filter fun x => decide (1 < x) with
        | nil => rw [nAbove, h] at hne; simp at hne
        | cons a l => exact ⟨a, by simp⟩
      have := h3 (.fin x) (by rw [above_fin]; exact List.mem_map.mpr ⟨x, hx, rfl⟩)
      rw [h4] at this; simp [Fl.le] at this
    · have h5 := h4
      rw [above_fin] at h5
      obtain ⟨m, hm, he⟩ := List.mem_map.mp h5
      rw [← above_fin] at he
      obtain ⟨hm1, hm2⟩ := List.mem_filter.mp hm
      exact ⟨m, he.symm, hm1, by simpa using hm2⟩
  obtain ⟨m, hm, hm1, hm2⟩ := hmem
  refine ⟨m, hm1, hm2, ?_, ?_⟩
  · intro x hx hx1
    have := h3 (.fin x) (by
      rw [above_fin]
      exact List.mem_map.mpr ⟨x, List.mem_filter.mpr ⟨hx, by simpa using hx1⟩, rfl⟩)
    rw [hm] at this
    simpa [Fl.le] using this
  · rw [windowAmount, hm, exact_sub]
    have hlen : (above (xs.map Fl.fin)).length = nAbove xs := by rw [above_fin]; simp [nAbove]
    have hof : (Rounding.exact K).ofNat (nAbove xs) = .fin (nAbove xs : K) := rfl
    rw [hlen, hof, exact_div _ _ hl.ne']
    simp only [Fl.min, Fl.isNan, Bool.false_eq_true, if_false, Fl.lt, decide_eq_true_eq]
    split
    · next h => rw [min_eq_right h.le]
    · next h => rw [min_eq_left (not_lt.mp h)]

/-- The effect of the loop in exact arithmetic: entries only go down, not below one, and the total goes down by
at most `rem`. -/
theorem windowLoop_exact (fuel : Nat) : ∀ (xs : List K) (rem : K), (∀ x ∈ xs, 1 ≤ x) → 0 ≤ rem →
    ∃ ys, windowLoop (Rounding.exact K) fuel (xs.map .fin) (.fin rem) = ys.map .fin ∧
      List.Forall₂ (fun y x => 1 ≤ y ∧ y ≤ x) ys xs ∧ ys.sum ≤ xs.sum ∧ xs.sum - rem ≤ ys.sum := by
  have hrefl : ∀ xs : List K, (∀ x ∈ xs, 1 ≤ x) → List.Forall₂ (fun y x => 1 ≤ y ∧ y ≤ x) xs xs := by
    intro xs h
    rw [List.forall₂_same]
    exact fun x hx => ⟨h x hx, le_refl _⟩
  induction fuel with
  | zero => intro xs rem h hr; exact ⟨xs, rfl, hrefl xs h, le_refl _, by linarith⟩
  | succ fuel ih =>
    intro xs rem h hr
    have stay : ∃ ys, (xs.map Fl.fin) = ys.map Fl.fin ∧
        List.Forall₂ (fun y x => 1 ≤ y ∧ y ≤ x) ys xs ∧ ys.sum ≤ xs.sum ∧ xs.sum - rem ≤ ys.sum :=
      ⟨xs, rfl, hrefl xs h, le_refl _, by linarith⟩
    rw [windowLoop]
    split
    · next hpos =>
      have hpos' : 0 < rem := by simpa [Fl.lt] using hpos
      split
      · exact stay
      · next hne =>
        have hn : 0 < nAbove xs := by
          rw [above_fin] at hne
          rw [nAbove]
          simpa [List.length_pos_iff, List.filter_eq_nil_iff] using hne
        have hnK : (0 : K) < nAbove xs := by exact_mod_cast hn
        obtain ⟨m, hm1, hm2, hm3, hamt⟩ := windowAmount_fin xs hn rem
        have hlen : (above (xs.map Fl.fin)).length = nAbove xs := by rw [above_fin]; simp [nAbove]
        rw [hamt]
        set a := min (rem / (nAbove xs : K)) (m - 1) with ha
        have ha0 : 0 < a := lt_min (div_pos hpos' hnK) (by linarith)
        have ham : a ≤ m - 1 := min_le_right _ _
        have har : a * nAbove xs ≤ rem := by
          have : a ≤ rem / nAbove xs := min_le_left _ _
          calc a * nAbove xs ≤ rem / nAbove xs * nAbove xs := by gcongr
            _ = rem := by field_simp
        have hlow : ∀ x ∈ lower a xs, 1 ≤ x := by
          intro y hy
          obtain ⟨x, hx, rfl⟩ := List.mem_map.mp hy
          split
          · next hgt => have := hm3 x hx hgt; linarith
          · exact h x hx
        have hfor : List.Forall₂ (fun y x => 1 ≤ y ∧ y ≤ x) (lower a xs) xs := by
          rw [lower, List.forall₂_map_left_iff, List.forall₂_same]
          intro x hx
          split
          · next hgt => have := hm3 x hx hgt; exact ⟨by linarith, by linarith⟩
          · exact ⟨h x hx, le_refl _⟩
        have hsum := lower_sum a xs
        have hprod : 0 < a * nAbove xs := mul_pos ha0 hnK
        rw [if_pos (by simpa [Fl.lt] using ha0), subAbove_fin, hlen]
        have hof : (Rounding.exact K).ofNat (nAbove xs) = .fin (nAbove xs : K) := rfl
        simp only [hof, exact_mul, exact_sub]
        split
        · exact ⟨lower a xs, rfl, hfor, by linarith, by linarith⟩
        · obtain ⟨ys, e, h1, h2, h3⟩ := ih (lower a xs) (rem - a * nAbove xs) hlow (by linarith)
          refine ⟨ys, e, ?_, by linarith, by linarith⟩
          have key : ∀ {l1 l2 l3 : List K}, List.Forall₂ (fun y x => 1 ≤ y ∧ y ≤ x) l1 l2 →
              List.Forall₂ (fun y x => 1 ≤ y ∧ y ≤ x) l2 l3 →
              List.Forall₂ (fun y x => 1 ≤ y ∧ y ≤ x) l1 l3 := by
            intro l1 l2 l3 h12
            induction h12 generalizing l3 with
            | nil => intro h; cases h; exact .nil
            | cons hh _ ih2 =>
              intro h
              cases h with
              | cons h' ht => exact .cons ⟨hh.1, hh.2.trans h'.2⟩ (ih2 ht)
          exact key h1 hfor
    · exact stay

/-- With entries on a grid of step at least `1e-6` above one and enough iterations, the window is enforced
exactly. -/
theorem windowLoop_exact_grid (g : K) (hg : (1 : K) / 1000000 ≤ g) (fuel : Nat) : ∀ (xs : List K) (rem : K),
    (∀ x ∈ xs, ∃ k : Nat, x = 1 + k * g) → 0 ≤ rem → nAbove xs ≤ fuel →
    ∃ ys : List K, windowLoop (Rounding.exact K) fuel (xs.map .fin) (.fin rem) = ys.map .fin ∧
      ys.sum = max (xs.sum - rem) (xs.length : K) ∧ ys.length = xs.length := by
  have hgpos : 0 < g := lt_of_lt_of_le (by positivity) hg
  have hge : ∀ xs : List K, (∀ x ∈ xs, ∃ k : Nat, x = 1 + k * g) → ∀ x ∈ xs, 1 ≤ x := by
    intro xs h x hx
    obtain ⟨k, rfl⟩ := h x hx
    have : (0 : K) ≤ k * g := by positivity
    linarith
  have hsumge : ∀ xs : List K, (∀ x ∈ xs, 1 ≤ x) → (xs.length : K) ≤ xs.sum := by
    intro xs h
    induction xs with
    | nil => simp
    | cons x xs ih =>
      have h1 := h x (by simp)
      have h2 := ih fun y hy => h y (by simp [hy])
      rw [List.sum_cons, List.length_cons]; push_cast; linarith
  have hsum1 : ∀ xs : List K, (∀ x ∈ xs, 1 ≤ x) → nAbove xs = 0 → xs.sum = xs.length := by
    intro xs h h0
    induction xs with
    | nil => simp
    | cons x xs ih =>
      have h1 := h x (by simp)
      by_cases hx : 1 < x
      · simp [nAbove, hx] at h0
      · have hx1 : x = 1 := le_antisymm (not_lt.mp hx) h1
        have h2 := ih (fun y hy => h y (by simp [hy])) (by simpa [nAbove, hx] using h0)
        rw [List.sum_cons, List.length_cons, h2, hx1]; push_cast; ring
  have zero_rem : ∀ (fuel : Nat) (xs : List K), windowLoop (Rounding.exact K) fuel (xs.map .fin) (.fin 0)
      = xs.map .fin := by
    intro fuel xs
    cases fuel with
    | zero => rfl
    | succ fuel => rw [windowLoop, if_neg (by simp [Fl.lt])]
  induction fuel with
  | zero =>
    intro xs rem h hr hf
    refine ⟨xs, rfl, ?_, rfl⟩
    have h0 : nAbove xs = 0 := by omega
    have hs := hsum1 xs (hge xs h) h0
    rw [hs]
    rw [max_eq_right (by linarith)]
  | succ fuel ih =>
    intro xs rem h hr hf
    have hxs := hge xs h
    have hS := hsumge xs hxs
    rcases hr.eq_or_lt with hr0 | hpos
    · subst hr0
      refine ⟨xs, zero_rem _ xs, ?_, rfl⟩
      rw [sub_zero, max_eq_left hS]
    rcases Nat.eq_zero_or_pos (nAbove xs) with h0 | hn
    · have hs := hsum1 xs hxs h0
      refine ⟨xs, ?_, ?_, rfl⟩
      · rw [windowLoop, if_pos (by simpa [Fl.lt] using hpos), if_pos]
        rw [above_fin]
        rw [nAbove, List.length_eq_zero_iff] at h0
        rw [h0]; rfl
      · rw [hs, max_eq_right (by linarith)]
    · have hnK : (0 : K) < nAbove xs := by exact_mod_cast hn
      obtain ⟨m, hm1, hm2, hm3, hamt⟩ := windowAmount_fin xs hn rem
      have hlen : (above (xs.map Fl.fin)).length = nAbove xs := by rw [above_fin]; simp [nAbove]
      have hne : (above (xs.map Fl.fin)).isEmpty = false := by
        rw [List.isEmpty_eq_false_iff, ← List.length_pos_iff, hlen]; exact hn
      rw [windowLoop, if_pos (by simpa [Fl.lt] using hpos), if_neg (by simp [hne]), hamt]
      set a := min (rem / (nAbove xs : K)) (m - 1) with ha
      have ha0 : 0 < a := lt_min (div_pos hpos hnK) (by linarith)
      have hsum := lower_sum a xs
      rw [if_pos (by simpa [Fl.lt] using ha0), subAbove_fin, hlen]
      have hof : (Rounding.exact K).ofNat (nAbove xs) = .fin (nAbove xs : K) := rfl
      simp only [hof, exact_mul, exact_sub]
      rcases le_total (rem / (nAbove xs : K)) (m - 1) with hcase | hcase
      · -- the rest is removed in this step
        have haeq : a = rem / nAbove xs := by rw [ha, min_eq_left hcase]
        have har : a * nAbove xs = rem := by rw [haeq]; field_simp
        have hlow : ∀ x ∈ lower a xs, 1 ≤ x := by
          intro y hy
          obtain ⟨x, hx, rfl⟩ := List.mem_map.mp hy
          split
          · next hgt => have := hm3 x hx hgt; linarith
          · exact hxs x hx
        have hfin : (lower a xs).sum = max (xs.sum - rem) (xs.length : K) := by
          have h1 := hsumge (lower a xs) hlow
          have h2 : (lower a xs).length = xs.length := by simp [lower]
          rw [h2] at h1
          rw [hsum, har] at h1 ⊢
          rw [max_eq_left h1]
        split
        · exact ⟨lower a xs, rfl, hfin, by simp [lower]⟩
        · rw [har, sub_self, zero_rem]
          exact ⟨lower a xs, rfl, hfin, by simp [lower]⟩
      · have haeq : a = m - 1 := by rw [ha, min_eq_right hcase]
        obtain ⟨km, hkm⟩ := h m hm1
        have hkm1 : 1 ≤ km := by
          rcases Nat.eq_zero_or_pos km with h0 | h0
          · subst h0; simp at hkm; linarith
          · exact h0
        have hag : g ≤ a := by
          rw [haeq, hkm]
          have : (1 : K) ≤ km := by exact_mod_cast hkm1
          nlinarith
        have hn1 : (1 : K) ≤ nAbove xs := by exact_mod_cast hn
        have htot : ¬ ((Fl.fin (a * (nAbove xs : K))).lt ((Rounding.exact K).rnd (1 / 1000000)) = true) := by
          simp only [Rounding.exact, Fl.lt, decide_eq_true_eq, not_lt]
          nlinarith
        rw [if_neg htot]
        have har : a * nAbove xs ≤ rem := by
          have : a ≤ rem / nAbove xs := min_le_left _ _
          calc a * nAbove xs ≤ rem / nAbove xs * nAbove xs := by gcongr
            _ = rem := by field_simp
        have hgrid : ∀ x ∈ lower a xs, ∃ k : Nat, x = 1 + k * g := by
          intro y hy
          obtain ⟨x, hx, rfl⟩ := List.mem_map.mp hy
          obtain ⟨k, hk⟩ := h x hx
          split
          · next hgt =>
            have hmx := hm3 x hx hgt
            have hkk : km ≤ k := by
              rw [hkm, hk] at hmx
              have : (km : K) * g ≤ k * g := by linarith
              exact_mod_cast le_of_mul_le_mul_right this hgpos
            refine ⟨k - km, ?_⟩
            rw [Nat.cast_sub hkk, hk, haeq, hkm]; ring
          · exact ⟨k, hk⟩
        have hfew : nAbove (lower a xs) < nAbove xs := by
          have hle : ∀ l : List K, (∀ x ∈ l, 1 < x → m ≤ x) → nAbove (lower a l) ≤ nAbove l ∧
              (m ∈ l → nAbove (lower a l) < nAbove l) := by
            intro l hl
            induction l with
            | nil => simp [nAbove, lower]
            | cons x l ihl =>
              obtain ⟨i1, i2⟩ := ihl fun y hy => hl y (by simp [hy])
              have e1 : lower a (x :: l) = (if 1 < x then x - a else x) :: lower a l := rfl
              rw [e1]
              by_cases hx : 1 < x
              · rw [if_pos hx]
                have c1 : nAbove (x :: l) = nAbove l + 1 := by simp [nAbove, hx]
                have c2 : nAbove ((x - a) :: lower a l) ≤ nAbove (lower a l) + 1 := by
                  simp only [nAbove, List.filter_cons]; split <;> simp
                refine ⟨by omega, ?_⟩
                intro hmem
                rcases List.mem_cons.mp hmem with hmx | hmem
                · have hx1 : x - a = 1 := by rw [haeq, ← hmx]; ring
                  have : nAbove ((x - a) :: lower a l) = nAbove (lower a l) := by simp [nAbove, hx1]
                  omega
                · have := i2 hmem; omega
              · rw [if_neg hx]
                have c1 : nAbove (x :: l) = nAbove l := by simp [nAbove, hx]
                have c2 : nAbove (x :: lower a l) = nAbove (lower a l) := by simp [nAbove, hx]
                refine ⟨by omega, ?_⟩
                intro hmem
                rcases List.mem_cons.mp hmem with hmx | hmem
                · exact absurd (hmx ▸ hm2) hx
                · have := i2 hmem; omega
          exact (hle xs hm3).2 hm1
        obtain ⟨ys, e, h1, h2⟩ := ih (lower a xs) (rem - a * nAbove xs) hgrid (by linarith) (by omega)
        refine ⟨ys, e, ?_, h2.trans (by simp [lower])⟩
        rw [h1, hsum]
        have h3 : (lower a xs).length = xs.length := by simp [lower]
        rw [h3]
        congr 1; ring

end SR
