import Verif.Proofs.Binary
import Verif.Props.Stats
import Verif.Spec.Loss
/-
The IEEE formats of Rust satisfy what the theorems assume of a rounding, and consequences for `f64`.
-/
namespace SR

theorem binary64_lawful : binary64.Lawful := binFormat_lawful (f := fmt64) (by decide) (by decide) (by decide)
theorem binary32_lawful : binary32.Lawful := binFormat_lawful (f := fmt32) (by decide) (by decide) (by decide)

theorem rnd_fin_nearest {f : BinFormat} {x y : ℚ} (h : f.rnd x = .fin y) : f.nearest x = y := by
  rw [rnd_eq'] at h
  split at h
  · simp at h
  split at h
  · simp at h
  · simpa using h

/-- A representable number has a numerator of at most `p` bits. -/
theorem representable_shape {f : BinFormat} (hp : 1 ≤ f.p) {x : ℚ} (hx : x ≠ 0) (h : f.rnd x = .fin x) :
    ∃ n : Int, x = n * pow2 (f.ulpExp x) ∧ |n| ≤ 2 ^ f.p ∧ f.emin - (f.p - 1) ≤ f.ulpExp x := by
  obtain ⟨n, h1, h2, h3⟩ := nearest_shape hp x hx
  rw [rnd_fin_nearest h] at h1
  exact ⟨n, h1, h2, h3⟩

theorem counts_format {f : BinFormat} (hp : 1 ≤ f.p) (hmin : f.emin ≤ 0) (hmax : f.p < f.emax) :
    (⟨f.rnd⟩ : Rounding ℚ).CountsTo (2 ^ f.p) where
  nat n hn := rnd_nat hp hmin hmax n hn
  pred x hx h1 hB := by
    have hB' : x ≤ 2 ^ f.p := by exact_mod_cast hB
    have hpw : (2 : ℚ) ^ f.p = pow2 f.p := (pow2_nat _).symm
    rcases eq_or_lt_of_le hB' with he | hl
    · have : x - 1 = ((2 ^ f.p - 1 : Nat) : ℚ) := by
        rw [he, Nat.cast_sub (Nat.one_le_two_pow)]; push_cast; ring
      show f.rnd (x - 1) = _
      rw [this]
      exact rnd_nat hp hmin hmax _ (Nat.sub_le _ _)
    · have hx0 : x ≠ 0 := by linarith
      obtain ⟨n, e1, e2, e3⟩ := representable_shape hp hx0 hx
      obtain ⟨s1, s2⟩ := exponent_spec hx0
      rw [abs_of_pos (by linarith)] at s1 s2
      have hexp : exponent x < f.p := pow2_lt.mp (by rw [← hpw]; linarith)
      have hexp0 : 0 ≤ exponent x := by
        have : (0 : Int) < exponent x + 1 := pow2_lt.mp (by rw [show pow2 0 = 1 by simp [pow2_eq]]; linarith)
        omega
      have hq : f.ulpExp x ≤ 0 := by unfold BinFormat.ulpExp; omega
      obtain ⟨m, hm⟩ := pow2_multiple (q := f.ulpExp x) (e := 0) hq
      rw [show pow2 0 = 1 by simp [pow2_eq]] at hm
      have hpos := pow2_pos (f.ulpExp x)
      have heq : x - 1 = ((n - m : Int) : ℚ) * pow2 (f.ulpExp x) := by
        push_cast; rw [sub_mul, ← e1, ← hm]
      have hnm0 : 0 ≤ n - m := by
        have : (0 : ℚ) ≤ ((n - m : Int) : ℚ) := by
          by_contra hc
          have := mul_neg_of_neg_of_pos (not_le.mp hc) hpos
          linarith
        exact_mod_cast this
      have hm0 : 0 ≤ m := by
        have : (0 : ℚ) ≤ (m : ℚ) := by
          by_contra hc
          have := mul_neg_of_neg_of_pos (not_le.mp hc) hpos
          linarith
        exact_mod_cast this
      refine rnd_representable hp (n - m) _ heq ?_ e3 ?_
      · rw [abs_of_nonneg hnm0]
        have := (abs_le.mp e2).2
        omega
      · rw [abs_of_pos (by linarith)]
        calc x - 1 < 2 ^ f.p := by linarith
          _ = pow2 f.p := hpw
          _ < _ := pow2_lt.mpr hmax

/-- `f64` counts exactly up to `2 ^ 53`. -/
theorem binary64_counts : binary64.CountsTo (2 ^ 53) := counts_format (f := fmt64) (by decide) (by decide) (by decide)
theorem binary32_counts : binary32.CountsTo (2 ^ 24) := counts_format (f := fmt32) (by decide) (by decide) (by decide)

/-- Every number that is representable in a format is representable in any wider one. -/
theorem rep_wider {f g : BinFormat} (hf : 1 ≤ f.p) (hg : 1 ≤ g.p) (h1 : f.p ≤ g.p) (h2 : g.emin - (g.p - 1) ≤ f.emin - (f.p - 1))
    (h3 : f.emax ≤ g.emax) (v : Fl ℚ) (hv : v.Rep ⟨f.rnd⟩) : v.Rep ⟨g.rnd⟩ := by
  intro x hx
  have h := hv x hx
  show g.rnd x = _
  by_cases hx0 : x = 0
  · subst hx0; rw [rnd_eq, if_pos rfl]
  obtain ⟨n, e1, e2, e3⟩ := representable_shape hf hx0 h
  refine rnd_representable hg n _ e1 (e2.trans (pow_le_pow_right₀ (by norm_num) h1)) (by omega) ?_
  have h' : f.rnd x = .fin x := h
  have hn := rnd_fin_nearest h'
  rw [rnd_eq', hn] at h'
  refine lt_of_lt_of_le ?_ (pow2_le h3)
  rw [abs_lt]
  split at h'
  · simp at h'
  split at h'
  · simp at h'
  · constructor <;> linarith

/-- Every `f32` is an `f64`. -/
theorem binary32_rep_binary64 (v : Fl ℚ) (hv : v.Rep binary32) : v.Rep binary64 :=
  rep_wider (f := fmt32) (g := fmt64) (by decide) (by decide) (by decide) (by decide) (by decide) v hv

/-- C28 for `f64`: after every history recording fewer than `2 ^ 53` sizes, the table keeps its length and every
frequency is a finite number between one and one plus the number of recorded sizes. -/
theorem C28_binary64 (maxsize window : Nat) (ops : List StatsOp)
    (hcount : 1 + (ops.map StatsOp.records).sum ≤ 2 ^ 53) :
    (statsAfter binary64 maxsize window ops).frequencies.length = maxsize ∧
    ∀ v ∈ (statsAfter binary64 maxsize window ops).frequencies,
      ∃ x, v = .fin x ∧ 1 ≤ x ∧ x ≤ ((1 + (ops.map StatsOp.records).sum : Nat) : ℚ) :=
  C28_at_least_one binary64 binary64_lawful _ binary64_counts maxsize window ops hcount

end SR
