import Verif.Spec.Binary64
import Mathlib.Algebra.Order.Floor.Ring
import Mathlib.Algebra.Order.Field.Power
import Mathlib.Tactic.Linarith
import Mathlib.Tactic.Ring
import Mathlib.Tactic.Positivity
import Mathlib.Tactic.FieldSimp
/-
Rounding to a binary format is monotone, fixes the representable numbers and has a small relative error.
-/
namespace SR

theorem pow2_eq (e : Int) : pow2 e = (2 : ℚ) ^ e := by
  unfold pow2
  split
  · next h =>
    obtain ⟨n, rfl⟩ := Int.eq_ofNat_of_zero_le h
    simp
  · next h =>
    obtain ⟨n, hn⟩ := Int.eq_ofNat_of_zero_le (show 0 ≤ -e by omega)
    have : e = -(n : Int) := by omega
    subst this
    simp

theorem pow2_pos (e : Int) : 0 < pow2 e := by rw [pow2_eq]; positivity

theorem pow2_le {a b : Int} (h : a ≤ b) : pow2 a ≤ pow2 b := by
  rw [pow2_eq, pow2_eq]; exact zpow_le_zpow_right₀ (by norm_num) h

theorem pow2_add (a b : Int) : pow2 (a + b) = pow2 a * pow2 b := by
  rw [pow2_eq, pow2_eq, pow2_eq, zpow_add₀ (by norm_num)]

theorem pow2_nat (n : Nat) : pow2 n = 2 ^ n := by rw [pow2_eq]; simp

/-- `2 ^ e ≤ |x| < 2 ^ (e + 1)`. -/
theorem exponent_spec {x : ℚ} (hx : x ≠ 0) : pow2 (exponent x) ≤ |x| ∧ |x| < pow2 (exponent x + 1) := by
  have hnum : x.num.natAbs ≠ 0 := by simpa using hx
  have hden : x.den ≠ 0 := x.den_nz
  set a := Nat.log2 x.num.natAbs with ha
  set b := Nat.log2 x.den with hb
  have h1 : (2 : ℚ) ^ a ≤ (x.num.natAbs : ℚ) := by exact_mod_cast Nat.log2_self_le hnum
  have h2 : (x.num.natAbs : ℚ) < 2 ^ (a + 1) := by exact_mod_cast Nat.lt_log2_self
  have h3 : (2 : ℚ) ^ b ≤ (x.den : ℚ) := by exact_mod_cast Nat.log2_self_le hden
  have h4 : (x.den : ℚ) < 2 ^ (b + 1) := by exact_mod_cast Nat.lt_log2_self
  have habs : |x| = (x.num.natAbs : ℚ) / x.den := by
    conv_lhs => rw [← Rat.num_div_den x]
    rw [abs_div, Nat.abs_cast]
    congr 1
    rw [Nat.cast_natAbs, Int.cast_abs]
  have hdpos : (0 : ℚ) < x.den := by exact_mod_cast Nat.pos_of_ne_zero hden
  have hup : |x| < pow2 ((a : Int) - b + 1) := by
    rw [habs, div_lt_iff₀ hdpos, pow2_eq]
    calc (x.num.natAbs : ℚ) < 2 ^ (a + 1) := h2
      _ = (2 : ℚ) ^ ((a : Int) - b + 1) * 2 ^ b := by
        rw [← zpow_natCast, ← zpow_natCast, ← zpow_add₀ (by norm_num)]; congr 1; push_cast; ring
      _ ≤ _ := by apply mul_le_mul_of_nonneg_left h3; positivity
  have hlo : pow2 ((a : Int) - b - 1) ≤ |x| := by
    rw [habs, le_div_iff₀ hdpos, pow2_eq]
    calc (2 : ℚ) ^ ((a : Int) - b - 1) * x.den ≤ (2 : ℚ) ^ ((a : Int) - b - 1) * 2 ^ (b + 1) := by
          apply mul_le_mul_of_nonneg_left h4.le; positivity
      _ = 2 ^ a := by
        rw [← zpow_natCast, ← zpow_natCast, ← zpow_add₀ (by norm_num)]; congr 1; push_cast; ring
      _ ≤ _ := h1
  unfold exponent
  simp only [← ha, ← hb]
  split
  · next h => exact ⟨h, hup⟩
  · next h => exact ⟨hlo, by simpa using h⟩

theorem pow2_lt {a b : Int} : pow2 a < pow2 b ↔ a < b := by
  rw [pow2_eq, pow2_eq]; exact zpow_lt_zpow_iff_right₀ (by norm_num)

theorem exponent_unique {x : ℚ} {e : Int} (h1 : pow2 e ≤ |x|) (h2 : |x| < pow2 (e + 1)) : exponent x = e := by
  have hx : x ≠ 0 := by rintro rfl; simp at h1; exact absurd (pow2_pos e) (by linarith)
  obtain ⟨k1, k2⟩ := exponent_spec hx
  have a := pow2_lt.mp (lt_of_le_of_lt h1 k2)
  have b := pow2_lt.mp (lt_of_le_of_lt k1 h2)
  omega

/-! ## Rounding to integers -/

theorem rhe_cases (x : ℚ) : (x - ⌊x⌋ < 1 / 2 ∧ roundHalfEven x = ⌊x⌋) ∨ (1 / 2 < x - ⌊x⌋ ∧ roundHalfEven x = ⌊x⌋ + 1) ∨
    (x - ⌊x⌋ = 1 / 2 ∧ ⌊x⌋ % 2 = 0 ∧ roundHalfEven x = ⌊x⌋) ∨
    (x - ⌊x⌋ = 1 / 2 ∧ ⌊x⌋ % 2 ≠ 0 ∧ roundHalfEven x = ⌊x⌋ + 1) := by
  have key : (x - Rat.floor x < 1 / 2 ∧ roundHalfEven x = Rat.floor x) ∨
      (1 / 2 < x - Rat.floor x ∧ roundHalfEven x = Rat.floor x + 1) ∨
      (x - Rat.floor x = 1 / 2 ∧ Rat.floor x % 2 = 0 ∧ roundHalfEven x = Rat.floor x) ∨
      (x - Rat.floor x = 1 / 2 ∧ Rat.floor x % 2 ≠ 0 ∧ roundHalfEven x = Rat.floor x + 1) := by
    unfold roundHalfEven
    simp only
    by_cases h1 : x - Rat.floor x < 1 / 2
    · left; exact ⟨h1, if_pos h1⟩
    rw [if_neg h1]
    by_cases h2 : 1 / 2 < x - Rat.floor x
    · right; left; exact ⟨h2, if_pos h2⟩
    rw [if_neg h2]
    have h3 : x - Rat.floor x = 1 / 2 := le_antisymm (not_lt.mp h2) (not_lt.mp h1)
    by_cases h4 : Rat.floor x % 2 = 0
    · right; right; left; exact ⟨h3, h4, if_pos h4⟩
    · right; right; right; exact ⟨h3, h4, if_neg h4⟩
  exact key

theorem rhe_bounds (x : ℚ) : |(roundHalfEven x : ℚ) - x| ≤ 1 / 2 := by
  have h1 := Int.floor_le x
  have h2 := Int.lt_floor_add_one x
  rw [abs_le]
  rcases rhe_cases x with ⟨h, e⟩ | ⟨h, e⟩ | ⟨h, -, e⟩ | ⟨h, -, e⟩ <;> rw [e] <;> (try push_cast) <;>
    constructor <;> linarith

theorem rhe_int (n : Int) : roundHalfEven (n : ℚ) = n := by
  rcases rhe_cases (n : ℚ) with ⟨h, e⟩ | ⟨h, e⟩ | ⟨h, -, e⟩ | ⟨h, -, e⟩ <;> rw [Int.floor_intCast] at h e <;>
    rw [e] <;> norm_num at h

theorem rhe_mono {x y : ℚ} (h : x ≤ y) : roundHalfEven x ≤ roundHalfEven y := by
  have hf := Int.floor_le_floor h
  rcases eq_or_lt_of_le hf with he | hl
  · rcases rhe_cases x with ⟨h1, e⟩ | ⟨h1, e⟩ | ⟨h1, h2, e⟩ | ⟨h1, h2, e⟩ <;>
      rcases rhe_cases y with ⟨k1, e'⟩ | ⟨k1, e'⟩ | ⟨k1, k2, e'⟩ | ⟨k1, k2, e'⟩ <;> rw [e, e'] <;> rw [he] at * <;>
      first | omega | (exfalso; linarith)
  · have hx : roundHalfEven x ≤ ⌊x⌋ + 1 := by
      rcases rhe_cases x with ⟨h, e⟩ | ⟨h, e⟩ | ⟨h, -, e⟩ | ⟨h, -, e⟩ <;> omega
    have hy : ⌊y⌋ ≤ roundHalfEven y := by
      rcases rhe_cases y with ⟨h, e⟩ | ⟨h, e⟩ | ⟨h, -, e⟩ | ⟨h, -, e⟩ <;> omega
    omega

/-! ## The nearest float -/

variable (f : BinFormat)

theorem nearest_le {x y : ℚ} (n : Int) (hy : y = n * pow2 (f.ulpExp x)) (h : x ≤ y) : f.nearest x ≤ y := by
  unfold BinFormat.nearest
  have hp := pow2_pos (f.ulpExp x)
  have : roundHalfEven (x / pow2 (f.ulpExp x)) ≤ n := by
    rw [← rhe_int n]
    exact rhe_mono (by rw [div_le_iff₀ hp]; rw [← hy]; exact h)
  rw [hy]
  exact mul_le_mul_of_nonneg_right (by exact_mod_cast this) hp.le

theorem le_nearest {x y : ℚ} (n : Int) (hy : y = n * pow2 (f.ulpExp x)) (h : y ≤ x) : y ≤ f.nearest x := by
  unfold BinFormat.nearest
  have hp := pow2_pos (f.ulpExp x)
  have : n ≤ roundHalfEven (x / pow2 (f.ulpExp x)) := by
    rw [← rhe_int n]
    exact rhe_mono (by rw [le_div_iff₀ hp]; rw [← hy]; exact h)
  rw [hy]
  exact mul_le_mul_of_nonneg_right (by exact_mod_cast this) hp.le

/-- A power of two that is a multiple of the last place. -/
theorem pow2_multiple {q e : Int} (h : q ≤ e) : ∃ n : Int, pow2 e = n * pow2 q := by
  obtain ⟨k, hk⟩ := Int.eq_ofNat_of_zero_le (show 0 ≤ e - q by omega)
  refine ⟨2 ^ k, ?_⟩
  rw [show e = (k : Int) + q by omega, pow2_add, pow2_nat]; push_cast; rfl

variable {f} (hp : 1 ≤ f.p)
include hp

theorem nearest_mono {x y : ℚ} (hx0 : x ≠ 0) (hy0 : y ≠ 0) (h : x ≤ y) : f.nearest x ≤ f.nearest y := by
  have zero_le : ∀ z : ℚ, 0 ≤ z → 0 ≤ f.nearest z := fun z hz => le_nearest f 0 (by simp) hz
  have le_zero : ∀ z : ℚ, z ≤ 0 → f.nearest z ≤ 0 := fun z hz => nearest_le f 0 (by simp) hz
  by_cases hq : f.ulpExp x = f.ulpExp y
  · unfold BinFormat.nearest
    rw [hq]
    have hpos := pow2_pos (f.ulpExp y)
    exact mul_le_mul_of_nonneg_right
      (by exact_mod_cast rhe_mono (div_le_div_of_nonneg_right h hpos.le)) hpos.le
  obtain ⟨x1, x2⟩ := exponent_spec hx0
  obtain ⟨y1, y2⟩ := exponent_spec hy0
  rcases lt_or_gt_of_ne hx0 with hx | hx
  · rcases lt_or_gt_of_ne hy0 with hy | hy
    · -- both negative: the exponent of `x` is the larger one
      rw [abs_of_neg hx] at x1 x2
      rw [abs_of_neg hy] at y1 y2
      have he : exponent y < exponent x := by
        have : exponent y < exponent x + 1 := pow2_lt.mp (by linarith)
        rcases Nat.lt_or_ge 0 0 with h0 | _
        · omega
        rcases lt_or_eq_of_le (Int.lt_add_one_iff.mp this) with h1 | h1
        · exact h1
        · exact absurd (by unfold BinFormat.ulpExp; rw [h1]) hq
      have hm : f.emin < exponent x := by
        by_contra hc
        apply hq
        unfold BinFormat.ulpExp
        rw [max_eq_right (by omega), max_eq_right (by omega)]
      obtain ⟨n, hn⟩ := pow2_multiple (q := f.ulpExp x) (e := exponent x) (by unfold BinFormat.ulpExp; omega)
      obtain ⟨m, hmm⟩ := pow2_multiple (q := f.ulpExp y) (e := exponent x) (by unfold BinFormat.ulpExp; omega)
      have a : f.nearest x ≤ -pow2 (exponent x) := nearest_le f (-n) (by rw [hn]; push_cast; ring) (by linarith)
      have b : -pow2 (exponent x) ≤ f.nearest y := by
        refine le_nearest f (-m) (by rw [hmm]; push_cast; ring) ?_
        have := pow2_le (show exponent y + 1 ≤ exponent x by omega)
        linarith
      linarith
    · exact (le_zero x hx.le).trans (zero_le y hy.le)
  · have hy : 0 < y := by linarith
    rw [abs_of_pos hx] at x1 x2
    rw [abs_of_pos hy] at y1 y2
    have he : exponent x < exponent y := by
      have : exponent x < exponent y + 1 := pow2_lt.mp (by linarith)
      rcases lt_or_eq_of_le (Int.lt_add_one_iff.mp this) with h1 | h1
      · exact h1
      · exact absurd (by unfold BinFormat.ulpExp; rw [h1]) hq
    have hm : f.emin < exponent y := by
      by_contra hc
      apply hq
      unfold BinFormat.ulpExp
      rw [max_eq_right (by omega), max_eq_right (by omega)]
    obtain ⟨n, hn⟩ := pow2_multiple (q := f.ulpExp x) (e := exponent y) (by unfold BinFormat.ulpExp; omega)
    obtain ⟨m, hmm⟩ := pow2_multiple (q := f.ulpExp y) (e := exponent y) (by unfold BinFormat.ulpExp; omega)
    have a : f.nearest x ≤ pow2 (exponent y) := by
      refine nearest_le f n hn ?_
      have := pow2_le (show exponent x + 1 ≤ exponent y by omega)
      linarith
    have b : pow2 (exponent y) ≤ f.nearest y := le_nearest f m hmm y1
    linarith

omit hp in
/-- Numbers that are multiples of their last place are fixed. -/
theorem nearest_fixed {x : ℚ} (n : Int) (h : x = n * pow2 (f.ulpExp x)) : f.nearest x = x :=
  le_antisymm (nearest_le f n h (le_refl x)) (le_nearest f n h (le_refl x))

/-- Numbers with at most `p` significant bits, not too small, are fixed. -/
theorem nearest_representable {x : ℚ} (n q : Int) (h : x = n * pow2 q) (hn : |n| ≤ 2 ^ f.p)
    (hq : f.emin - (f.p - 1) ≤ q) : f.nearest x = x := by
  by_cases hx : x = 0
  · subst hx; exact nearest_fixed 0 (by simp)
  obtain ⟨h1, h2⟩ := exponent_spec hx
  have habs : |x| = |(n : ℚ)| * pow2 q := by rw [h, abs_mul, abs_of_pos (pow2_pos q)]
  have hn' : |(n : ℚ)| ≤ 2 ^ f.p := by exact_mod_cast hn
  -- the last place of `x` divides `2 ^ q`, except when `|n| = 2 ^ p`
  rcases eq_or_lt_of_le hn' with he | hl
  · -- `x` is a power of two
    have hpw : |x| = pow2 (f.p + q) := by rw [habs, he, pow2_add, pow2_nat]
    have hex : exponent x = f.p + q := exponent_unique hpw.ge (by rw [hpw]; exact pow2_lt.mpr (by omega))
    obtain ⟨m, hm⟩ := pow2_multiple (q := f.ulpExp x) (e := f.p + q) (by unfold BinFormat.ulpExp; rw [hex]; omega)
    rcases abs_choice x with h3 | h3
    · exact nearest_fixed m (by rw [← hm, ← hpw, h3])
    · exact nearest_fixed (-m) (by push_cast; rw [neg_mul, ← hm, ← hpw, h3, neg_neg])
  · have hlt : |x| < pow2 (f.p + q) := by
      rw [habs, pow2_add, pow2_nat]
      exact mul_lt_mul_of_pos_right hl (pow2_pos q)
    have : exponent x < f.p + q := pow2_lt.mp (lt_of_le_of_lt h1 hlt)
    obtain ⟨m, hm⟩ := pow2_multiple (q := f.ulpExp x) (e := q) (by unfold BinFormat.ulpExp; omega)
    exact nearest_fixed (n * m) (by rw [Int.cast_mul, mul_assoc, ← hm]; exact h)

/-- The result of rounding has at most `p` significant bits. -/
theorem nearest_shape (x : ℚ) (hx : x ≠ 0) : ∃ n : Int, f.nearest x = n * pow2 (f.ulpExp x) ∧ |n| ≤ 2 ^ f.p ∧
    f.emin - (f.p - 1) ≤ f.ulpExp x := by
  refine ⟨_, rfl, ?_, by unfold BinFormat.ulpExp; omega⟩
  obtain ⟨h1, h2⟩ := exponent_spec hx
  have hpos := pow2_pos (f.ulpExp x)
  have hb : |x / pow2 (f.ulpExp x)| ≤ 2 ^ f.p := by
    rw [abs_div, abs_of_pos hpos, div_le_iff₀ hpos, ← pow2_nat, ← pow2_add]
    refine h2.le.trans (pow2_le ?_)
    unfold BinFormat.ulpExp
    omega
  rw [abs_le] at hb ⊢
  constructor
  · rw [show (-2 ^ f.p : Int) = roundHalfEven ((-2 ^ f.p : Int) : ℚ) from (rhe_int _).symm]
    exact rhe_mono (by push_cast; exact hb.1)
  · rw [show (2 ^ f.p : Int) = roundHalfEven ((2 ^ f.p : Int) : ℚ) from (rhe_int _).symm]
    exact rhe_mono (by push_cast; exact hb.2)

theorem nearest_idem (x : ℚ) (hx : x ≠ 0) : f.nearest (f.nearest x) = f.nearest x := by
  obtain ⟨n, h1, h2, h3⟩ := nearest_shape hp x hx
  exact nearest_representable hp n _ h1 h2 h3

omit hp in
/-- The relative error of rounding is at most `2 ^ -p`, except below the normal range. -/
theorem nearest_error (x : ℚ) (hx : pow2 f.emin ≤ |x|) : |f.nearest x - x| ≤ |x| * pow2 (-f.p) := by
  have hx0 : x ≠ 0 := by rintro rfl; simp at hx; exact absurd (pow2_pos f.emin) (by linarith)
  obtain ⟨h1, h2⟩ := exponent_spec hx0
  have he : f.emin ≤ exponent x := by
    have := pow2_lt.mp (lt_of_le_of_lt hx h2)
    omega
  have hpos := pow2_pos (f.ulpExp x)
  have hq : f.ulpExp x = exponent x + (-f.p) + 1 := by unfold BinFormat.ulpExp; omega
  have hb := rhe_bounds (x / pow2 (f.ulpExp x))
  have : |f.nearest x - x| ≤ 1 / 2 * pow2 (f.ulpExp x) := by
    unfold BinFormat.nearest
    have h3 : (roundHalfEven (x / pow2 (f.ulpExp x)) : ℚ) * pow2 (f.ulpExp x) - x =
        (roundHalfEven (x / pow2 (f.ulpExp x)) - x / pow2 (f.ulpExp x)) * pow2 (f.ulpExp x) := by
      field_simp
    rw [h3, abs_mul, abs_of_pos hpos]
    exact mul_le_mul_of_nonneg_right hb hpos.le
  refine this.trans ?_
  rw [hq, pow2_add, pow2_add, show pow2 1 = 2 by rw [pow2_eq]; norm_num]
  have := pow2_pos (-f.p)
  nlinarith

/-! ## Lawfulness -/

omit hp in
theorem rnd_eq {x : ℚ} : f.rnd x = if x = 0 then .fin 0 else if pow2 f.emax ≤ f.nearest x then .pinf
    else if f.nearest x ≤ -pow2 f.emax then .ninf else .fin (f.nearest x) := rfl

omit hp in
theorem nearest_zero : f.nearest 0 = 0 := nearest_fixed 0 (by simp)

omit hp in
theorem rnd_eq' {x : ℚ} : f.rnd x = if pow2 f.emax ≤ f.nearest x then .pinf
    else if f.nearest x ≤ -pow2 f.emax then .ninf else .fin (f.nearest x) := by
  rw [rnd_eq]
  split
  · next h =>
    have := pow2_pos f.emax
    rw [h, nearest_zero, if_neg (by linarith), if_neg (by linarith)]
  · rfl

theorem nearest_mono' {x y : ℚ} (h : x ≤ y) : f.nearest x ≤ f.nearest y := by
  by_cases hx : x = 0
  · subst hx; rw [nearest_zero]; exact le_nearest f 0 (by simp) h
  by_cases hy : y = 0
  · subst hy; rw [nearest_zero]; exact nearest_le f 0 (by simp) h
  exact nearest_mono hp hx hy h

theorem rnd_representable {x : ℚ} (n q : Int) (h : x = n * pow2 q) (hn : |n| ≤ 2 ^ f.p)
    (hq : f.emin - (f.p - 1) ≤ q) (hlt : |x| < pow2 f.emax) : f.rnd x = .fin x := by
  rw [rnd_eq', nearest_representable hp n q h hn hq]
  rw [abs_lt] at hlt
  rw [if_neg (by linarith), if_neg (by linarith)]

/-- Rounding to a binary format satisfies all the laws assumed of a rounding. -/
theorem binFormat_lawful (hmin : f.emin ≤ 0) (hmax : 1 ≤ f.emax) : (⟨f.rnd⟩ : Rounding ℚ).Lawful where
  not_nan x := by
    show (f.rnd x).isNan = false
    rw [rnd_eq']
    split
    · rfl
    split <;> rfl
  mono {x y} h := by
    show (f.rnd x).le (f.rnd y) = true
    have hm := nearest_mono' hp h
    have hpos := pow2_pos f.emax
    rw [rnd_eq', rnd_eq']
    split
    · rw [if_pos (by linarith)]; rfl
    split
    · split
      · rfl
      split
      · rfl
      · rfl
    split
    · rfl
    rw [if_neg (by linarith)]
    simpa [Fl.le] using hm
  zero := by show f.rnd 0 = _; rw [rnd_eq, if_pos rfl]
  one := by
    refine rnd_representable (x := 1) hp 1 0 (by simp [pow2_eq]) ?_ (by omega) ?_
    · rw [abs_one]; exact one_le_pow₀ (by norm_num)
    · rw [abs_one, show (1 : ℚ) = pow2 0 by simp [pow2_eq]]; exact pow2_lt.mpr (by omega)
  idem {x y} h := by
    show f.rnd y = _
    have h' : f.rnd x = .fin y := h
    rw [rnd_eq'] at h'
    split at h'
    · simp at h'
    split at h'
    · simp at h'
    next h1 h2 =>
    simp only [Fl.fin.injEq] at h'
    by_cases hx : x = 0
    · subst hx; rw [nearest_zero] at h'; rw [← h', rnd_eq, if_pos rfl]
    rw [rnd_eq', ← h', nearest_idem hp x hx, if_neg h1, if_neg h2]

/-- Natural numbers up to `2 ^ p` are exact. -/
theorem rnd_nat (hmin : f.emin ≤ 0) (hmax : f.p < f.emax) (n : Nat) (hn : n ≤ 2 ^ f.p) : f.rnd n = .fin n := by
  refine rnd_representable hp n 0 (by simp [pow2_eq]) ?_ (by omega) ?_
  · rw [abs_of_nonneg (by omega)]; exact_mod_cast hn
  · rw [abs_of_nonneg (by positivity)]
    calc (n : ℚ) ≤ 2 ^ f.p := by exact_mod_cast hn
      _ = pow2 f.p := (pow2_nat _).symm
      _ < _ := pow2_lt.mpr hmax

end SR
