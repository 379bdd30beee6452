import Verif.Props.Binary
import Verif.Model.Random
import Mathlib.Tactic.Linarith
import Mathlib.Tactic.Positivity
import Mathlib.Algebra.Order.Ring.Pow
/-
Knuth's loop of the Poisson sampler ends, in `f64`, whatever the draws are.
-/
namespace SR

/-- What `rng.f64()` returns: an `f64` in `[0, 1)`. -/
def UnitDraw (v : Fl ℚ) : Prop := ∃ x : ℚ, v = .fin x ∧ binary64.rnd x = .fin x ∧ 0 ≤ x ∧ x < 1

/-- The largest `f64` below one. -/
theorem unit_le {x : ℚ} (h : binary64.rnd x = .fin x) (h0 : 0 ≤ x) (h1 : x < 1) : x ≤ 1 - pow2 (-53) := by
  by_contra hc
  push_neg at hc
  have hp : 1 ≤ fmt64.p := by decide
  have hx : x ≠ 0 := by
    rintro rfl
    have : pow2 (-53) ≤ 1 := by decide +kernel
    linarith
  have hn : fmt64.nearest x = x := rnd_fin_nearest h
  have he : exponent x = -1 := by
    apply exponent_unique
    · rw [abs_of_nonneg h0]
      have : pow2 (-1) ≤ 1 - pow2 (-53) := by decide +kernel
      linarith
    · rw [abs_of_nonneg h0]
      have : pow2 (-1 + 1) = 1 := by decide +kernel
      linarith
  obtain ⟨n, e, -⟩ := nearest_shape (f := fmt64) hp x hx
  have hu : fmt64.ulpExp x = -53 := by unfold BinFormat.ulpExp; rw [he]; decide
  rw [hn, hu] at e
  have hpos : (0 : ℚ) < pow2 (-53) := pow2_pos _
  have h53 : (1 : ℚ) = 2 ^ 53 * pow2 (-53) := by decide +kernel
  have h2 : (n : ℚ) < 2 ^ 53 := by
    by_contra hh
    push_neg at hh
    have := mul_le_mul_of_nonneg_right hh hpos.le
    linarith
  have h3 : (2 ^ 53 - 1 : ℚ) < n := by
    by_contra hh
    push_neg at hh
    have := mul_le_mul_of_nonneg_right hh hpos.le
    linarith
  have h2' : n < 2 ^ 53 := by exact_mod_cast h2
  have h3' : 2 ^ 53 - 1 < n := by exact_mod_cast h3
  omega

/-- The factor by which the product shrinks at least. -/
def shrink : ℚ := 1 - pow2 (-106)

/-- One multiplication: the product stays a number in `[0, 1]` and either is tiny or shrinks. -/
theorem product_shrinks {p u : ℚ} (hp0 : 0 ≤ p) (hp1 : p ≤ 1) (hu0 : 0 ≤ u) (hu : u ≤ 1 - pow2 (-53)) :
    ∃ q : ℚ, binary64.rnd (p * u) = .fin q ∧ 0 ≤ q ∧ q ≤ 1 ∧ (q ≤ pow2 (-1022) ∨ q ≤ p * shrink) := by
  have hf : 1 ≤ fmt64.p := by decide
  have h53 : (0 : ℚ) < pow2 (-53) := pow2_pos _
  have hu1 : u ≤ 1 := by linarith
  have hpu0 : 0 ≤ p * u := mul_nonneg hp0 hu0
  have hpu1 : p * u ≤ 1 := by nlinarith
  obtain ⟨q, e, q0, q1, -⟩ := rnd_between binary64_lawful binary64_lawful.zero binary64_lawful.one hpu0 hpu1
  refine ⟨q, e, q0, q1, ?_⟩
  have hn : fmt64.nearest (p * u) = q := rnd_fin_nearest e
  by_cases hsmall : p * u ≤ pow2 (-1022)
  · left
    have e2 : fmt64.nearest (pow2 (-1022)) = pow2 (-1022) :=
      nearest_representable (f := fmt64) hf 1 (-1022) (by simp) (by decide) (by decide)
    rw [← hn, ← e2]
    exact nearest_mono' hf hsmall
  · right
    push_neg at hsmall
    have herr := nearest_error (f := fmt64) (p * u) (by rw [abs_of_nonneg hpu0]; exact hsmall.le)
    rw [hn, abs_of_nonneg hpu0] at herr
    have h1 : q - p * u ≤ p * u * pow2 (-53) := le_trans (le_abs_self _) herr
    have h2 : p * u ≤ p * (1 - pow2 (-53)) := mul_le_mul_of_nonneg_left hu hp0
    have h3 : (1 - pow2 (-53)) * (1 + pow2 (-53)) = shrink := by decide +kernel
    calc q ≤ p * u * (1 + pow2 (-53)) := by linarith
      _ ≤ p * (1 - pow2 (-53)) * (1 + pow2 (-53)) := mul_le_mul_of_nonneg_right h2 (by linarith)
      _ = p * shrink := by rw [mul_assoc, h3]

theorem shrink_pos : 0 ≤ shrink := by decide +kernel

theorem knuthLoop_step (lim : Fl ℚ) (n k : Nat) {p x q : ℚ} {g : Rng (Fl ℚ)} (e : g.floats 0 = .fin x)
    (eq : binary64.rnd (p * x) = .fin q) : knuthLoop binary64 lim (n + 1) k (.fin p) g
      = if (Fl.fin q : Fl ℚ).le lim then some (k, g.nextFloat) else knuthLoop binary64 lim n (k + 1) (.fin q) g.nextFloat := by
  have h : binary64.mul (.fin p) (g.floats 0) = .fin q := by rw [e]; exact eq
  rw [← h]
  show (if (binary64.mul (.fin p) (g.floats 0)).le lim = true then pure k
    else knuthLoop binary64 lim n (k + 1) (binary64.mul (.fin p) (g.floats 0)) : Rand (Fl ℚ) Nat) g.nextFloat = _
  split <;> rfl

/-- The loop returns within `n + 1` draws once `shrink ^ (n + 1)` times the product is below the limit. -/
theorem knuthLoop_returns {l : ℚ} (hl : pow2 (-1022) ≤ l) : ∀ (n extra k : Nat) (p : ℚ) (g : Rng (Fl ℚ)), 0 ≤ p → p ≤ 1 →
    p * shrink ^ (n + 1) ≤ l → (∀ i, UnitDraw (g.floats i)) →
    ∃ r, knuthLoop binary64 (.fin l) (n + 1 + extra) k (.fin p) g = some r := by
  intro n
  induction n with
  | zero =>
    intro extra k p g h0 h1 hb hg
    obtain ⟨x, e, hx, x0, x1⟩ := hg 0
    obtain ⟨q, eq, -, -, hq⟩ := product_shrinks h0 h1 x0 (unit_le hx x0 x1)
    have hle : (Fl.fin q : Fl ℚ).le (.fin l) = true := by
      simp only [Fl.le, decide_eq_true_eq]
      rcases hq with h | h
      · linarith
      · simp only [Nat.zero_add, pow_one] at hb; linarith
    refine ⟨(k, g.nextFloat), ?_⟩
    rw [show 0 + 1 + extra = extra + 1 by omega]
    rw [knuthLoop_step _ _ _ e eq, if_pos hle]
  | succ n ih =>
    intro extra k p g h0 h1 hb hg
    obtain ⟨x, e, hx, x0, x1⟩ := hg 0
    obtain ⟨q, eq, q0, q1, hq⟩ := product_shrinks h0 h1 x0 (unit_le hx x0 x1)
    by_cases hle : (Fl.fin q : Fl ℚ).le (.fin l) = true
    · refine ⟨(k, g.nextFloat), ?_⟩
      rw [show n + 1 + 1 + extra = (n + 1 + extra) + 1 by omega]
      rw [knuthLoop_step _ _ _ e eq, if_pos hle]
    · have hq' : q ≤ p * shrink := by
        rcases hq with h | h
        · simp only [Fl.le, decide_eq_true_eq, not_le] at hle; linarith
        · exact h
      obtain ⟨r, hr⟩ := ih extra (k + 1) q g.nextFloat q0 q1 (by
        have h2 : q * shrink ^ (n + 1) ≤ p * shrink * shrink ^ (n + 1) :=
          mul_le_mul_of_nonneg_right hq' (pow_nonneg shrink_pos _)
        have h3 : p * shrink * shrink ^ (n + 1) = p * shrink ^ (n + 1 + 1) := by rw [pow_succ' shrink (n + 1)]; ring
        linarith) (fun i => hg (i + 1))
      refine ⟨r, ?_⟩
      rw [show n + 1 + 1 + extra = (n + 1 + extra) + 1 by omega]
      rw [knuthLoop_step _ _ _ e eq, if_neg hle]
      exact hr

/-- The number of draws within which the loop always ends for a limit of at least `2 ^ -44`. -/
theorem shrink_pow_le (n : Nat) (h : 2 ^ 150 ≤ n) : shrink ^ n ≤ pow2 (-44) := by
  have h106 : (0 : ℚ) < pow2 (-106) := pow2_pos _
  -- Bernoulli for the inverse
  have hb : (1 + n * pow2 (-106)) * shrink ^ n ≤ 1 := by
    clear h
    induction n with
    | zero => simp
    | succ n ih =>
      have hs : shrink ≤ 1 := by unfold shrink; linarith
      have hpn : (0 : ℚ) ≤ shrink ^ n := pow_nonneg shrink_pos _
      have hk : (1 + ((n + 1 : Nat) : ℚ) * pow2 (-106)) * shrink ≤ 1 + n * pow2 (-106) := by
        unfold shrink
        push_cast
        nlinarith [mul_nonneg (Nat.cast_nonneg (α := ℚ) n) (mul_nonneg h106.le h106.le), mul_nonneg h106.le h106.le]
      calc (1 + ((n + 1 : Nat) : ℚ) * pow2 (-106)) * shrink ^ (n + 1)
          = ((1 + ((n + 1 : Nat) : ℚ) * pow2 (-106)) * shrink) * shrink ^ n := by rw [pow_succ']; ring
        _ ≤ (1 + n * pow2 (-106)) * shrink ^ n := mul_le_mul_of_nonneg_right hk hpn
        _ ≤ 1 := ih
  have hn : (2 ^ 150 : ℚ) ≤ n := by exact_mod_cast h
  have h44 : (2 : ℚ) ^ 44 ≤ 1 + n * pow2 (-106) := by
    have h1 : (2 ^ 150 : ℚ) * pow2 (-106) = 2 ^ 44 := by decide +kernel
    have h2 := mul_le_mul_of_nonneg_right hn h106.le
    linarith
  have hpn : (0 : ℚ) ≤ shrink ^ n := pow_nonneg shrink_pos _
  have h5 : (2 : ℚ) ^ 44 * shrink ^ n ≤ 1 := le_trans (mul_le_mul_of_nonneg_right h44 hpn) hb
  have h6 : (1 : ℚ) = 2 ^ 44 * pow2 (-44) := by decide +kernel
  rw [h6] at h5
  exact le_of_mul_le_mul_left h5 (by positivity)

/-- Knuth's loop returns on every stream of `f64` draws. -/
theorem knuth_returns {l : ℚ} (hl : pow2 (-44) ≤ l) {fuel : Nat} (hf : 2 ^ 150 ≤ fuel) (g : Rng (Fl ℚ))
    (hg : ∀ i, UnitDraw (g.floats i)) : ∃ r, knuthLoop binary64 (.fin l) fuel 0 (.fin 1) g = some r := by
  obtain ⟨n, rfl⟩ : ∃ n, fuel = n + 1 := ⟨fuel - 1, by
    have : 0 < 2 ^ 150 := by positivity
    omega⟩
  have h1 : pow2 (-1022) ≤ l := le_trans (pow2_le (by decide)) hl
  have := knuthLoop_returns h1 n 0 0 1 g (by norm_num) le_rfl (by rw [one_mul]; exact le_trans (shrink_pow_le _ hf) hl) hg
  simpa using this

end SR
