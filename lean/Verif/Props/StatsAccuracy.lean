import Verif.Props.Accuracy
import Verif.Props.Stats
import Mathlib.Tactic.Linarith
/-
C28: the normalised frequencies in `f64`.
-/
namespace SR
namespace Accuracy

/-- The normalised frequencies of a table of numbers between 1 and `2 ^ 53`, in `f64`. -/
theorem normalize_row {xs : List ℚ} (h1 : ∀ x ∈ xs, 1 ≤ x) (h2 : ∀ x ∈ xs, x ≤ 2 ^ 53) (hne : xs ≠ []) (hm : xs.length ≤ 2 ^ 51) :
    ∃ S : ℚ, binary64.sum (xs.map .fin) = .fin S ∧ 0 < S ∧
      ∀ x ∈ xs, ∃ p : ℚ, binary64.div (.fin x) (.fin S) = .fin p ∧ 0 < p ∧
        |p - x / xs.sum| ≤ (xs.length + 1 : Nat) * pow2 (-52) * (x / xs.sum) := by
  have P : binary64.Precise (pow2 (-53)) (pow2 (-1022)) := precise_format (f := fmt64) (by decide) (by decide) (by decide)
  have u0 := P.u_nonneg
  have u1 := P.u_lt
  have hL := P.lawful
  have half : ∀ m : Nat, m ≤ 2 ^ 52 → (m : ℚ) * pow2 (-53) ≤ 1 / 2 := by
    intro m hm
    have h1 : (m : ℚ) ≤ pow2 52 := by rw [show (52 : Int) = ((52 : Nat) : Int) from rfl, pow2_nat]; exact_mod_cast hm
    have h2 := mul_le_mul_of_nonneg_right h1 (pow2_pos (-53)).le
    rw [← pow2_add] at h2
    rwa [show pow2 (52 + -53) = 1 / 2 by decide +kernel] at h2
  have hgrow : (1 + pow2 (-53)) ^ xs.length ≤ 2 := by
    have h1 := pow_upper u0 u1 xs.length
    have h2 := half xs.length (by omega)
    have h3 : 0 < (1 + pow2 (-53)) ^ xs.length := pow_pos (by linarith) _
    nlinarith
  have hsum : ∀ l : List ℚ, (∀ x ∈ l, 1 ≤ x) → (∀ x ∈ l, x ≤ 2 ^ 53) → 0 ≤ l.sum ∧ l.sum ≤ l.length * 2 ^ 53 := by
    intro l
    induction l with
    | nil => simp
    | cons a l ih =>
      intro g1 g2
      obtain ⟨i1, i2⟩ := ih (fun x hx => g1 x (List.mem_cons_of_mem _ hx)) (fun x hx => g2 x (List.mem_cons_of_mem _ hx))
      have a1 := g1 a (List.mem_cons_self ..)
      have a2 := g2 a (List.mem_cons_self ..)
      rw [List.sum_cons, List.length_cons]
      push_cast
      constructor <;> linarith
  obtain ⟨s0, s1⟩ := hsum xs h1 h2
  have hpos : 0 < xs.sum := by
    cases xs with
    | nil => exact absurd rfl hne
    | cons a l =>
      have := (hsum l (fun x hx => h1 x (List.mem_cons_of_mem _ hx)) (fun x hx => h2 x (List.mem_cons_of_mem _ hx))).1
      have a1 := h1 a (List.mem_cons_self ..)
      rw [List.sum_cons]; linarith
  have hrefl : List.Forall₂ (fun x z => 0 ≤ x ∧ Near (pow2 (-53)) 0 x z ∧ Big 1 z) xs xs := by
    rw [List.forall₂_same]
    intro x hx
    exact ⟨by linarith [h1 x hx], Near.refl x, .inr (h1 x hx)⟩
  have tiny1 : pow2 (-1022) ≤ 1 := by decide +kernel
  have hbound : (1 + pow2 (-53)) ^ xs.length * xs.sum ≤ pow2 106 := by
    have hlen : (xs.length : ℚ) ≤ 2 ^ 51 := by exact_mod_cast hm
    calc (1 + pow2 (-53)) ^ xs.length * xs.sum ≤ 2 * (2 ^ 51 * 2 ^ 53) :=
          mul_le_mul hgrow (s1.trans (mul_le_mul_of_nonneg_right hlen (by positivity))) s0 (by norm_num)
      _ ≤ pow2 106 := by decide +kernel
  obtain ⟨S, hS⟩ := sum_finite P (B := pow2 106) tiny1 hL.one (rnd_pow2 (f := fmt64) (by decide) 106 (by decide) (by decide)).1 xs xs hrefl
    0 0 0 (le_refl _) (by simp [Near]) (.inl rfl) (by simpa using hbound)
  have hS : binary64.sum (xs.map .fin) = .fin S := hS
  obtain ⟨n1, b1⟩ := sum_near' P tiny1 hL.one hrefl hS
  rw [zero_add] at n1
  have hSpos : 0 < S := lt_of_lt_of_le (mul_pos (pow_pos (by linarith) _) hpos) n1.1
  have hS1 : 1 ≤ S := by
    rcases b1 with h | h
    · linarith
    · exact h
  have hSup : S ≤ pow2 106 := n1.2.trans hbound
  refine ⟨S, hS, hSpos, fun x hx => ?_⟩
  have x1 := h1 x hx
  have x2 := h2 x hx
  have q0 : 0 < x / S := div_pos (by linarith) hSpos
  have qlo : pow2 (-106) ≤ x / S := by
    rw [le_div_iff₀ hSpos]
    have := mul_le_mul_of_nonneg_left hSup (pow2_pos (-106)).le
    rw [← pow2_add, show pow2 (-106 + 106) = 1 by decide +kernel] at this
    linarith
  have qhi : x / S ≤ pow2 53 := by
    rw [div_le_iff₀ hSpos]
    have : (2 : ℚ) ^ 53 = pow2 53 := by decide +kernel
    rw [← this]
    nlinarith
  have hfin : ∃ p : ℚ, binary64.rnd (x / S) = .fin p ∧ pow2 (-106) ≤ p := by
    have m1 := hL.mono qlo
    have m2 := hL.mono qhi
    rw [show binary64.rnd (pow2 (-106)) = _ from (rnd_pow2 (f := fmt64) (by decide) (-106) (by decide) (by decide)).1] at m1
    rw [show binary64.rnd (pow2 53) = _ from (rnd_pow2 (f := fmt64) (by decide) 53 (by decide) (by decide)).1] at m2
    cases hr : binary64.rnd (x / S) with
    | fin p => rw [hr] at m1; exact ⟨p, rfl, by simpa [Fl.le] using m1⟩
    | nan => rw [hr] at m1; simp [Fl.le] at m1
    | pinf => rw [hr] at m2; simp [Fl.le] at m2
    | ninf => rw [hr] at m1; simp [Fl.le] at m1
  obtain ⟨p, hp, hplo⟩ := hfin
  refine ⟨p, by simpa [Rounding.div, hSpos.ne'] using hp, lt_of_lt_of_le (pow2_pos _) hplo, ?_⟩
  have herr := P.error _ p (by rw [abs_of_pos q0]; exact le_trans (pow2_le (by decide)) qlo) hp
  rw [abs_of_pos q0, abs_le] at herr
  have e0 : 0 ≤ x / xs.sum := div_nonneg (by linarith) hpos.le
  have k1 : x / xs.sum ≤ x / S * (1 + pow2 (-53)) ^ xs.length := by
    rw [div_mul_eq_mul_div, div_le_div_iff₀ hpos hSpos]
    have := mul_le_mul_of_nonneg_left n1.2 (show 0 ≤ x by linarith)
    linarith
  have k2 : x / S * (1 - pow2 (-53)) ^ xs.length ≤ x / xs.sum := by
    rw [div_mul_eq_mul_div, div_le_div_iff₀ hSpos hpos]
    have := mul_le_mul_of_nonneg_left n1.1 (show 0 ≤ x by linarith)
    linarith
  have pu : 0 ≤ (1 + pow2 (-53)) ^ xs.length := pow_nonneg (by linarith) _
  have pl : 0 ≤ (1 - pow2 (-53)) ^ xs.length := pow_nonneg (by linarith) _
  have c1 : (1 - pow2 (-53)) ^ 1 * (x / xs.sum) ≤ p * (1 + pow2 (-53)) ^ xs.length := by
    rw [pow_one]
    calc (1 - pow2 (-53)) * (x / xs.sum) ≤ (1 - pow2 (-53)) * (x / S * (1 + pow2 (-53)) ^ xs.length) :=
          mul_le_mul_of_nonneg_left k1 (by linarith)
      _ = ((1 - pow2 (-53)) * (x / S)) * (1 + pow2 (-53)) ^ xs.length := by ring
      _ ≤ p * (1 + pow2 (-53)) ^ xs.length := mul_le_mul_of_nonneg_right (by linarith [herr.1]) pu
  have c2 : p * (1 - pow2 (-53)) ^ xs.length ≤ (1 + pow2 (-53)) ^ 1 * (x / xs.sum) := by
    rw [pow_one]
    calc p * (1 - pow2 (-53)) ^ xs.length ≤ ((1 + pow2 (-53)) * (x / S)) * (1 - pow2 (-53)) ^ xs.length :=
          mul_le_mul_of_nonneg_right (by linarith [herr.2]) pl
      _ = (1 + pow2 (-53)) * (x / S * (1 - pow2 (-53)) ^ xs.length) := by ring
      _ ≤ (1 + pow2 (-53)) * (x / xs.sum) := mul_le_mul_of_nonneg_left k2 (by linarith)
  have := close_quotient u0 u1 (m := 1) (n := xs.length) (half _ (by omega)) e0 c1 c2
  rw [show 1 + xs.length = xs.length + 1 by omega] at this
  have e52 : pow2 (-52) = 2 * pow2 (-53) := by decide +kernel
  rw [e52]
  refine le_trans this (le_of_eq ?_)
  ring

theorem map_fins {l : List (Fl ℚ)} (h : ∀ v ∈ l, ∃ x : ℚ, v = .fin x) : ∃ xs : List ℚ, l = xs.map .fin := by
  induction l with
  | nil => exact ⟨[], rfl⟩
  | cons v l ih =>
    obtain ⟨x, rfl⟩ := h v (List.mem_cons_self ..)
    obtain ⟨xs, rfl⟩ := ih fun w hw => h w (List.mem_cons_of_mem _ hw)
    exact ⟨x :: xs, rfl⟩

/-- C28, in `f64`: after any history that records fewer than `2 ^ 53` sizes, normalising a table of `m` entries gives finite positive numbers,
each within the relative amount `(m + 1) / 2 ^ 52` of the exact share of its frequency; so they add up to one up to `(m + 1) / 2 ^ 52`. -/
theorem _root_.SR.C28_normalize64 (maxsize window : Nat) (ops : List StatsOp) (hm : 0 < maxsize) (hm' : maxsize ≤ 2 ^ 51)
    (hcount : 1 + (ops.map StatsOp.records).sum ≤ 2 ^ 53) :
    ∃ xs ps : List ℚ, (statsAfter binary64 maxsize window ops).frequencies = xs.map .fin ∧ xs.length = maxsize ∧ (∀ x ∈ xs, 1 ≤ x) ∧
      ((statsAfter binary64 maxsize window ops).normalize binary64).normalized = ps.map .fin ∧
      List.Forall₂ (fun x p => 0 < p ∧ |p - x / xs.sum| ≤ (maxsize + 1 : Nat) * pow2 (-52) * (x / xs.sum)) xs ps ∧
      |ps.sum - 1| ≤ (maxsize + 1 : Nat) * pow2 (-52) := by
  obtain ⟨hlen, hv⟩ := C28_at_least_one binary64 (precise_format (f := fmt64) (by decide) (by decide) (by decide)).lawful (2 ^ 53) binary64_counts
    maxsize window ops hcount
  obtain ⟨xs, hxs⟩ := map_fins fun v h => let ⟨x, hx, _⟩ := hv v h; ⟨x, hx⟩
  have hx : ∀ x ∈ xs, 1 ≤ x ∧ x ≤ 2 ^ 53 := by
    intro x hx
    obtain ⟨x', e, a, b⟩ := hv (.fin x) (by rw [hxs]; exact List.mem_map_of_mem hx)
    cases e
    exact ⟨a, b.trans (by exact_mod_cast hcount)⟩
  have hxlen : xs.length = maxsize := by rw [← hlen, hxs, List.length_map]
  have hne : xs ≠ [] := by rintro rfl; simp at hxlen; omega
  obtain ⟨S, hS, hSpos, hrow⟩ := normalize_row (fun x h => (hx x h).1) (fun x h => (hx x h).2) hne (by omega)
  rw [hxlen] at hrow
  have hps : ∀ l : List ℚ, (∀ x ∈ l, x ∈ xs) → ∃ ps : List ℚ, (l.map Fl.fin).map (fun v => binary64.div v (.fin S)) = ps.map .fin ∧
      List.Forall₂ (fun x p => 0 < p ∧ |p - x / xs.sum| ≤ (maxsize + 1 : Nat) * pow2 (-52) * (x / xs.sum)) l ps ∧
      |ps.sum - l.sum / xs.sum| ≤ (maxsize + 1 : Nat) * pow2 (-52) * (l.sum / xs.sum) := by
    intro l
    induction l with
    | nil => intro _; exact ⟨[], rfl, .nil, by simp⟩
    | cons x l ih =>
      intro h
      obtain ⟨ps, e1, e2, e3⟩ := ih fun y hy => h y (List.mem_cons_of_mem _ hy)
      obtain ⟨p, g1, g2, g3⟩ := hrow x (h x (List.mem_cons_self ..))
      refine ⟨p :: ps, by simp [g1, ← e1], .cons ⟨g2, g3⟩ e2, ?_⟩
      rw [List.sum_cons, List.sum_cons, add_div]
      rw [abs_le] at e3 g3 ⊢
      constructor <;> linarith [e3.1, e3.2, g3.1, g3.2]
  obtain ⟨ps, e1, e2, e3⟩ := hps xs fun x h => h
  have hpos : 0 < xs.sum := by
    by_contra c
    cases xs with
    | nil => exact hne rfl
    | cons a l =>
      have a1 := (hx a (List.mem_cons_self ..)).1
      have : 0 ≤ l.sum := List.sum_nonneg fun y hy => by linarith [(hx y (List.mem_cons_of_mem _ hy)).1]
      rw [List.sum_cons] at c; linarith
  rw [div_self hpos.ne', mul_one] at e3
  refine ⟨xs, ps, hxs, hxlen, fun x h => (hx x h).1, ?_, e2, e3⟩
  have hf : (binary64.sum (statsAfter binary64 maxsize window ops).frequencies).feq (.fin 0) = false := by
    rw [hxs, hS]; simp [Fl.feq, Fl.le, hSpos]
  rw [Stats.normalize, if_neg (by simp [hf])]
  simp only
  rw [hxs, hS]
  exact e1

/-- The hypotheses are met: three sizes recorded in a table of three; a share that is not exact. -/
example : 1 + (([.update 1, .updateAll [2, 2]] : List StatsOp).map StatsOp.records).sum ≤ 2 ^ 53 ∧
    ((statsAfter binary64 3 100000 [.update 1, .updateAll [2, 2]]).normalize binary64).normalized =
      [.fin (6004799503160661 / 18014398509481984), .fin (1 / 2), .fin (6004799503160661 / 36028797018963968)] := by
  refine ⟨by decide, by decide +kernel⟩

end Accuracy
end SR
