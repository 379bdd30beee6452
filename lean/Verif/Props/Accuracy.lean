import Verif.Proofs.Accuracy
import Verif.Props.Binary
import Verif.Props.SearchSound
import Verif.Props.Options
/-
C97: the losses in `f64` and `f32` are accurate.
-/
namespace SR
namespace Accuracy

/-! ## The formats -/

theorem precise_format {f : BinFormat} (hp : 1 ≤ f.p) (hmin : f.emin ≤ 0) (hmax : 1 ≤ f.emax) :
    (⟨f.rnd⟩ : Rounding ℚ).Precise (pow2 (-f.p)) (pow2 f.emin) where
  lawful := binFormat_lawful hp hmin hmax
  u_nonneg := (pow2_pos _).le
  u_lt := by
    have : pow2 (-f.p) < pow2 0 := pow2_lt.mpr (by omega)
    rwa [show pow2 0 = 1 by rw [pow2_eq]; simp] at this
  tiny_pos := pow2_pos _
  error x y hx h := by
    rw [← rnd_fin_nearest h, mul_comm]
    exact nearest_error x hx

theorem rnd_pow2 {f : BinFormat} (hp : 1 ≤ f.p) (e : Int) (h1 : f.emin - (f.p - 1) ≤ e) (h2 : e < f.emax) :
    f.rnd (pow2 e) = .fin (pow2 e) ∧ f.rnd (-pow2 e) = .fin (-pow2 e) := by
  have hone : (1 : Int) ≤ 2 ^ f.p := one_le_pow₀ (by norm_num)
  have habs : |pow2 e| < pow2 f.emax := by rw [abs_of_pos (pow2_pos e)]; exact pow2_lt.mpr h2
  refine ⟨rnd_representable hp 1 e (by simp) (by simpa using hone) h1 habs,
    rnd_representable hp (-1) e (by simp) (by simpa using hone) h1 (by rwa [abs_neg])⟩

theorem pow2_sq (e : Int) : pow2 e * pow2 e = pow2 (2 * e) := by rw [← pow2_add]; congr 1; ring

/-- Sizes that fit: thresholds for the differences and the number of rows. -/
structure Fits (f : BinFormat) (t : Int) (n : Nat) : Prop where
  prec : 1 ≤ f.p
  emin : f.emin ≤ 2 * t - f.p
  neg : t ≤ 0
  min : f.emin ≤ 0
  max : (f.p : Int) < f.emax
  rows : n ≤ 2 ^ (f.p - 1)

theorem close_of_near {f : BinFormat} (hp : 1 ≤ f.p) (hmin : f.emin ≤ 0) (hmax : 1 ≤ f.emax) {m : Nat} (hm : m ≤ 2 ^ (f.p - 1)) {x y : ℚ} (hx : 0 ≤ x)
    (h : Near (pow2 (-f.p)) m x y) : |y - x| ≤ m * pow2 (1 - f.p) * x := by
  have P := precise_format hp hmin hmax
  have e : pow2 (1 - f.p) = 2 * pow2 (-f.p) := by
    rw [show (1 - f.p : Int) = 1 + (-f.p) by ring, pow2_add]; congr 1
  have hm' : (m : ℚ) * pow2 (-f.p) ≤ 1 / 2 := by
    have h1 : (m : ℚ) ≤ pow2 ((f.p - 1 : Nat) : Int) := by rw [pow2_nat]; exact_mod_cast hm
    have h2 := mul_le_mul_of_nonneg_right h1 (pow2_pos (-f.p)).le
    rw [← pow2_add, show (((f.p - 1 : Nat) : Int) + -f.p) = -1 by omega] at h2
    rwa [show pow2 (-1) = 1 / 2 by decide +kernel] at h2
  have := near_close P.u_nonneg P.u_lt hm' hx h
  rw [e]; linarith

theorem mean_format {f : BinFormat} {t : Int} {yhat y : List ℚ} (F : Fits f t (y.length + 4)) (lib : LossLib ℚ) (hlen : yhat.length = y.length)
    (hne : y ≠ []) (hr : Resolved (pow2 t) yhat y) (l : ℚ) :
    ((LossKind.mean .squared).loss ⟨f.rnd⟩ lib (yhat.map .fin) (y.map .fin) none = some (.fin l) →
      |l - meanSquare yhat y| ≤ (y.length + 4 : Nat) * pow2 (1 - f.p) * meanSquare yhat y) ∧
    ((LossKind.mean .abs).loss ⟨f.rnd⟩ lib (yhat.map .fin) (y.map .fin) none = some (.fin l) →
      |l - meanDistance yhat y| ≤ (y.length + 2 : Nat) * pow2 (1 - f.p) * meanDistance yhat y) := by
  obtain ⟨hp, he, ht, hmin, hmax, hrows⟩ := F
  have hmax1 : 1 ≤ f.emax := by omega
  have P := precise_format hp hmin hmax1
  have hn2 : y.length ≤ 2 ^ f.p := by
    have : (2 : Nat) ^ (f.p - 1) ≤ 2 ^ f.p := Nat.pow_le_pow_right (by norm_num) (by omega)
    omega
  have hnat : (⟨f.rnd⟩ : Rounding ℚ).ofNat y.length = .fin (y.length : ℚ) := rnd_nat hp hmin hmax _ hn2
  have hsize : pow2 f.emin * y.length ≤ pow2 (2 * t) := by
    have h1 : (y.length : ℚ) ≤ pow2 (f.p : Int) := by rw [pow2_nat]; exact_mod_cast hn2
    calc pow2 f.emin * y.length ≤ pow2 f.emin * pow2 (f.p : Int) := mul_le_mul_of_nonneg_left h1 (pow2_pos _).le
      _ = pow2 (f.emin + f.p) := (pow2_add _ _).symm
      _ ≤ pow2 (2 * t) := pow2_le (by omega)
  have r1 := rnd_pow2 (f := f) hp t (by omega) (by omega)
  have r2 := rnd_pow2 (f := f) hp (2 * t) (by omega) (by omega)
  have tiny1 : pow2 f.emin ≤ pow2 t := pow2_le (by omega)
  have tiny2 : pow2 f.emin ≤ pow2 (2 * t) := pow2_le (by omega)
  refine ⟨fun hl => ?_, fun hl => ?_⟩
  · have A := square_near P (lib := lib) tiny1 (by rw [pow2_sq]; exact tiny2) r1.1 r1.2 (by rw [pow2_sq]; exact r2.1)
    rw [pow2_sq] at A
    have := mean_near P A tiny2 r2.1 yhat y hlen hne hnat hsize hr l hl
    refine close_of_near hp hmin hmax1 hrows ?_ (by rwa [show 3 + y.length + 1 = y.length + 4 by omega] at this)
    refine div_nonneg (List.sum_nonneg fun x hx => ?_) (Nat.cast_nonneg _)
    obtain ⟨v, _, rfl⟩ := List.mem_map.mp hx
    exact sq_nonneg _
  · have A := distance_near P (lib := lib) tiny1 r1.1 r1.2
    have := mean_near P A tiny1 r1.1 yhat y hlen hne hnat (hsize.trans (pow2_le (by omega))) hr l hl
    refine close_of_near hp hmin hmax1 (by omega) ?_ (by rwa [show 1 + y.length + 1 = y.length + 2 by omega] at this)
    refine div_nonneg (List.sum_nonneg fun x hx => ?_) (Nat.cast_nonneg _)
    obtain ⟨v, _, rfl⟩ := List.mem_map.mp hx
    exact abs_nonneg _

/-- C97, mean squared error in `f64`: a loss that is finite differs from the exact mean of the squares by at most the relative amount
`(n + 4) / 2 ^ 52`, for `n` rows, unless a difference other than zero is below `2 ^ -484`. -/
theorem _root_.SR.C97_mse64 (lib : LossLib ℚ) (yhat y : List ℚ) (hlen : yhat.length = y.length) (hne : y ≠ [])
    (hn : y.length + 4 ≤ 2 ^ 52) (hr : Resolved (pow2 (-484)) yhat y) (l : ℚ)
    (hl : (LossKind.mean .squared).loss binary64 lib (yhat.map .fin) (y.map .fin) none = some (.fin l)) :
    |l - meanSquare yhat y| ≤ (y.length + 4 : Nat) * pow2 (-52) * meanSquare yhat y :=
  (mean_format (f := fmt64) ⟨by decide, by decide, by decide, by decide, by decide, hn⟩ lib hlen hne hr l).1 hl

/-- C97, mean absolute error in `f64`: at most `(n + 2) / 2 ^ 52`. -/
theorem _root_.SR.C97_mae64 (lib : LossLib ℚ) (yhat y : List ℚ) (hlen : yhat.length = y.length) (hne : y ≠ [])
    (hn : y.length + 4 ≤ 2 ^ 52) (hr : Resolved (pow2 (-484)) yhat y) (l : ℚ)
    (hl : (LossKind.mean .abs).loss binary64 lib (yhat.map .fin) (y.map .fin) none = some (.fin l)) :
    |l - meanDistance yhat y| ≤ (y.length + 2 : Nat) * pow2 (-52) * meanDistance yhat y :=
  (mean_format (f := fmt64) ⟨by decide, by decide, by decide, by decide, by decide, hn⟩ lib hlen hne hr l).2 hl

/-- C97, mean squared error in `f32`: at most `(n + 4) / 2 ^ 23`. -/
theorem _root_.SR.C97_mse32 (lib : LossLib ℚ) (yhat y : List ℚ) (hlen : yhat.length = y.length) (hne : y ≠ [])
    (hn : y.length + 4 ≤ 2 ^ 23) (hr : Resolved (pow2 (-51)) yhat y) (l : ℚ)
    (hl : (LossKind.mean .squared).loss binary32 lib (yhat.map .fin) (y.map .fin) none = some (.fin l)) :
    |l - meanSquare yhat y| ≤ (y.length + 4 : Nat) * pow2 (-23) * meanSquare yhat y :=
  (mean_format (f := fmt32) ⟨by decide, by decide, by decide, by decide, by decide, hn⟩ lib hlen hne hr l).1 hl

/-- C97, mean absolute error in `f32`: at most `(n + 2) / 2 ^ 23`. -/
theorem _root_.SR.C97_mae32 (lib : LossLib ℚ) (yhat y : List ℚ) (hlen : yhat.length = y.length) (hne : y ≠ [])
    (hn : y.length + 4 ≤ 2 ^ 23) (hr : Resolved (pow2 (-51)) yhat y) (l : ℚ)
    (hl : (LossKind.mean .abs).loss binary32 lib (yhat.map .fin) (y.map .fin) none = some (.fin l)) :
    |l - meanDistance yhat y| ≤ (y.length + 2 : Nat) * pow2 (-23) * meanDistance yhat y :=
  (mean_format (f := fmt32) ⟨by decide, by decide, by decide, by decide, by decide, hn⟩ lib hlen hne hr l).2 hl

/-- C97, ranking: if the mean squared error in `f64` puts the first predictions before the second, the exact one does so up to a factor
`(1 + δ) / (1 - δ)`, where `δ = (n + 4) / 2 ^ 52`. -/
theorem _root_.SR.C97_ranking64 (lib : LossLib ℚ) (yhat yhat' y : List ℚ) (hlen : yhat.length = y.length) (hlen' : yhat'.length = y.length)
    (hne : y ≠ []) (hn : y.length + 4 ≤ 2 ^ 52) (hr : Resolved (pow2 (-484)) yhat y) (hr' : Resolved (pow2 (-484)) yhat' y) (l l' : ℚ)
    (hl : (LossKind.mean .squared).loss binary64 lib (yhat.map .fin) (y.map .fin) none = some (.fin l))
    (hl' : (LossKind.mean .squared).loss binary64 lib (yhat'.map .fin) (y.map .fin) none = some (.fin l')) (hle : l ≤ l') :
    (1 - (y.length + 4 : Nat) * pow2 (-52)) * meanSquare yhat y ≤ (1 + (y.length + 4 : Nat) * pow2 (-52)) * meanSquare yhat' y := by
  have h1 := abs_le.mp (C97_mse64 lib yhat y hlen hne hn hr l hl)
  have h2 := abs_le.mp (C97_mse64 lib yhat' y hlen' hne hn hr' l' hl')
  linarith [h1.1, h2.2]

/-! ## Searches -/

theorem rows_fin {R : Rounding ℚ} {lib : LossLib ℚ} : ∀ (yhat y : List (Fl ℚ)) (zs : List ℚ), yhat.length = y.length →
    List.zipWith (PointLoss.squared.loss R lib) yhat y = zs.map Fl.fin → ∃ p q : List ℚ, yhat = p.map Fl.fin ∧ y = q.map Fl.fin
  | [], [], zs, _, _ => ⟨[], [], rfl, rfl⟩
  | [], _ :: _, zs, h, _ => by simp at h
  | _ :: _, [], zs, h, _ => by simp at h
  | a :: yhat, b :: y, [], _, h => by simp at h
  | a :: yhat, b :: y, z :: zs, hlen, h => by
    simp only [List.zipWith_cons_cons, List.map_cons, List.cons.injEq] at h
    obtain ⟨p, q, hp, hq⟩ := rows_fin yhat y zs (by simpa using hlen) h.2
    have h1 := h.1
    simp only [PointLoss.loss] at h1
    obtain ⟨x, _, hx, -, -⟩ := mul_fin h1
    obtain ⟨c, e, hc, he, -⟩ := add_fin hx
    have hb : b = .fin (-e) := by
      cases b <;> simp [Fl.neg] at he ⊢
      rw [← he, neg_neg]
    exact ⟨c :: p, -e :: q, by simp [hc, hp], by simp [hb, hq]⟩

theorem finite_rows {f : BinFormat} (hp : 1 ≤ f.p) (hmin : f.emin ≤ 0) (hmax : (f.p : Int) < f.emax) {lib : LossLib ℚ} {yhat y : List (Fl ℚ)}
    {l : ℚ} (hlen : yhat.length = y.length) (hne : y ≠ []) (hn : y.length ≤ 2 ^ f.p)
    (hl : (LossKind.mean .squared).loss ⟨f.rnd⟩ lib yhat y none = some (.fin l)) : ∃ p q : List ℚ, yhat = p.map Fl.fin ∧ y = q.map Fl.fin := by
  have hnil : y.isEmpty = false := by simpa [List.isEmpty_iff] using hne
  have hnat : (⟨f.rnd⟩ : Rounding ℚ).ofNat y.length = .fin (y.length : ℚ) := rnd_nat hp hmin hmax _ hn
  simp only [LossKind.loss, meanLoss, hlen, ne_eq, not_true, if_false, hnil, Bool.false_eq_true, Option.some.injEq, hnat] at hl
  obtain ⟨s, hs, -⟩ := div_fin hl
  obtain ⟨-, zs, hz⟩ := foldl_fin _ _ _ hs
  exact rows_fin yhat y zs hlen hz

section
variable [E : Env ℚ]

theorem accurate_of_scored (h64 : E.RT = binary64) {o : SOptions ℚ} {d : Dataset ℚ} (hloss : o.loss = .mean .squared) (hw : d.weights = none)
    (W : d.WF) (hn0 : 0 < d.x.cols) (hn : d.x.cols + 4 ≤ 2 ^ 52) {m : Member ℚ} (S : m.Scored o d) : m.AccurateLoss d := by
  obtain ⟨t, h1, -, h2, -⟩ := S
  refine ⟨t, h1, ?_⟩
  cases he : exprLoss o d t m.expr.consts with
  | none => left; rw [h2, he]; rfl
  | some v =>
    right
    rw [he, Option.getD_some] at h2
    unfold exprLoss at he
    split at he
    · rw [Option.filter_eq_some_iff] at he
      obtain ⟨h3, h4⟩ := he
      cases v with
      | fin l =>
        rw [hloss, hw, h64] at h3
        have hy : d.y.length = d.x.cols := W.1
        have hlen : (predictions d t m.expr.consts).length = d.y.length := by simp [predictions, hy]
        have hne : d.y ≠ [] := by intro h; rw [h] at hy; simp at hy; omega
        obtain ⟨p, q, hp, hq⟩ := finite_rows (f := fmt64) (by decide) (by decide) (by decide) hlen hne
          (by rw [hy]; exact le_trans (by omega) (show 2 ^ 52 ≤ 2 ^ fmt64.p by decide)) h3
        refine ⟨l, p, q, h2, hp, hq, fun hr => ?_⟩
        have hql : q.length = d.x.cols := by rw [← hy, hq, List.length_map]
        have hpl : p.length = q.length := by
          have := hlen
          rw [hp, hq, List.length_map, List.length_map] at this
          exact this
        rw [hp, hq] at h3
        have := C97_mse64 E.lossLib p q hpl (by intro h; rw [h] at hql; simp at hql; omega) (by rw [hql]; exact hn) hr l h3
        rwa [hql] at this
      | nan => cases h4
      | pinf => cases h4
      | ninf => cases h4
    · cases he

/-- C97, searches with workers in `f64` with the mean squared error and no weights: in every state that is reached, the loss of the best
member is accurate. -/
theorem _root_.SR.C97_best_parallel (h64 : E.RT = binary64) {o : SOptions ℚ} {d : Dataset ℚ} {ops : List OpId} {N : Nat}
    (Q : SearchSetting o d ops N) (hloss : o.loss = .mean .squared) (hw : d.weights = none) (hn : d.x.cols + 4 ≤ 2 ^ 52)
    {seeds : Nat → Rng (Fl ℚ)} {orderRng : Rng (Fl ℚ)} {nw : Nat} {p q : Par ℚ} {tr : List ParEvent}
    (hnew : Par.new o d seeds orderRng = some p) (hrun : ParRun o d nw p tr q) : q.shared.best.AccurateLoss d := by
  have hS := (C59_parallel Q hnew hrun).1
  exact accurate_of_scored h64 hloss hw Q.evol.data Q.evol.rows hn hS.bestScored

/-- C97, step-wise searches. -/
theorem _root_.SR.C97_best_stepwise (h64 : E.RT = binary64) {o : SOptions ℚ} {d : Dataset ℚ} {ops : List OpId} {N : Nat}
    (Q : SearchSetting o d ops N) (hloss : o.loss = .mean .squared) (hw : d.weights = none) (hn : d.x.cols + 4 ≤ 2 ^ 52)
    {seeds : Nat → Rng (Fl ℚ)} {orderRng : Rng (Fl ℚ)} {n k : Nat} {e e' : Engine ℚ}
    (hnew : Engine.new o d seeds orderRng = some e) (hrun : e.step o d n = some (k, e')) : e'.shared.best.AccurateLoss d :=
  accurate_of_scored h64 hloss hw Q.evol.data Q.evol.rows hn (C59_stepwise Q hnew hrun).bestScored

end

/-! ## Weights -/

section
variable {K : Type} [Field K] [LinearOrder K] [IsStrictOrderedRing K] {R : Rounding K} {u tiny : K}

/-- A sum of numbers that are not negative is finite if the exact sum, enlarged by the rounding errors, is below a number of the format. -/
theorem sum_finite (P : R.Precise u tiny) {t B : K} (ht : tiny ≤ t) (htr : R.rnd t = .fin t) (hB : R.rnd B = .fin B) {k : Nat} :
    ∀ (xs zs : List K), List.Forall₂ (fun x z => 0 ≤ x ∧ Near u k x z ∧ Big t z) xs zs →
    ∀ (m : Nat) (X s : K), 0 ≤ X → Near u (k + m) X s → Big t s → (1 + u) ^ (k + m + zs.length) * (X + xs.sum) ≤ B →
    ∃ S, (zs.map Fl.fin).foldl R.add (.fin s) = .fin S := by
  intro xs zs h
  have u0 := P.u_nonneg
  have u1 := P.u_lt
  induction h with
  | nil => intro m X s _ _ _ _; exact ⟨s, rfl⟩
  | @cons x z xs zs hd htl ih =>
    intro m X s hX hn hb hle
    obtain ⟨hx, hxz, hz⟩ := hd
    have hxs : 0 ≤ xs.sum := by
      refine List.sum_nonneg fun y hy => ?_
      clear ih hle
      induction htl with
      | nil => simp at hy
      | cons hd _ ih =>
        rcases List.mem_cons.mp hy with rfl | hy
        · exact hd.1
        · exact ih hy
    have h0 : 0 ≤ s := Near.nonneg u1 hX hn
    have h1 : 0 ≤ z := Near.nonneg u1 hx hxz
    have n1 : Near u (k + m) (X + x) (s + z) := Near.add hn (Near.mono u0 u1 (Nat.le_add_right k m) hx hxz)
    have hup : s + z ≤ B := by
      refine le_trans n1.2 (le_trans ?_ hle)
      rw [List.sum_cons]
      refine mul_le_mul (pow_le_pow_right₀ (by linarith) (by omega)) (by linarith) (by linarith) (pow_nonneg (by linarith) _)
    obtain ⟨s', hs', -, -, -⟩ := rnd_between P.lawful P.lawful.zero hB (add_nonneg h0 h1) hup
    have hbig : Big t (s + z) := by
      rcases hb with rfl | hb
      · simpa using hz
      · exact .inr (by linarith)
    have n2 : Near u (k + m + 1) (X + x) s' := Near.trans u0 u1 n1 (near_rnd P hbig ht hs')
    obtain ⟨S, hS⟩ := ih (m + 1) (X + x) s' (add_nonneg hX hx) n2 (big_rnd P hbig htr hs') (by
      rw [List.sum_cons, ← add_assoc] at hle
      rwa [show k + (m + 1) + zs.length = k + m + (z :: zs).length by simp; omega])
    exact ⟨S, by rw [List.map_cons, List.foldl_cons, show R.add (.fin s) (.fin z) = .fin s' from hs']; exact hS⟩

/-- The two-sided bound for a quotient of sums, in simple form. -/
theorem close_quotient (u0 : 0 ≤ u) (u1 : u < 1) {m n : Nat} (hm : ((m + n : Nat) : K) * u ≤ 1 / 2) {x y : K} (hx : 0 ≤ x)
    (h1 : (1 - u) ^ m * x ≤ y * (1 + u) ^ n) (h2 : y * (1 - u) ^ n ≤ (1 + u) ^ m * x) : |y - x| ≤ 2 * (m + n : Nat) * u * x := by
  have hq : 0 ≤ (1 - u ^ 2) := by nlinarith
  have hq1 : (1 - u ^ 2) ≤ 1 := by nlinarith [sq_nonneg u]
  have hy : 0 ≤ y := by
    by_contra c
    rw [not_le] at c
    have : 0 ≤ (1 - u) ^ m * x := mul_nonneg (pow_nonneg (by linarith) m) hx
    have : y * (1 + u) ^ n < 0 := mul_neg_of_neg_of_pos c (pow_pos (by linarith) n)
    linarith
  have lower : (1 - u) ^ (m + n) * x ≤ y := by
    calc (1 - u) ^ (m + n) * x = ((1 - u) ^ m * x) * (1 - u) ^ n := by ring
      _ ≤ (y * (1 + u) ^ n) * (1 - u) ^ n := mul_le_mul_of_nonneg_right h1 (pow_nonneg (by linarith) n)
      _ = y * (1 - u ^ 2) ^ n := by rw [mul_assoc, ← mul_pow]; ring_nf
      _ ≤ y * 1 := mul_le_mul_of_nonneg_left (pow_le_one₀ hq hq1) hy
      _ = y := mul_one y
  have upper : y * (1 - u) ^ (m + n) ≤ x := by
    calc y * (1 - u) ^ (m + n) = (y * (1 - u) ^ n) * (1 - u) ^ m := by ring
      _ ≤ ((1 + u) ^ m * x) * (1 - u) ^ m := mul_le_mul_of_nonneg_right h2 (pow_nonneg (by linarith) m)
      _ = (1 - u ^ 2) ^ m * x := by rw [mul_right_comm, ← mul_pow]; ring_nf
      _ ≤ 1 * x := mul_le_mul_of_nonneg_right (pow_le_one₀ hq hq1) hx
      _ = x := one_mul x
  have p1 := pow_lower u0 u1 (m + n)
  set M : K := ((m + n : Nat) : K) with hM
  have hMu : 0 ≤ M * u := mul_nonneg (Nat.cast_nonneg _) u0
  have a1 : (1 - M * u) * x ≤ y := le_trans (mul_le_mul_of_nonneg_right p1 hx) lower
  have a2 : y * (1 - M * u) ≤ x := le_trans (mul_le_mul_of_nonneg_left p1 hy) upper
  have a3 : y ≤ 2 * x := by nlinarith
  have a4 : M * u * y ≤ M * u * (2 * x) := mul_le_mul_of_nonneg_left a3 hMu
  rw [abs_le]
  constructor
  · have : 0 ≤ M * u * x := mul_nonneg hMu hx
    linarith
  · linarith

end

/-- C97, weights, in `f64`: the weighted mean of the squares differs from the exact one by at most the relative amount
`(2 n + 5) / 2 ^ 52`, the weighted mean of the distances by at most `(2 n + 3) / 2 ^ 52`. -/
theorem _root_.SR.C97_weighted64 (lib : LossLib ℚ) (w yhat y : List ℚ) (hw : w.length = y.length) (hlen : yhat.length = y.length)
    (hn : 2 * y.length + 5 ≤ 2 ^ 52) (hws : ∀ a ∈ w, a = 0 ∨ pow2 (-100) ≤ a) (hpos : 0 < w.sum) (hsum : w.sum ≤ pow2 100)
    (hr : Resolved (pow2 (-400)) yhat y) (l : ℚ) :
    ((LossKind.mean .squared).loss binary64 lib (yhat.map .fin) (y.map .fin) (some (w.map .fin)) = some (.fin l) →
      |l - weightedSquare w yhat y| ≤ (2 * y.length + 5 : Nat) * pow2 (-52) * weightedSquare w yhat y) ∧
    ((LossKind.mean .abs).loss binary64 lib (yhat.map .fin) (y.map .fin) (some (w.map .fin)) = some (.fin l) →
      |l - weightedDistance w yhat y| ≤ (2 * y.length + 3 : Nat) * pow2 (-52) * weightedDistance w yhat y) := by
  have P : binary64.Precise (pow2 (-53)) (pow2 (-1022)) := precise_format (f := fmt64) (by decide) (by decide) (by decide)
  have u0 := P.u_nonneg
  have u1 := P.u_lt
  have rp : ∀ e : Int, -1000 ≤ e → e ≤ 1000 → binary64.rnd (pow2 e) = .fin (pow2 e) ∧ binary64.rnd (-pow2 e) = .fin (-pow2 e) := fun e h1 h2 =>
    rnd_pow2 (f := fmt64) (by decide) e (le_trans (show fmt64.emin - (fmt64.p - 1) ≤ -1000 by decide) h1) (lt_of_le_of_lt h2 (by decide))
  have half : ∀ m : Nat, m ≤ 2 ^ 52 → (m : ℚ) * pow2 (-53) ≤ 1 / 2 := by
    intro m hm
    have h1 : (m : ℚ) ≤ pow2 52 := by rw [show (52 : Int) = ((52 : Nat) : Int) from rfl, pow2_nat]; exact_mod_cast hm
    have h2 := mul_le_mul_of_nonneg_right h1 (pow2_pos (-53)).le
    rw [← pow2_add] at h2
    rwa [show pow2 (52 + -53) = 1 / 2 by decide +kernel] at h2
  have hgrow : (1 + pow2 (-53)) ^ y.length ≤ 2 := by
    have h1 := pow_upper u0 u1 y.length
    have h2 := half y.length (by omega)
    have h3 : 0 < (1 + pow2 (-53)) ^ y.length := pow_pos (by linarith) _
    nlinarith
  have htwo : (2 : ℚ) * pow2 100 = pow2 101 := by rw [show (101 : Int) = 1 + 100 from rfl, pow2_add]; rfl
  have hgs : (1 + pow2 (-53)) ^ y.length * w.sum ≤ pow2 101 := by
    rw [← htwo]; exact mul_le_mul hgrow hsum hpos.le (by norm_num)
  have hWf : (binary64.sum (w.map Fl.fin)).isFinite = true := by
    obtain ⟨S, hS⟩ := sum_finite P (B := pow2 101) (pow2_le (by decide)) (rp (-100) (by decide) (by decide)).1 (rp 101 (by decide) (by decide)).1 w w
      (weights_near (u := pow2 (-53)) (pow2_pos _) w hws) 0 0 0 (le_refl _) (by simp [Near]) (.inl rfl) (by simpa [hw] using hgs)
    rw [show binary64.sum (w.map Fl.fin) = .fin S from hS]; rfl
  have hsmall : ∀ e : Int, -921 ≤ e → pow2 (-1022) * ((1 + pow2 (-53)) ^ y.length * w.sum) ≤ pow2 e := by
    intro e he
    calc pow2 (-1022) * ((1 + pow2 (-53)) ^ y.length * w.sum) ≤ pow2 (-1022) * pow2 101 := mul_le_mul_of_nonneg_left hgs (pow2_pos _).le
      _ = pow2 (-1022 + 101) := (pow2_add _ _).symm
      _ ≤ pow2 e := pow2_le (by omega)
  have hw0 : ∀ a ∈ w, 0 ≤ a := by
    intro a ha
    rcases hws a ha with h | h
    · exact h.ge
    · exact le_trans (pow2_pos _).le h
  have hnn : ∀ g : ℚ → ℚ, (∀ r, 0 ≤ g r) → 0 ≤ (List.zipWith (fun a r => a * g r) w (residuals yhat y)).sum / w.sum := by
    intro g hg
    refine div_nonneg (List.sum_nonneg fun x hx => ?_) hpos.le
    obtain ⟨i, hi, rfl⟩ := List.mem_iff_getElem.mp hx
    rw [List.getElem_zipWith]
    exact mul_nonneg (hw0 _ (List.getElem_mem _)) (hg _)
  have e52 : pow2 (-52) = 2 * pow2 (-53) := by decide +kernel
  have r1 := rp (-400) (by decide) (by decide)
  refine ⟨fun hl => ?_, fun hl => ?_⟩
  · have A := square_near P (lib := lib) (ρ := pow2 (-400)) (pow2_le (by decide)) (by rw [pow2_sq]; exact pow2_le (by decide)) r1.1 r1.2
      (by rw [pow2_sq]; exact (rp (2 * -400) (by decide) (by decide)).1)
    rw [pow2_sq] at A
    have e1 : pow2 (-100) * pow2 (2 * -400) = pow2 (-100 + 2 * -400) := (pow2_add _ _).symm
    obtain ⟨h1, h2⟩ := weighted_near P A (σ := pow2 (-100)) (pow2_le (by decide)) (rp (-100) (by decide) (by decide)).1 (pow2_pos _)
      (by rw [e1]; exact pow2_le (by decide)) (by rw [e1]; exact (rp _ (by decide) (by decide)).1) w yhat y hw hlen hws hpos hWf
      (by rw [e1]; exact hsmall _ (by decide)) hr l hl
    have := close_quotient u0 u1 (m := 3 + y.length + 2) (n := y.length) (half _ (by omega)) (hnn _ A.nonneg) h1 h2
    rw [show 3 + y.length + 2 + y.length = 2 * y.length + 5 by omega] at this
    rw [e52]
    refine le_trans this (le_of_eq ?_)
    rw [weightedSquare]; ring
  · have A := distance_near P (lib := lib) (ρ := pow2 (-400)) (pow2_le (by decide)) r1.1 r1.2
    have e1 : pow2 (-100) * pow2 (-400) = pow2 (-100 + -400) := (pow2_add _ _).symm
    obtain ⟨h1, h2⟩ := weighted_near P A (σ := pow2 (-100)) (pow2_le (by decide)) (rp (-100) (by decide) (by decide)).1 (pow2_pos _)
      (by rw [e1]; exact pow2_le (by decide)) (by rw [e1]; exact (rp _ (by decide) (by decide)).1) w yhat y hw hlen hws hpos hWf
      (by rw [e1]; exact hsmall _ (by decide)) hr l hl
    have := close_quotient u0 u1 (m := 1 + y.length + 2) (n := y.length) (half _ (by omega)) (hnn _ A.nonneg) h1 h2
    rw [show 1 + y.length + 2 + y.length = 2 * y.length + 3 by omega] at this
    rw [e52]
    refine le_trans this (le_of_eq ?_)
    rw [weightedDistance]; ring

/-- C97, the exception for weights: if the sum of the weights overflows while the weighted losses do not, the loss is zero. Two rows of
weight `2 ^ 1023` that are both missed by one half have the loss zero. -/
theorem _root_.SR.C97_weights_overflow (lib : LossLib ℚ) :
    (LossKind.mean .squared).loss binary64 lib [.fin (1 / 2), .fin (1 / 2)] [.fin 0, .fin 0] (some [.fin (pow2 1023), .fin (pow2 1023)]) =
      some (.fin 0) := by
  have : meanLoss binary64 (fun a b => let r := binary64.sub a b; binary64.mul r r) [.fin (1 / 2), .fin (1 / 2)] [.fin 0, .fin 0]
      (some [.fin (pow2 1023), .fin (pow2 1023)]) = some (.fin 0) := by decide +kernel
  exact this

/-- C97, the exception for small differences: the square of `2 ^ -538` underflows, so that an expression that misses its target has the loss zero. -/
theorem _root_.SR.C97_underflow (lib : LossLib ℚ) :
    (LossKind.mean .squared).loss binary64 lib [.fin (pow2 (-538))] [.fin 0] none = some (.fin 0) := by
  have : meanLoss binary64 (fun a b => let r := binary64.sub a b; binary64.mul r r) [.fin (pow2 (-538))] [.fin 0] none =
      some (.fin 0) := by decide +kernel
  exact this

/-! ## Concrete cases -/

/-- The hypotheses are met: predictions 1.1, 2.2, 3 for the targets 1, 2, 3 (as `f64`), whose loss is finite and not the exact mean. -/
example (lib : LossLib ℚ) :
    ∃ (a b l : ℚ), rnd64 (11 / 10) = .fin a ∧ rnd64 (22 / 10) = .fin b ∧
      (LossKind.mean .squared).loss binary64 lib ([a, b, 3].map .fin) ([1, 2, 3].map .fin) none = some (.fin l) ∧
      Resolved (pow2 (-484)) [a, b, 3] [1, 2, 3] ∧ l ≠ meanSquare [a, b, 3] [1, 2, 3] := by
  refine ⟨2476979795053773 / 2251799813685248, 2476979795053773 / 1125899906842624, ?l, by decide +kernel, by decide +kernel, ?h, ?_, ?_⟩
  case l => exact 4803839602528537 / 288230376151711744
  case h =>
    have : meanLoss binary64 (fun a b => let r := binary64.sub a b; binary64.mul r r)
        ([2476979795053773 / 2251799813685248, 2476979795053773 / 1125899906842624, 3].map .fin) ([1, 2, 3].map .fin) none =
        some (.fin (4803839602528537 / 288230376151711744)) := by decide +kernel
    exact this
  · intro r hr
    have h1 : pow2 (-484) ≤ 1 / 1000 := by decide +kernel
    simp only [residuals, List.zipWith_cons_cons, List.zipWith_nil_left, List.mem_cons, List.not_mem_nil, or_false] at hr
    rcases hr with rfl | rfl | rfl
    · right; exact h1.trans (by decide +kernel)
    · right; exact h1.trans (by decide +kernel)
    · left; norm_num
  · decide +kernel

open Demo in
/-- The best member of every step-wise search with the default options on three rows. -/
example (n k : Nat) (e e' : @Engine ℚ) (hnew : @Engine.new ℚ _ _ rustEnv { SOptions.default 2 id 52 with operators := Operators.of 2 opIds } data unitGen (unitGen 7) = some e)
    (hrun : @Engine.step ℚ _ _ rustEnv { SOptions.default 2 id 52 with operators := Operators.of 2 opIds } data n e = some (k, e')) :
    @Member.AccurateLoss rustEnv data e'.shared.best := by
  let _ : Env ℚ := rustEnv
  have h1 := (C75_default (E := rustEnv) (by decide) id 52 (Operators.of 2 opIds)).1
  have S := C75_setting (E := rustEnv) rustEnv_ok h1 (ops := opIds) rfl (by decide) data_wf (by decide) (by decide) (by decide)
  exact C97_best_stepwise (E := rustEnv) rfl S.search rfl rfl (by decide) hnew hrun

end Accuracy
end SR
