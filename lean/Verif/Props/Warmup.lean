import Verif.Model.Search
import Verif.Props.Binary
import Verif.Spec.Demo
/-
C43: the warm-up of the size limit, in the `f32` arithmetic of the code.
-/
namespace SR
variable [E : Env ℚ]

/-- The environment computes the warm-up like Rust: `f32` is IEEE binary32, and `x.floor() as usize` rounds down,
saturating (NaN gives 0). -/
structure WarmupEnv (E : Env ℚ) : Prop where
  r32 : E.R32 = binary32
  floor : ∀ x : ℚ, 0 ≤ x → E.floorUsize (.fin x) = min ⌊x⌋.toNat usizeMax

theorem near32_nat_bounds (n : Nat) (h1 : 1 ≤ n) (h : n ≤ 2 ^ 64) :
    1 ≤ fmt32.nearest n ∧ fmt32.nearest n ≤ pow2 64 := by
  have hp : 1 ≤ fmt32.p := by decide
  have e1 : fmt32.nearest 1 = 1 := nearest_representable (f := fmt32) hp 1 0 (by simp [pow2_eq]) (by decide) (by decide)
  have e2 : fmt32.nearest (pow2 64) = pow2 64 :=
    nearest_representable (f := fmt32) hp 1 64 (by simp) (by decide) (by decide)
  constructor
  · rw [← e1]; exact nearest_mono' hp (by exact_mod_cast h1)
  · rw [← e2]; refine nearest_mono' hp ?_
    rw [show (64 : Int) = ((64 : Nat) : Int) from rfl, pow2_nat]; exact_mod_cast h

theorem rnd32_small {x : ℚ} (h0 : 0 ≤ fmt32.nearest x) (h1 : fmt32.nearest x ≤ pow2 64) :
    binary32.rnd x = .fin (fmt32.nearest x) := by
  show fmt32.rnd x = _
  have h2 : pow2 64 < pow2 fmt32.emax := pow2_lt.mpr (by decide)
  have h3 := pow2_pos fmt32.emax
  rw [rnd_eq', if_neg (by linarith), if_neg (by linarith)]

/-- The fraction of the search that has elapsed, as the code computes it. -/
theorem fraction_spec (e n : Nat) (he : e ≤ n) (hn : 1 ≤ n) (hb : n ≤ 2 ^ 64) :
    ∃ r : ℚ, binary32.div (binary32.ofNat e) (binary32.ofNat n) = .fin r ∧ 0 ≤ r ∧ r ≤ 1 ∧ (1 ≤ e → pow2 (-64) ≤ r) ∧
      r = fmt32.nearest (fmt32.nearest e / fmt32.nearest n) := by
  have hp : 1 ≤ fmt32.p := by decide
  obtain ⟨n1, n2⟩ := near32_nat_bounds n hn hb
  have hmono : fmt32.nearest e ≤ fmt32.nearest n := nearest_mono' hp (by exact_mod_cast he)
  have h0 : 0 ≤ fmt32.nearest e := le_nearest fmt32 0 (by simp) (by positivity)
  have hpos : 0 < fmt32.nearest n := by linarith
  have hd1 : fmt32.nearest e / fmt32.nearest n ≤ 1 := by rw [div_le_one hpos]; exact hmono
  have hd0 : 0 ≤ fmt32.nearest e / fmt32.nearest n := by positivity
  have e1 : fmt32.nearest 1 = 1 := nearest_representable (f := fmt32) hp 1 0 (by simp [pow2_eq]) (by decide) (by decide)
  have r0 : 0 ≤ fmt32.nearest (fmt32.nearest e / fmt32.nearest n) := le_nearest fmt32 0 (by simp) hd0
  have r1 : fmt32.nearest (fmt32.nearest e / fmt32.nearest n) ≤ 1 := by
    have := nearest_mono' hp hd1
    rwa [e1] at this
  have h64 : (1 : ℚ) ≤ pow2 64 := by
    rw [show (64 : Int) = ((64 : Nat) : Int) from rfl, pow2_nat]; norm_num
  refine ⟨_, ?_, r0, r1, fun h1 => ?_, rfl⟩
  · unfold Rounding.ofNat
    rw [rnd32_small h0 (by linarith), rnd32_small hpos.le n2]
    show (if fmt32.nearest (n : ℚ) = 0 then _ else binary32.rnd _) = _
    rw [if_neg hpos.ne', rnd32_small r0 (by linarith)]
  · have e2 : fmt32.nearest (pow2 (-64)) = pow2 (-64) :=
      nearest_representable (f := fmt32) hp 1 (-64) (by simp) (by decide) (by decide)
    rw [← e2]
    refine nearest_mono' hp ?_
    obtain ⟨m1, -⟩ := near32_nat_bounds e h1 (by omega)
    rw [le_div_iff₀ hpos]
    calc pow2 (-64) * fmt32.nearest n ≤ pow2 (-64) * pow2 64 :=
          mul_le_mul_of_nonneg_left n2 (pow2_pos _).le
      _ = 1 := by rw [← pow2_add]; simp [pow2_eq]
      _ ≤ _ := m1

/-- The value of the ramp during warm-up: monotone in the fraction and at most `a`. -/
theorem ramp_spec (a : Nat) (ha : 2 * a + 1 ≤ 2 ^ 24) (r b : ℚ) (r0 : 0 ≤ r) (r1 : r ≤ 1) (hr : r ≠ 0 → pow2 (-64) ≤ r)
    (hb : 0 < b) (hrb : r ≤ b) :
    ∃ t : ℚ, binary32.div (binary32.mul (binary32.ofNat a) (.fin r)) (.fin b) = .fin t ∧ 0 ≤ t ∧ ⌊t⌋ ≤ (a : Int) ∧
      t = fmt32.nearest (fmt32.nearest (a * r) / b) := by
  have hp : 1 ≤ fmt32.p := by decide
  have hofa : binary32.ofNat a = .fin (a : ℚ) :=
    rnd_nat (f := fmt32) hp (by decide) (by decide) a (by show a ≤ 2 ^ 24; omega)
  have har0 : (0 : ℚ) ≤ a * r := by positivity
  have s0 : 0 ≤ fmt32.nearest (a * r) := le_nearest fmt32 0 (by simp) har0
  have haq : (2 * a + 1 : ℚ) ≤ 2 ^ 24 := by exact_mod_cast ha
  have hs : fmt32.nearest (a * r) ≤ a * r * (1 + pow2 (-24)) := by
    by_cases h0 : (a : ℚ) * r = 0
    · rw [h0, nearest_zero]; simp
    · have ha0 : a ≠ 0 := by rintro rfl; simp at h0
      have hr0 : r ≠ 0 := by rintro rfl; simp at h0
      have h1 : (1 : ℚ) ≤ a := by exact_mod_cast Nat.one_le_iff_ne_zero.mpr ha0
      have h2 := hr hr0
      have hge : pow2 fmt32.emin ≤ |(a : ℚ) * r| := by
        rw [abs_of_nonneg har0]
        have h3 : pow2 fmt32.emin ≤ pow2 (-64) := pow2_le (by decide)
        nlinarith
      have := nearest_error (f := fmt32) _ hge
      rw [abs_of_nonneg har0] at this
      have h4 := (abs_le.mp this).2
      have h5 : pow2 (-(fmt32.p : Int)) = pow2 (-24) := rfl
      rw [h5] at h4
      linarith
  have hq : pow2 (-24) = 1 / 2 ^ 24 := by rw [pow2_eq]; norm_num [zpow_neg]
  have hdiv : fmt32.nearest (a * r) / b ≤ a + 1 / 2 := by
    rw [div_le_iff₀ hb]
    have h1 : (a : ℚ) * r * (1 + pow2 (-24)) ≤ a * b * (1 + pow2 (-24)) := by
      apply mul_le_mul_of_nonneg_right _ (by have := pow2_pos (-24); linarith)
      exact mul_le_mul_of_nonneg_left hrb (by positivity)
    have h2 : (a : ℚ) * (1 + pow2 (-24)) ≤ a + 1 / 2 := by
      rw [hq]
      have : (a : ℚ) * (1 / 2 ^ 24) ≤ 1 / 2 := by
        rw [mul_one_div, div_le_iff₀ (by norm_num)]; linarith
      linarith
    nlinarith
  have hhalf : fmt32.nearest (a + 1 / 2) = a + 1 / 2 := by
    refine nearest_representable (f := fmt32) hp (2 * a + 1) (-1) ?_ ?_ (by decide)
    · rw [pow2_eq]; push_cast; rw [zpow_neg_one]; ring
    · rw [abs_of_nonneg (by omega)]; exact_mod_cast ha
  have d0 : 0 ≤ fmt32.nearest (a * r) / b := by positivity
  have t0 : 0 ≤ fmt32.nearest (fmt32.nearest (a * r) / b) := le_nearest fmt32 0 (by simp) d0
  have t1 : fmt32.nearest (fmt32.nearest (a * r) / b) ≤ a + 1 / 2 := by
    rw [← hhalf]; exact nearest_mono' hp hdiv
  have h64 : (2 : ℚ) ^ 24 ≤ pow2 64 := by
    rw [show (64 : Int) = ((64 : Nat) : Int) from rfl, pow2_nat]; norm_num
  refine ⟨_, ?_, t0, ?_, rfl⟩
  · rw [hofa]
    have hsmall : fmt32.nearest (a * r) ≤ pow2 64 := by
      refine hs.trans ?_
      have : (a : ℚ) * r ≤ a := by
        calc (a : ℚ) * r ≤ a * 1 := mul_le_mul_of_nonneg_left r1 (by positivity)
          _ = a := mul_one _
      rw [hq]
      have h7 : (a : ℚ) * r * (1 + 1 / 2 ^ 24) ≤ a * (1 + 1 / 2 ^ 24) :=
        mul_le_mul_of_nonneg_right this (by norm_num)
      have : (a : ℚ) ≤ 2 ^ 23 := by linarith
      linarith
    show binary32.div (binary32.rnd (a * r)) (.fin b) = _
    rw [rnd32_small s0 hsmall]
    show (if b = 0 then _ else binary32.rnd _) = _
    rw [if_neg hb.ne', rnd32_small t0 (by linarith)]
  · have : ⌊fmt32.nearest (fmt32.nearest (a * r) / b)⌋ < (a : Int) + 1 := by
      rw [Int.floor_lt]; push_cast; linarith
    omega

/-- Whether the warm-up applies: it is switched on and the elapsed fraction has not passed its end. -/
def InWarmup (o : SOptions ℚ) (elapsed total : Nat) : Prop :=
  Fl.lt (.fin 0) o.warmupMaxsizeBy = true ∧
    (binary32.div (binary32.ofNat elapsed) (binary32.ofNat total)).le o.warmupMaxsizeBy = true

variable {o : SOptions ℚ}

omit E in
theorem warmup_cases {v : Fl ℚ} (h : Fl.lt (.fin 0) v = true) : v = .pinf ∨ ∃ b, v = .fin b ∧ 0 < b := by
  cases v with
  | nan => simp [Fl.lt] at h
  | ninf => simp [Fl.lt] at h
  | pinf => exact .inl rfl
  | fin b => exact .inr ⟨b, rfl, by simpa [Fl.lt] using h⟩

/-- The size limit during warm-up. -/
theorem warmup_value (hE : WarmupEnv E) (total remaining : Nat) (ht : 1 ≤ total) (ht' : total ≤ 2 ^ 64)
    (hm : 3 ≤ o.maxsize) (hm' : o.maxsize ≤ 2 ^ 23) (hw : InWarmup o (total - remaining) total) :
    ∃ c, getCurMaxsize o total remaining = some c ∧ 3 ≤ c ∧ c ≤ o.maxsize ∧
      (o.warmupMaxsizeBy = .pinf → c = 3) ∧
      ∀ b, o.warmupMaxsizeBy = .fin b → c = 3 + min ⌊fmt32.nearest (fmt32.nearest ((o.maxsize - 3 : Nat) *
        fmt32.nearest (fmt32.nearest ((total - remaining : Nat) : ℚ) / fmt32.nearest (total : ℚ))) / b)⌋.toNat usizeMax := by
  obtain ⟨r, hr, r0, r1, r2, r3⟩ := fraction_spec (total - remaining) total (by omega) ht ht'
  unfold getCurMaxsize
  simp only
  rw [hE.r32, hw.1, hw.2, Bool.and_self, if_pos rfl, if_neg (by omega)]
  have hr' : r ≠ 0 → pow2 (-64) ≤ r := by
    intro h
    apply r2
    by_contra hc
    apply h
    rw [r3, show total - remaining = 0 by omega, Nat.cast_zero, nearest_zero, zero_div, nearest_zero]
  refine ⟨_, rfl, by omega, ?_, ?_, ?_⟩
  · rcases warmup_cases hw.1 with hb | ⟨b, hb, hpos⟩
    · rw [hb]
      rw [hr]
      have hofa : binary32.ofNat (o.maxsize - 3) = .fin ((o.maxsize - 3 : Nat) : ℚ) :=
        rnd_nat (f := fmt32) (by decide) (by decide) (by decide) _ (by show _ ≤ 2 ^ 24; omega)
      rw [hofa]
      have hfin : ∃ s, binary32.mul (.fin ((o.maxsize - 3 : Nat) : ℚ)) (.fin r) = .fin s := by
        obtain ⟨t, h1, -⟩ := ramp_spec (o.maxsize - 3) (by omega) r 1 r0 r1 hr' (by norm_num) r1
        rw [hofa] at h1
        cases hx : binary32.mul (.fin ((o.maxsize - 3 : Nat) : ℚ)) (.fin r) with
        | fin s => exact ⟨s, rfl⟩
        | nan => rw [hx] at h1; simp [Rounding.div] at h1
        | pinf => rw [hx] at h1; simp only [Rounding.div] at h1; split at h1 <;> cases h1
        | ninf => rw [hx] at h1; simp only [Rounding.div] at h1; split at h1 <;> cases h1
      obtain ⟨s, hs⟩ := hfin
      rw [hs]
      show 3 + E.floorUsize (.fin 0) ≤ _
      rw [hE.floor 0 (le_refl _)]
      simp; omega
    · have hrb : r ≤ b := by
        have := hw.2
        rw [hr, hb] at this
        simpa [Fl.le] using this
      obtain ⟨t, h1, h2, h3, -⟩ := ramp_spec (o.maxsize - 3) (by omega) r b r0 r1 hr' hpos hrb
      rw [hb, hr, h1, hE.floor t h2]
      have := Int.toNat_le_toNat h3
      simp only [Int.toNat_natCast] at this
      omega
  · intro hb
    rw [hb, hr]
    have hofa : binary32.ofNat (o.maxsize - 3) = .fin ((o.maxsize - 3 : Nat) : ℚ) :=
      rnd_nat (f := fmt32) (by decide) (by decide) (by decide) _ (by show _ ≤ 2 ^ 24; omega)
    rw [hofa]
    obtain ⟨t, h1, -⟩ := ramp_spec (o.maxsize - 3) (by omega) r 1 r0 r1 hr' (by norm_num) r1
    rw [hofa] at h1
    cases hx : binary32.mul (.fin ((o.maxsize - 3 : Nat) : ℚ)) (.fin r) with
    | fin s =>
      show 3 + E.floorUsize (.fin 0) = _
      rw [hE.floor 0 (le_refl _)]; simp
    | nan => rw [hx] at h1; simp [Rounding.div] at h1
    | pinf => rw [hx] at h1; simp only [Rounding.div] at h1; split at h1 <;> cases h1
    | ninf => rw [hx] at h1; simp only [Rounding.div] at h1; split at h1 <;> cases h1
  · intro b hb
    have hpos : 0 < b := by have := hw.1; rw [hb] at this; simpa [Fl.lt] using this
    have hrb : r ≤ b := by
      have := hw.2
      rw [hr, hb] at this
      simpa [Fl.le] using this
    obtain ⟨t, h1, h2, h3, h4⟩ := ramp_spec (o.maxsize - 3) (by omega) r b r0 r1 hr' hpos hrb
    rw [hb, hr, h1, hE.floor t h2, h4, r3]

theorem warmup_off (hE : WarmupEnv E) (total remaining : Nat) (h : ¬ InWarmup o (total - remaining) total) :
    getCurMaxsize o total remaining = some o.maxsize := by
  unfold getCurMaxsize
  simp only
  rw [hE.r32, if_neg]
  intro hc
  simp only [Bool.and_eq_true] at hc
  exact h hc

/-- C43: in `f32` arithmetic, for every search length up to `2 ^ 64` cycles, every maximal size from 3 to `2 ^ 23` and
every warm-up setting (including zero, negative, infinite and NaN), the size limit of a cycle is between 3 and
the maximal size. -/
theorem C43_bounds (hE : WarmupEnv E) (total remaining : Nat) (ht : total ≤ 2 ^ 64)
    (hm : 3 ≤ o.maxsize) (hm' : o.maxsize ≤ 2 ^ 23) :
    ∃ c, getCurMaxsize o total remaining = some c ∧ 3 ≤ c ∧ c ≤ o.maxsize := by
  by_cases hw : InWarmup o (total - remaining) total
  · rcases Nat.eq_zero_or_pos total with rfl | hpos
    · exfalso
      have h2 := hw.2
      have h0 : binary32.ofNat 0 = .fin 0 := by
        show binary32.rnd ((0 : Nat) : ℚ) = _
        rw [Nat.cast_zero]; exact binary32_lawful.zero
      rw [show (0 : Nat) - remaining = 0 by omega, h0] at h2
      simp [Rounding.div, Rounding.signInf, Fl.le] at h2
    · obtain ⟨c, h1, h2, h3, -⟩ := warmup_value hE total remaining hpos ht hm hm' hw
      exact ⟨c, h1, h2, h3⟩
  · exact ⟨_, warmup_off hE total remaining hw, hm, le_refl _⟩

/-- C43: the size limit never decreases as the search goes on (the number of remaining cycles falls). -/
theorem C43_monotone (hE : WarmupEnv E) (total rem1 rem2 c1 c2 : Nat) (ht : total ≤ 2 ^ 64)
    (hm : 3 ≤ o.maxsize) (hm' : o.maxsize ≤ 2 ^ 23) (hrem : rem2 ≤ rem1)
    (h1 : getCurMaxsize o total rem1 = some c1) (h2 : getCurMaxsize o total rem2 = some c2) : c1 ≤ c2 := by
  obtain ⟨c1', e1, -, b1⟩ := C43_bounds (o := o) hE total rem1 ht hm hm'
  obtain rfl : c1 = c1' := by rw [h1] at e1; exact Option.some.inj e1
  by_cases hw2 : InWarmup o (total - rem2) total
  · rcases Nat.eq_zero_or_pos total with rfl | hpos
    · rw [show getCurMaxsize o 0 rem2 = getCurMaxsize o 0 rem1 by unfold getCurMaxsize; simp] at h2
      rw [h1] at h2; simp at h2; omega
    have hp : 1 ≤ fmt32.p := by decide
    obtain ⟨r1, f1, -, -, -, g1⟩ := fraction_spec (total - rem1) total (by omega) hpos ht
    obtain ⟨r2, f2, -, -, -, g2⟩ := fraction_spec (total - rem2) total (by omega) hpos ht
    have hle : ((total - rem1 : Nat) : ℚ) ≤ ((total - rem2 : Nat) : ℚ) := by
      exact_mod_cast (show total - rem1 ≤ total - rem2 by omega)
    have hnp : 0 < fmt32.nearest (total : ℚ) := by
      have := (near32_nat_bounds total hpos ht).1; linarith
    have hrle : r1 ≤ r2 := by
      rw [g1, g2]
      exact nearest_mono' hp (div_le_div_of_nonneg_right (nearest_mono' hp hle) hnp.le)
    have hw1 : InWarmup o (total - rem1) total := by
      refine ⟨hw2.1, ?_⟩
      have := hw2.2
      rw [f2] at this
      rw [f1]
      exact Fl.le_trans (b := .fin r2) (by simpa [Fl.le] using hrle) this
    obtain ⟨k1, q1, -, -, v1, w1⟩ := warmup_value hE total rem1 hpos ht hm hm' hw1
    obtain ⟨k2, q2, -, -, v2, w2⟩ := warmup_value hE total rem2 hpos ht hm hm' hw2
    obtain rfl : c1 = k1 := by rw [h1] at q1; exact Option.some.inj q1
    obtain rfl : c2 = k2 := by rw [h2] at q2; exact Option.some.inj q2
    rcases warmup_cases hw1.1 with hb | ⟨b, hb, hpos'⟩
    · rw [v1 hb, v2 hb]
    · rw [w1 b hb, w2 b hb, ← g1, ← g2]
      have : fmt32.nearest (fmt32.nearest ((o.maxsize - 3 : Nat) * r1) / b) ≤
          fmt32.nearest (fmt32.nearest ((o.maxsize - 3 : Nat) * r2) / b) := by
        refine nearest_mono' hp (div_le_div_of_nonneg_right (nearest_mono' hp ?_) hpos'.le)
        exact mul_le_mul_of_nonneg_left hrle (by positivity)
      have := Int.toNat_le_toNat (Int.floor_le_floor this)
      omega
  · rw [warmup_off hE total rem2 hw2] at h2
    simp only [Option.some.injEq] at h2
    omega

/-- C43: outside the warm-up (always when the setting is zero, negative or NaN) the limit is the maximal size, and the
first cycle of a search with warm-up has limit 3. -/
theorem C43_ends (hE : WarmupEnv E) (total remaining : Nat) (ht : total ≤ 2 ^ 64) :
    (¬ InWarmup o (total - remaining) total → getCurMaxsize o total remaining = some o.maxsize) ∧
    (Fl.lt (.fin 0) o.warmupMaxsizeBy = false → getCurMaxsize o total remaining = some o.maxsize) ∧
    (3 ≤ o.maxsize → o.maxsize ≤ 2 ^ 23 → 1 ≤ total → Fl.lt (.fin 0) o.warmupMaxsizeBy = true →
      getCurMaxsize o total total = some 3) := by
  refine ⟨warmup_off hE total remaining, fun h => warmup_off hE total remaining fun hc => ?_, fun hm hm' hpos hon => ?_⟩
  · rw [hc.1] at h; simp at h
  · obtain ⟨r, f, -, -, -, g⟩ := fraction_spec (total - total) total (by omega) hpos ht
    have hr : r = 0 := by rw [g, Nat.sub_self, Nat.cast_zero, nearest_zero, zero_div, nearest_zero]
    subst hr
    have hw : InWarmup o (total - total) total := ⟨hon, by
      rw [f]
      rcases warmup_cases hon with hb | ⟨b, hb, hp⟩
      · rw [hb]; rfl
      · rw [hb]; simpa [Fl.le] using hp.le⟩
    obtain ⟨c, h1, -, -, v, w⟩ := warmup_value hE total total hpos ht hm hm' hw
    rw [h1]
    rcases warmup_cases hon with hb | ⟨b, hb, hp⟩
    · rw [v hb]
    · rw [w b hb, ← g, mul_zero, nearest_zero, zero_div, nearest_zero]; simp

/-- C43 (exception): with a maximal size below 3 and warm-up on, the first cycle panics (in a debug build; a release
build wraps around to a limit near `2 ^ 64`). -/
theorem C43_small_maxsize (hE : WarmupEnv E) (total : Nat) (ht : 1 ≤ total) (ht' : total ≤ 2 ^ 64) (hm : o.maxsize < 3)
    (hon : Fl.lt (.fin 0) o.warmupMaxsizeBy = true) : getCurMaxsize o total total = none := by
  obtain ⟨r, f, -, -, -, g⟩ := fraction_spec (total - total) total (by omega) ht ht'
  have hr : r = 0 := by rw [g, Nat.sub_self, Nat.cast_zero, nearest_zero, zero_div, nearest_zero]
  subst hr
  unfold getCurMaxsize
  simp only
  rw [hE.r32, f, hon]
  have : (Fl.fin (0 : ℚ)).le o.warmupMaxsizeBy = true := Fl.le_of_lt hon
  rw [this, Bool.and_self, if_pos rfl, if_pos hm]

end SR

namespace SR.Demo
local instance instWarmup : Env ℚ := env

theorem warmupEnv : WarmupEnv env where
  r32 := rfl
  floor _ _ := rfl

/-- A search of 40 cycles with maximal size 20 and warm-up over the first half: limits after 0, 5, 10, 20 and 21 cycles. -/
example : ([40, 35, 30, 20, 19].map fun r =>
    getCurMaxsize { opts with maxsize := 20, warmupMaxsizeBy := .fin (1 / 2) } 40 r)
    = [some 3, some 7, some 11, some 20, some 20] := by decide +kernel

end SR.Demo
