import Verif.Spec.Chance
import Verif.Proofs.Chance
import Verif.Proofs.Find
/-
The probability with which a random computation of the search returns something.
-/
namespace SR
open MeasureTheory Chance Rand
open scoped ENNReal

/-- `a` integer draws and `b` float draws of population `i`. -/
noncomputable def cnt (i a b : ℕ) : (ℕ × Bool) →₀ ℕ := Finsupp.single (i, false) a + Finsupp.single (i, true) b

@[simp] theorem cnt_int (i a b : ℕ) : cnt i a b (i, false) = a := by simp [cnt]
@[simp] theorem cnt_float (i a b : ℕ) : cnt i a b (i, true) = b := by simp [cnt]
theorem cnt_other {i j : ℕ} (h : j ≠ i) (a b : ℕ) (c : Bool) : cnt i a b (j, c) = 0 := by
  simp [cnt, Finsupp.single_apply, Ne.symm h]

theorem rng_dropBy (ω : Draws) (i a b : ℕ) : Draws.rng (dropBy (cnt i a b) ω) i = (ω.rng i).drop a b := by
  simp [Draws.rng, dropBy, Rng.drop]

theorem rng_dropBy_other (ω : Draws) {i j : ℕ} (h : j ≠ i) (a b : ℕ) : Draws.rng (dropBy (cnt i a b) ω) j = ω.rng j := by
  simp [Draws.rng, dropBy, cnt_other h]

theorem rng_agree {ω h : Draws} {i a b : ℕ} (hs : Same (cnt i a b) ω h) : (ω.rng i).Agree (h.rng i) a b := by
  refine ⟨fun k hk => hs (i, false) k (by simpa using hk), fun k hk => ?_⟩
  have := hs (i, true) k (by simpa using hk)
  simp only [Draws.rng, this]

theorem same_cnt {ω h : Draws} {i a b : ℕ} (h1 : ∀ k < a, h ((i, false), k) = ω ((i, false), k))
    (h2 : ∀ k < b, h ((i, true), k) = ω ((i, true), k)) : Same (cnt i a b) ω h := by
  rintro ⟨j, c⟩ k hk
  by_cases hj : j = i
  · subst hj
    cases c with
    | false => exact h1 k (by simpa using hk)
    | true => exact h2 k (by simpa using hk)
  · rw [cnt_other hj] at hk; omega

/-- The draws are those a generator can make. -/
theorem rng_grid (ω : Draws) (i k : ℕ) : ∃ n : ℕ, n < 2 ^ 52 ∧ (ω.rng i).floats k = .fin (n / 2 ^ 52) :=
  ⟨ω ((i, true), k) % 2 ^ 52, Nat.mod_lt _ (by norm_num), rfl⟩

section
variable {α β : Type} {i : ℕ}

/-- With the first draws of `ω` the computation returns `x`, having taken `a` integers and `b` floats. -/
def Takes (i : ℕ) (m : Rand (Fl ℚ) α) (ω : Draws) (a b : ℕ) (x : α) : Prop :=
  ∀ h : Draws, Same (cnt i a b) ω h → m (h.rng i) = some (x, (h.rng i).drop a b)

theorem Takes.same {m : Rand (Fl ℚ) α} {ω h : Draws} {a b : ℕ} {x : α} (ht : Takes i m ω a b x) (hs : Same (cnt i a b) ω h) :
    Takes i m h a b x := fun h' hs' => ht h' fun j k hk => (hs' j k hk).trans (hs j k hk)

theorem takes_of {m : Rand (Fl ℚ) α} [hm : m.Consumes] {ω : Draws} {x : α} {g : Rng (Fl ℚ)} (h : m (ω.rng i) = some (x, g)) :
    ∃ a b, Takes i m ω a b x := by
  obtain ⟨a, b, -, hl⟩ := hm.rest _ _ _ h
  exact ⟨a, b, fun h' hs => hl _ (rng_agree hs)⟩

theorem shift_unique {f : ℕ → ℕ} {a a' M : ℕ} (ha : a ≤ M) (ha' : a' ≤ M) (hM : f M % 2 ^ 52 = 1)
    (h0 : ∀ k, M < k → f k % 2 ^ 52 = 0) (hs : ∀ k, f (k + a) % 2 ^ 52 = f (k + a') % 2 ^ 52) : a = a' := by
  rcases Nat.lt_trichotomy a a' with h | h | h
  · have := hs (M - a)
    rw [show M - a + a = M by omega, hM, h0 _ (by omega)] at this
    omega
  · exact h
  · have := hs (M - a')
    rw [show M - a' + a' = M by omega, hM, h0 _ (by omega)] at this
    omega

theorem Takes.unique {m : Rand (Fl ℚ) α} {ω : Draws} {a b a' b' : ℕ} {x x' : α} (h1 : Takes i m ω a b x)
    (h2 : Takes i m ω a' b' x') : a = a' ∧ b = b' ∧ x = x' := by
  let h : Draws := fun p => if p.1 = (i, false) then (if p.2 < max a a' then ω p else if p.2 = max a a' then 1 else 0)
    else if p.1 = (i, true) then (if p.2 < max b b' then ω p else if p.2 = max b b' then 1 else 0) else ω p
  have hi : ∀ k, h ((i, false), k) = if k < max a a' then ω ((i, false), k) else if k = max a a' then 1 else 0 := by
    intro k; simp [h]
  have hf : ∀ k, h ((i, true), k) = if k < max b b' then ω ((i, true), k) else if k = max b b' then 1 else 0 := by
    intro k; simp [h]
  have e1 := h1 h (same_cnt (fun k hk => by rw [hi, if_pos (by omega)]) fun k hk => by rw [hf, if_pos (by omega)])
  have e2 := h2 h (same_cnt (fun k hk => by rw [hi, if_pos (by omega)]) fun k hk => by rw [hf, if_pos (by omega)])
  rw [e1] at e2
  simp only [Option.some.injEq, Prod.mk.injEq] at e2
  obtain ⟨hx, hg⟩ := e2
  have hin : ∀ k, h ((i, false), k + a) = h ((i, false), k + a') := fun k => congrFun (congrArg Rng.ints hg) k
  have hfl : ∀ k, h ((i, true), k + b) % 2 ^ 52 = h ((i, true), k + b') % 2 ^ 52 := by
    intro k
    have := congrFun (congrArg Rng.floats hg) k
    simp only [Draws.rng, Rng.drop, Fl.fin.injEq] at this
    have h52 : (2 ^ 52 : ℚ) ≠ 0 := by positivity
    rw [div_left_inj' h52] at this
    exact_mod_cast this
  refine ⟨?_, ?_, hx⟩
  · refine shift_unique (f := fun k => h ((i, false), k)) (le_max_left a a') (le_max_right a a') ?_ ?_ (fun k => by
      show h ((i, false), k + a) % _ = h ((i, false), k + a') % _
      rw [hin k])
    · show h ((i, false), max a a') % _ = 1
      rw [hi, if_neg (by omega), if_pos rfl]; norm_num
    · intro k hk
      show h ((i, false), k) % _ = 0
      rw [hi, if_neg (by omega), if_neg (by omega)]; norm_num
  · refine shift_unique (f := fun k => h ((i, true), k)) (le_max_left b b') (le_max_right b b') ?_ ?_ hfl
    · show h ((i, true), max b b') % _ = 1
      rw [hf, if_neg (by omega), if_pos rfl]; norm_num
    · intro k hk
      show h ((i, true), k) % _ = 0
      rw [hf, if_neg (by omega), if_neg (by omega)]; norm_num

open Classical in
/-- The numbers of draws a computation takes. -/
noncomputable def taken (i : ℕ) (m : Rand (Fl ℚ) α) (ω : Draws) : (ℕ × Bool) →₀ ℕ :=
  if h : ∃ a b x, Takes i m ω a b x then cnt i h.choose h.choose_spec.choose else 0

theorem Takes.taken_eq {m : Rand (Fl ℚ) α} {ω : Draws} {a b : ℕ} {x : α} (h : Takes i m ω a b x) : taken i m ω = cnt i a b := by
  have hex : ∃ a b x, Takes i m ω a b x := ⟨a, b, x, h⟩
  unfold taken
  rw [dif_pos hex]
  obtain ⟨h1, h2, -⟩ := Takes.unique hex.choose_spec.choose_spec.choose_spec h
  exact congr (congrArg _ h1) h2

/-- The event that the computation of population `i` returns something with the property `A`. -/
def Ev (i : ℕ) (m : Rand (Fl ℚ) α) (A : α → Prop) : Set Draws := {ω | ∃ x g, m (ω.rng i) = some (x, g) ∧ A x}

theorem Ev.saturated (m : Rand (Fl ℚ) α) [m.Consumes] (A : α → Prop) : Saturated (taken i m) (Ev i m A) := by
  rintro ω ⟨x, g, hx, hA⟩ h hs
  obtain ⟨a, b, ht⟩ := takes_of hx
  rw [ht.taken_eq] at hs
  have ht' := ht.same hs
  have hx' := ht ω (Same.refl _ _)
  rw [hx, Option.some.injEq, Prod.mk.injEq] at hx'
  refine ⟨⟨x, _, ht h hs, hA⟩, ?_⟩
  rw [ht.taken_eq, ht'.taken_eq]

theorem Ev.measurable (m : Rand (Fl ℚ) α) [m.Consumes] (A : α → Prop) : MeasurableSet (Ev i m A) :=
  (Ev.saturated m A).measurable

variable {ν : Bool → Measure ℕ}

theorem law_eq (ν : Bool → Measure ℕ) : Draws.law ν = Chance.law fun j : ℕ × Bool => ν j.2 := rfl

/-- With probability at least `p` the computation returns something with the property `A`. -/
def AtLeast (ν : Bool → Measure ℕ) (p : ℝ≥0∞) (m : Rand (Fl ℚ) α) (A : α → Prop) : Prop := ∀ i, p ≤ Draws.law ν (Ev i m A)

theorem AtLeast.mono {p q : ℝ≥0∞} {m : Rand (Fl ℚ) α} {A B : α → Prop} (h : AtLeast ν p m A) (hq : q ≤ p) (hAB : ∀ x, A x → B x) :
    AtLeast ν q m B := fun i => hq.trans ((h i).trans (measure_mono fun _ ⟨x, g, hx, hA⟩ => ⟨x, g, hx, hAB x hA⟩))

theorem AtLeast.post {p : ℝ≥0∞} {m : Rand (Fl ℚ) α} {A B : α → Prop} (h : AtLeast ν p m A) (hp : Rand.Post m B) :
    AtLeast ν p m fun x => A x ∧ B x :=
  fun i => (h i).trans (measure_mono fun _ ⟨x, g, hx, hA⟩ => ⟨x, g, hx, hA, hp _ _ _ hx⟩)

variable (hν : ∀ b, FullLaw (ν b))

include hν in
theorem law_prob : ∀ j : ℕ × Bool, IsProbabilityMeasure (ν j.2) := fun j => ⟨(hν j.2).total⟩

include hν in
theorem AtLeast.bind {p q : ℝ≥0∞} {m : Rand (Fl ℚ) α} {f : α → Rand (Fl ℚ) β} {A : α → Prop} {B : β → Prop} (cm : m.Consumes)
    (cf : ∀ x, (f x).Consumes) (hm : AtLeast ν p m A) (hf : ∀ x, A x → AtLeast ν q (f x) B) : AtLeast ν (p * q) (m >>= f) B := by
  intro i
  haveI := law_prob hν
  have key := markov_ge (fun j : ℕ × Bool => ν j.2) (Ev.saturated (i := i) m A) (G := Ev i (m >>= f) B)
    (q := q) (by
    rintro ω ⟨x, g, hx, hA⟩
    obtain ⟨a, b, ht⟩ := takes_of hx
    have hx' := ht ω (Same.refl _ _)
    refine ⟨Ev i (f x) B, Ev.measurable _ _, hf x hA i, ?_⟩
    rw [ht.taken_eq]
    rintro h hs ⟨y, g', hy, hB⟩
    refine ⟨y, g', ?_, hB⟩
    rw [rng_dropBy] at hy
    rw [run_bind, ht h hs]
    exact hy)
  refine le_trans ?_ key
  rw [mul_comm]
  exact mul_le_mul_right (hm i) _

include hν in
theorem AtLeast.one {m : Rand (Fl ℚ) α} {A : α → Prop} (h : ∀ (ω : Draws) (i : ℕ), ∃ x g, m (ω.rng i) = some (x, g) ∧ A x) :
    AtLeast ν 1 m A := by
  intro i
  haveI := law_prob hν
  rw [show Ev i m A = Set.univ from Set.eq_univ_of_forall fun ω => h ω i, law_eq, measure_univ]

include hν in
theorem AtLeast.total {m : Rand (Fl ℚ) α} {A : α → Prop} (h : Rand.Total m A) : AtLeast ν 1 m A := .one hν fun ω i => h (ω.rng i)

include hν in
theorem AtLeast.pure {A : α → Prop} {x : α} (h : A x) : AtLeast ν 1 (Pure.pure x : Rand (Fl ℚ) α) A := .total hν (Rand.Total.pure h)

include hν in
theorem AtLeast.lift {A : α → Prop} {o : Option α} {x : α} (ho : o = some x) (h : A x) : AtLeast ν 1 (Rand.lift o : Rand (Fl ℚ) α) A :=
  .total hν (Rand.Total.lift ⟨x, ho, h⟩)

include hν in
/-- What can be returned is returned with a positive probability, the same for every population. -/
theorem Rand.Reaches.atLeast {S : Fl ℚ → Prop} (hS : ∀ u, S u → ∃ k : ℕ, k < 2 ^ 52 ∧ u = .fin (k / 2 ^ 52)) {u0 : Fl ℚ} (hu0 : S u0)
    {m : Rand (Fl ℚ) α} [hm : m.Consumes] {x : α} (h : Reaches S m x) : ∃ p : ℝ≥0∞, p ≠ 0 ∧ p ≤ 1 ∧ AtLeast ν p m (· = x) := by
  haveI := law_prob hν
  obtain ⟨g, hg, hx⟩ := h ⟨fun _ => 0, fun _ => u0⟩ (Rng.within_const hu0)
  choose fl hfl hfl' using fun k => hS _ (hg.floats k)
  obtain ⟨a, b, -, hl⟩ := hm.rest _ _ _ hx
  refine ⟨(∏ k ∈ Finset.range a, ν false {g.ints k}) * ∏ k ∈ Finset.range b, ν true {fl k}, ?_, ?_, ?_⟩
  · rw [mul_ne_zero_iff]
    exact ⟨Finset.prod_ne_zero_iff.mpr fun k _ => (hν _).pos _ (hg.words k),
      Finset.prod_ne_zero_iff.mpr fun k _ => (hν _).pos _ ((hfl k).trans (by norm_num))⟩
  · haveI : ∀ b, IsProbabilityMeasure (ν b) := fun b => ⟨(hν b).total⟩
    exact mul_le_one' (Finset.prod_le_one' fun k _ => prob_le_one) (Finset.prod_le_one' fun k _ => prob_le_one)
  · intro i
    let ω : Draws := fun p => if p.1.2 then fl p.2 else g.ints p.2
    have hcyl : Draws.law ν (cyl (cnt i a b) ω) =
        (∏ k ∈ Finset.range a, ν false {g.ints k}) * ∏ k ∈ Finset.range b, ν true {fl k} := by
      rw [law_eq, law_cyl]
      unfold pre
      rw [Finset.prod_map, Finset.prod_sigma]
      rw [Finset.prod_subset (s₂ := {(i, false), (i, true)})]
      · rw [Finset.prod_pair (by simp), cnt_int, cnt_float]
        rfl
      · rintro ⟨j, c⟩ hj
        rw [Finsupp.mem_support_iff] at hj
        by_cases hji : j = i
        · subst hji; cases c <;> simp
        · exact absurd (cnt_other hji a b c) hj
      · intro j _ hj
        rw [Finsupp.notMem_support_iff] at hj
        rw [hj]; simp
    rw [← hcyl]
    refine measure_mono fun h hs => ⟨x, (h.rng i).drop a b, hl _ ?_, rfl⟩
    have hag := rng_agree (show Same (cnt i a b) ω h from hs)
    have hω : ω.rng i = g := by
      unfold Draws.rng
      cases g with
      | mk ints floats =>
        simp only [Rng.mk.injEq]
        refine ⟨rfl, funext fun k => ?_⟩
        have := hfl' k
        simp only at this
        simp only [ω, if_true, Nat.mod_eq_of_lt (hfl k)]
        exact this.symm
    rwa [hω] at hag


/-- Finitely many positive numbers have a positive lower bound. -/
theorem exists_low {ι : Type} [Finite ι] (f : ι → ℝ≥0∞) (h : ∀ x, f x ≠ 0) : ∃ p : ℝ≥0∞, p ≠ 0 ∧ p ≤ 1 ∧ ∀ x, p ≤ f x := by
  classical
  cases nonempty_fintype ι
  rcases isEmpty_or_nonempty ι with hι | hι
  · exact ⟨1, one_ne_zero, le_rfl, fun x => (hι.false x).elim⟩
  · refine ⟨min 1 (Finset.univ.inf' Finset.univ_nonempty f), ?_, min_le_left _ _, fun x => (min_le_right _ _).trans (Finset.inf'_le _ (Finset.mem_univ x))⟩
    obtain ⟨x, -, hx⟩ := Finset.exists_mem_eq_inf' Finset.univ_nonempty f
    rw [hx]
    exact (lt_min one_pos (pos_iff_ne_zero.mpr (h x))).ne'

end
end SR
