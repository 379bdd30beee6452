import Mathlib.Probability.ProductMeasure
import Mathlib.Data.Finsupp.Encodable
import Mathlib.Data.Finsupp.Defs
/-
Independent draws: what is drawn after a computation has taken its draws is independent of what it took.
-/
namespace SR.Chance
open MeasureTheory
open scoped ENNReal
section
variable {J : Type}

/-- The draws left when `n j` draws have been taken from sequence `j`. -/
def dropBy (n : J →₀ ℕ) (ω : J × ℕ → ℕ) : J × ℕ → ℕ := fun p => ω (p.1, p.2 + n p.1)

/-- The same first draws. -/
def Same (n : J →₀ ℕ) (ω h : J × ℕ → ℕ) : Prop := ∀ j k, k < n j → h (j, k) = ω (j, k)

theorem Same.refl (n : J →₀ ℕ) (ω : J × ℕ → ℕ) : Same n ω ω := fun _ _ _ => rfl

/-- The positions of the first draws. -/
noncomputable def pre (n : J →₀ ℕ) : Finset (J × ℕ) :=
  n.support.sigma (fun j => Finset.range (n j)) |>.map ⟨fun x => (x.1, x.2), fun x y h => by
    cases x; cases y; simp only [Prod.mk.injEq] at h; obtain ⟨rfl, rfl⟩ := h; rfl⟩

theorem mem_pre {n : J →₀ ℕ} {j : J} {k : ℕ} : (j, k) ∈ pre n ↔ k < n j := by
  unfold pre
  simp only [Finset.mem_map, Finset.mem_sigma, Finsupp.mem_support_iff, Finset.mem_range, Sigma.exists, ne_eq]
  constructor
  · rintro ⟨a, b, ⟨_, h⟩, e⟩
    have e : (a, b) = (j, k) := e
    cases e
    exact h
  · intro h; exact ⟨j, k, ⟨by omega, h⟩, rfl⟩

/-- All draws with the given first draws. -/
def cyl (n : J →₀ ℕ) (ω : J × ℕ → ℕ) : Set (J × ℕ → ℕ) := {h | Same n ω h}

theorem cyl_eq (n : J →₀ ℕ) (ω : J × ℕ → ℕ) : cyl n ω = Set.pi (pre n) fun p => {ω p} := by
  ext h
  simp only [cyl, Same, Set.mem_ofPred_eq, Set.mem_pi, SetLike.mem_coe, Set.mem_singleton_iff]
  constructor
  · rintro H ⟨j, k⟩ hp; exact H j k (mem_pre.mp hp)
  · intro H j k hk; exact H (j, k) (mem_pre.mpr hk)

variable (ν : J → Measure ℕ)

/-- The law of the draws. -/
noncomputable def law : Measure (J × ℕ → ℕ) := Measure.infinitePi fun p => ν p.1

variable [hν : ∀ j, IsProbabilityMeasure (ν j)]

instance : IsProbabilityMeasure (law ν) := by unfold law; infer_instance

theorem measurable_cyl (n : J →₀ ℕ) (ω : J × ℕ → ℕ) : MeasurableSet (cyl n ω) := by
  rw [cyl_eq]
  exact MeasurableSet.pi (Finset.countable_toSet _) fun _ _ => MeasurableSet.singleton _

theorem measurable_dropBy (n : J →₀ ℕ) : Measurable (dropBy n) :=
  measurable_pi_lambda _ fun _ => measurable_pi_apply _

theorem law_cyl (n : J →₀ ℕ) (ω : J × ℕ → ℕ) : law ν (cyl n ω) = ∏ p ∈ pre n, ν p.1 {ω p} := by
  rw [cyl_eq]
  exact Measure.infinitePi_pi _ fun _ _ => MeasurableSet.singleton _

theorem law_split_pi (n : J →₀ ℕ) (ω : J × ℕ → ℕ) (s : Finset (J × ℕ)) (t : J × ℕ → Set ℕ) :
    law ν (cyl n ω ∩ dropBy n ⁻¹' Set.pi s t) = law ν (cyl n ω) * ∏ p ∈ s, ν p.1 (t p) := by
  classical
  let sh : J × ℕ ↪ J × ℕ := ⟨fun p => (p.1, p.2 + n p.1), by
    rintro ⟨a, b⟩ ⟨c, e⟩ h; simp only [Prod.mk.injEq] at h; obtain ⟨rfl, h⟩ := h; simp at h; rw [h]⟩
  let t' : J × ℕ → Set ℕ := fun p => if p ∈ pre n then {ω p} else t (p.1, p.2 - n p.1)
  have hnot : ∀ p, sh p ∉ pre n := by
    rintro ⟨j, k⟩ h
    have : k + n j < n j := mem_pre.mp h
    omega
  have hd : Disjoint (pre n) (s.map sh) := by
    rw [Finset.disjoint_left]
    intro p hp hq
    obtain ⟨q, -, rfl⟩ := Finset.mem_map.mp hq
    exact hnot q hp
  have hsh : ∀ p, t' (sh p) = t p := by
    intro p
    simp only [t', if_neg (hnot p)]
    show t (p.1, p.2 + n p.1 - n p.1) = t p
    rw [Nat.add_sub_cancel]
  have hset : cyl n ω ∩ dropBy n ⁻¹' Set.pi s t = Set.pi (↑(pre n ∪ s.map sh)) t' := by
    rw [cyl_eq]
    ext h
    simp only [Set.mem_inter_iff, Set.mem_pi, Set.mem_preimage, SetLike.mem_coe, Finset.mem_union]
    constructor
    · rintro ⟨h1, h2⟩ p (hp | hp)
      · simp only [t', if_pos hp]; exact h1 p hp
      · obtain ⟨q, hq, rfl⟩ := Finset.mem_map.mp hp
        rw [hsh]; exact h2 q hq
    · intro H
      refine ⟨fun p hp => ?_, fun q hq => ?_⟩
      · have := H p (Or.inl hp)
        simpa only [t', if_pos hp] using this
      · have := H (sh q) (Or.inr (Finset.mem_map_of_mem _ hq))
        rw [hsh] at this; exact this
  rw [hset, law_cyl, law, Measure.infinitePi_pi (fun p : J × ℕ => ν p.1) fun _ _ => MeasurableSet.of_discrete, Finset.prod_union hd, Finset.prod_map]
  congr 1
  · refine Finset.prod_congr rfl fun p hp => ?_
    simp only [t', if_pos hp]
  · refine Finset.prod_congr rfl fun p hp => ?_
    rw [hsh]; rfl

/-- What is drawn later is independent of the first draws, and distributed like the whole. -/
theorem law_split (n : J →₀ ℕ) (ω : J × ℕ → ℕ) {B : Set (J × ℕ → ℕ)} (hB : MeasurableSet B) :
    law ν (cyl n ω ∩ dropBy n ⁻¹' B) = law ν (cyl n ω) * law ν B := by
  by_cases h0 : law ν (cyl n ω) = 0
  · rw [h0, zero_mul]
    exact measure_mono_null Set.inter_subset_left h0
  have hT : law ν (cyl n ω) ≠ ⊤ := measure_ne_top _ _
  have key : (law ν (cyl n ω))⁻¹ • ((law ν).restrict (cyl n ω)).map (dropBy n) = law ν := by
    apply Measure.eq_infinitePi
    intro s t ht
    rw [Measure.smul_apply, Measure.map_apply (measurable_dropBy n) (MeasurableSet.pi (Finset.countable_toSet _) fun p _ => ht p),
      Measure.restrict_apply ((measurable_dropBy n) (MeasurableSet.pi (Finset.countable_toSet _) fun p _ => ht p)), Set.inter_comm,
      law_split_pi, smul_eq_mul, ← mul_assoc, ENNReal.inv_mul_cancel h0 hT, one_mul]
  have := congrArg (fun m => m B) key
  simp only [Measure.smul_apply, smul_eq_mul] at this
  rw [Measure.map_apply (measurable_dropBy n) hB, Measure.restrict_apply ((measurable_dropBy n) hB), Set.inter_comm] at this
  rw [← this, ← mul_assoc, ENNReal.mul_inv_cancel h0 hT, one_mul]

/-! ## Computations that take draws -/

/-- On `A`, the numbers of draws taken are determined by the draws taken, and so is being in `A`. -/
def Saturated (N : (J × ℕ → ℕ) → J →₀ ℕ) (A : Set (J × ℕ → ℕ)) : Prop :=
  ∀ ω ∈ A, ∀ h, Same (N ω) ω h → h ∈ A ∧ N h = N ω

/-- The draws taken, as a point of a countable set. -/
noncomputable def code (N : (J × ℕ → ℕ) → J →₀ ℕ) (ω : J × ℕ → ℕ) : (J →₀ ℕ) × ((J × ℕ) →₀ ℕ) := by
  classical
  exact (N ω, Finsupp.onFinset (pre (N ω)) (fun p => if p ∈ pre (N ω) then ω p else 0) fun p h => by
    by_contra hp; simp [hp] at h)

theorem code_same {N : (J × ℕ → ℕ) → J →₀ ℕ} {ω h : J × ℕ → ℕ} (hc : code N h = code N ω) : Same (N ω) ω h := by
  classical
  unfold code at hc
  simp only [Prod.mk.injEq] at hc
  obtain ⟨h1, h2⟩ := hc
  intro j k hk
  have h2 := DFunLike.congr_fun h2 (j, k)
  simp only [Finsupp.onFinset_apply] at h2
  rw [h1, if_pos (mem_pre.mpr hk), if_pos (mem_pre.mpr hk)] at h2
  exact h2

theorem same_code {N : (J × ℕ → ℕ) → J →₀ ℕ} {ω h : J × ℕ → ℕ} (hs : Same (N ω) ω h) (hn : N h = N ω) : code N h = code N ω := by
  classical
  unfold code
  simp only [Prod.mk.injEq, hn, true_and]
  ext ⟨j, k⟩
  simp only [Finsupp.onFinset_apply]
  split
  · next hp => exact hs j k (mem_pre.mp hp)
  · rfl

variable {N : (J × ℕ → ℕ) → J →₀ ℕ} {A : Set (J × ℕ → ℕ)}

theorem Saturated.class_eq (hA : Saturated N A) {ω : J × ℕ → ℕ} (hω : ω ∈ A) : A ∩ code N ⁻¹' {code N ω} = cyl (N ω) ω := by
  ext h
  simp only [Set.mem_inter_iff, Set.mem_preimage, Set.mem_singleton_iff, cyl, Set.mem_ofPred_eq]
  exact ⟨fun ⟨_, hc⟩ => code_same hc, fun hs => ⟨(hA ω hω h hs).1, same_code hs (hA ω hω h hs).2⟩⟩

theorem Saturated.measurable_class (hA : Saturated N A) (c) : MeasurableSet (A ∩ code N ⁻¹' {c}) := by
  rcases Set.eq_empty_or_nonempty (A ∩ code N ⁻¹' {c}) with h | ⟨ω, hω, hc⟩
  · rw [h]; exact MeasurableSet.empty
  · obtain rfl : code N ω = c := hc
    rw [hA.class_eq hω]
    exact measurable_cyl _ _

theorem iUnion_class (N : (J × ℕ → ℕ) → J →₀ ℕ) (A : Set (J × ℕ → ℕ)) : ⋃ c, A ∩ code N ⁻¹' {c} = A := by
  ext h; simp

theorem disjoint_class (N : (J × ℕ → ℕ) → J →₀ ℕ) (A : Set (J × ℕ → ℕ)) :
    Pairwise (Function.onFun Disjoint fun c => A ∩ code N ⁻¹' {c}) := by
  intro c c' hne
  rw [Function.onFun, Set.disjoint_left]
  rintro h ⟨-, h1⟩ ⟨-, h2⟩
  exact hne (h1.symm.trans h2)

variable [Countable J]

theorem Saturated.measurable (hA : Saturated N A) : MeasurableSet A := by
  rw [← iUnion_class N A]
  exact MeasurableSet.iUnion hA.measurable_class

theorem Saturated.law_eq (hA : Saturated N A) : law ν A = ∑' c, law ν (A ∩ code N ⁻¹' {c}) := by
  conv_lhs => rw [← iUnion_class N A]
  exact measure_iUnion (disjoint_class N A) hA.measurable_class

/-- If, whatever a computation has drawn, what is drawn afterwards leads to `G` only with probability `q`, then `G` has at most
`q` times the probability of the computation. -/
theorem markov_le (hA : Saturated N A) {G : Set (J × ℕ → ℕ)} {q : ℝ≥0∞} (hGA : G ⊆ A)
    (hG : ∀ ω ∈ A, ∃ B : Set (J × ℕ → ℕ), law ν B ≤ q ∧ ∀ h ∈ G, Same (N ω) ω h → dropBy (N ω) h ∈ B) :
    law ν G ≤ q * law ν A := by
  have h1 : law ν G ≤ ∑' c, law ν (G ∩ code N ⁻¹' {c}) := by
    conv_lhs => rw [← iUnion_class N G]
    exact measure_iUnion_le _
  refine h1.trans ?_
  rw [hA.law_eq ν, ← ENNReal.tsum_mul_left]
  refine ENNReal.tsum_le_tsum fun c => ?_
  rcases Set.eq_empty_or_nonempty (A ∩ code N ⁻¹' {c}) with h | ⟨ω, hω, hc⟩
  · have : G ∩ code N ⁻¹' {c} = ∅ := Set.eq_empty_of_subset_empty (h ▸ Set.inter_subset_inter_left _ hGA)
    rw [this]; simp
  · obtain rfl : code N ω = c := hc
    rw [hA.class_eq hω]
    obtain ⟨B, hB, hsub⟩ := hG ω hω
    have hle : law ν (G ∩ code N ⁻¹' {code N ω}) ≤ law ν (cyl (N ω) ω ∩ dropBy (N ω) ⁻¹' toMeasurable (law ν) B) := by
      refine measure_mono ?_
      rintro h ⟨hg, hc⟩
      have hs := code_same hc
      exact ⟨hs, subset_toMeasurable _ _ (hsub h hg hs)⟩
    refine hle.trans ?_
    rw [law_split ν _ _ (measurableSet_toMeasurable _ _), measure_toMeasurable, mul_comm]
    exact mul_le_mul_left hB _

/-- If, whatever a computation has drawn, what is drawn afterwards leads to `G` with probability at least `q`, then `G` has at least
`q` times the probability of the computation. -/
theorem markov_ge (hA : Saturated N A) {G : Set (J × ℕ → ℕ)} {q : ℝ≥0∞}
    (hG : ∀ ω ∈ A, ∃ B : Set (J × ℕ → ℕ), MeasurableSet B ∧ q ≤ law ν B ∧ ∀ h, Same (N ω) ω h → dropBy (N ω) h ∈ B → h ∈ G) :
    q * law ν A ≤ law ν G := by
  classical
  have hex : ∀ c, ∃ D : Set (J × ℕ → ℕ), MeasurableSet D ∧ D ⊆ G ∧ D ⊆ A ∩ code N ⁻¹' {c} ∧
      q * law ν (A ∩ code N ⁻¹' {c}) ≤ law ν D := by
    intro c
    rcases Set.eq_empty_or_nonempty (A ∩ code N ⁻¹' {c}) with h | ⟨ω, hω, hc⟩
    · exact ⟨∅, MeasurableSet.empty, Set.empty_subset _, Set.empty_subset _, by rw [h]; simp⟩
    · obtain rfl : code N ω = c := hc
      obtain ⟨B, hB, hq, hsub⟩ := hG ω hω
      rw [hA.class_eq hω]
      refine ⟨cyl (N ω) ω ∩ dropBy (N ω) ⁻¹' B, (measurable_cyl _ _).inter (measurable_dropBy _ hB), fun h hh => hsub h hh.1 hh.2,
        Set.inter_subset_left, ?_⟩
      rw [law_split ν _ _ hB, mul_comm]
      exact mul_le_mul_right hq _
  choose D hDm hDG hDc hDq using hex
  calc q * law ν A = ∑' c, q * law ν (A ∩ code N ⁻¹' {c}) := by rw [hA.law_eq ν, ENNReal.tsum_mul_left]
    _ ≤ ∑' c, law ν (D c) := ENNReal.tsum_le_tsum hDq
    _ = law ν (⋃ c, D c) := (measure_iUnion (fun c c' hne => Set.disjoint_of_subset (hDc c) (hDc c') (disjoint_class N A hne)) hDm).symm
    _ ≤ law ν G := measure_mono (Set.iUnion_subset hDG)

end
end SR.Chance
