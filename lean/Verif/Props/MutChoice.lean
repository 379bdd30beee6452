import Verif.Props.Evolve
import Verif.Props.Random
import Verif.Props.WebMember
/-
C34 continued: the kind of mutation that is drawn from the conditioned weights.
-/
namespace SR
variable {K : Type} [Field K] [LinearOrder K]

theorem choices_of [E : Env K] (w : MutWeights K) {i : Nat} {c : Mutation × Fl K}
    (h : w.choices[i]? = some c) : c.2 = w.of c.1 ∧ (i + 1 = w.choices.length → c.1 = .optimize) := by
  have hlt : i < 12 := (List.getElem?_eq_some_iff.mp h).1
  have : i = 0 ∨ i = 1 ∨ i = 2 ∨ i = 3 ∨ i = 4 ∨ i = 5 ∨ i = 6 ∨ i = 7 ∨ i = 8 ∨ i = 9 ∨ i = 10 ∨ i = 11 := by
    omega
  rcases this with rfl | rfl | rfl | rfl | rfl | rfl | rfl | rfl | rfl | rfl | rfl | rfl <;>
    (simp only [MutWeights.choices, List.getElem?_cons_zero, List.getElem?_cons_succ,
      Option.some.injEq] at h
     subst h
     simp [MutWeights.of, MutWeights.choices])

/-- **C34**, choice: in any arithmetic, the kind of mutation drawn has a positive weight of its own,
except that rounding can select the last kind of the table (constant optimisation). -/
theorem C34_chosen [E : Env K] (w : MutWeights K) :
    Rand.Post (sampleMutation w) fun k => k = .optimize ∨ Fl.lt (.fin 0) (w.of k) = true := by
  unfold sampleMutation
  refine Rand.Post.bind (C32_range E.R _) fun i hi => ?_
  refine Rand.Post.bind (P := fun c => w.choices[i]? = some c) (Rand.Post.lift fun c hc => hc) fun c hc => ?_
  apply Rand.Post.pure
  obtain ⟨h1, h2⟩ := choices_of w hc
  rcases hi.2 with h | ⟨x, hx, hpos⟩
  · exact .inl (h2 (by simpa using h))
  · rw [List.getElem?_map, hc, Option.map_some, Option.some.injEq] at hx
    rw [← h1, hx]
    exact .inr hpos

variable [IsStrictOrderedRing K]

/-- **C34**, choice, exact arithmetic: for finite non-negative weights that are not all zero, every draw
selects a kind of positive weight, and each kind of positive weight is selected by some draw. -/
theorem C34_chosen_exact [E : Env K] (hR : E.R = Rounding.exact K) (w : MutWeights K)
    (v : Mutation → K) (hv : ∀ k, w.of k = .fin (v k)) (h0 : ∀ k, 0 ≤ v k) (hex : ∃ k, 0 < v k) :
    (∀ (g : Rng (Fl K)) (u : K), g.floats 0 = .fin u → 0 ≤ u → u < 1 →
      ∃ k, sampleMutation w g = some (k, g.nextFloat) ∧ 0 < v k) ∧
    ∀ k, 0 < v k → ∀ g0 : Rng (Fl K), ∃ u, 0 ≤ u ∧ u < 1 ∧
      sampleMutation w (Rand.consFloat (.fin u) g0) = some (k, g0) := by
  have hk : ∀ k : Mutation, ∃ i : Nat, w.choices[i]? = some (k, Fl.fin (v k)) := by
    intro k
    rw [← hv k]
    cases k
    · exact ⟨0, rfl⟩
    · exact ⟨1, rfl⟩
    · exact ⟨2, rfl⟩
    · exact ⟨3, rfl⟩
    · exact ⟨4, rfl⟩
    · exact ⟨5, rfl⟩
    · exact ⟨6, rfl⟩
    · exact ⟨7, rfl⟩
    · exact ⟨8, rfl⟩
    · exact ⟨9, rfl⟩
    · exact ⟨10, rfl⟩
    · exact ⟨11, rfl⟩
  have hws : w.choices.map Prod.snd = (w.choices.map fun c => v c.1).map Fl.fin := by
    rw [List.map_map]
    apply List.map_congr_left
    intro c hc
    obtain ⟨i, hi⟩ := List.getElem?_of_mem hc
    rw [(choices_of w hi).1, hv]
    rfl
  have hnn : ∀ x ∈ w.choices.map fun c => v c.1, 0 ≤ x := by
    intro x hx
    obtain ⟨c, -, rfl⟩ := List.mem_map.mp hx
    exact h0 _
  have hmem : ∀ k, 0 < v k → ∃ i : Nat, (w.choices.map fun c => v c.1)[i]? = some (v k) ∧
      w.choices[i]? = some (k, Fl.fin (v k)) := by
    intro k _
    obtain ⟨i, hi⟩ := hk k
    exact ⟨i, by rw [List.getElem?_map, hi]; rfl, hi⟩
  have hsum : 0 < (w.choices.map fun c => v c.1).sum := by
    obtain ⟨k, hkp⟩ := hex
    obtain ⟨i, hi, -⟩ := hmem k hkp
    exact lt_of_lt_of_le hkp (List.single_le_sum hnn _ (List.mem_of_getElem? hi))
  refine ⟨fun g u hg hu0 hu1 => ?_, fun k hkp g0 => ?_⟩
  · obtain ⟨i, x, h1, h2, h3⟩ := C32_zero_never _ hnn hsum g u hg hu0 hu1
    rw [List.getElem?_map, Option.map_eq_some_iff] at h2
    obtain ⟨c, hc, rfl⟩ := h2
    refine ⟨c.1, ?_, h3⟩
    unfold sampleMutation
    rw [hR, hws, Rand.run_bind, h1]
    simp only [Rand.run_bind, Rand.lift, hc]
    rfl
  · obtain ⟨i, hi, hc⟩ := hmem k hkp
    obtain ⟨u, hu0, hu1, h1⟩ := C32_positive_reached _ hnn i _ hi hkp g0
    refine ⟨u, hu0, hu1, ?_⟩
    unfold sampleMutation
    rw [hR, hws, Rand.run_bind, h1]
    simp only [Rand.run_bind, Rand.lift, hc]
    rfl


end SR

namespace SR
open Demo
local instance instMutChoice : Env ℚ := env64

/-- Weights: much on operator mutation, very little on five kinds, nothing on the others; constant
optimisation is switched off. -/
def roundingWeights : MutWeights ℚ :=
  let w : Fl ℚ := .fin (3 / 2 ^ 54)
  { mutateConstant := .fin 0, mutateOperator := .fin 1, mutateFeature := w, swapOperands := w, rotateTree := w,
    addNode := w, insertNode := w, deleteNode := .fin 0, simplify := .fin 0, randomize := .fin 0, doNothing := .fin 0,
    optimize := .fin 0 }

/-- **C34**, the exception is real: in `f64` the largest draw selects constant optimisation although its
weight is zero (all weights are `f64` numbers). -/
theorem C34_optimize_at_zero_weight :
    (∀ k, ∃ y, roundingWeights.of k = .fin y ∧ rnd64 y = .fin y) ∧ roundingWeights.of .optimize = .fin 0 ∧
    ∀ g : Rng (Fl ℚ), g.floats 0 = .fin (1 - 1 / 2 ^ 52) →
      (sampleMutation roundingWeights g).map Prod.fst = some .optimize := by
  refine ⟨?_, rfl, ?_⟩
  · have h : rnd64 1 = .fin 1 ∧ rnd64 (3 / 2 ^ 54) = .fin (3 / 2 ^ 54) ∧ rnd64 0 = .fin 0 := by decide +kernel
    intro k
    cases k <;> first | exact ⟨_, rfl, h.1⟩ | exact ⟨_, rfl, h.2.1⟩ | exact ⟨_, rfl, h.2.2⟩
  · intro g hg
    have h1 : weightedTotal binary64 (roundingWeights.choices.map Prod.snd) (.fin 0)
        = some (.fin (1 + 5 / 2 ^ 52)) := by decide +kernel
    have h2 : weightedLoop binary64 (roundingWeights.choices.map Prod.snd) 0
        (binary64.mul (.fin (1 - 1 / 2 ^ 52)) (.fin (1 + 5 / 2 ^ 52))) = none := by
      decide +kernel
    have h3 : (Fl.fin (1 + 5 / 2 ^ 52 : ℚ)).le (.fin 0) = false := by decide +kernel
    have hw : weightedIndex binary64 (roundingWeights.choices.map Prod.snd) g = some (11, g.nextFloat) := by
      rw [weightedIndex, if_neg (by simp [MutWeights.choices]), h1]
      simp only
      rw [if_neg (by simp [Fl.isFinite, h3]), Rand.run_bind]
      simp only [Rand.float, hg, h2]
      rfl
    unfold sampleMutation
    rw [Rand.run_bind, show (Env.R : Rounding ℚ) = binary64 from rfl, hw]
    rfl

/-- Non-vacuity of `C34_chosen_exact`: the weights `1` for two kinds and `0` for the others. -/
example : ∃ (w : MutWeights ℚ) (v : Mutation → ℚ), (∀ k, w.of k = .fin (v k)) ∧ (∀ k, 0 ≤ v k) ∧ 0 < v .addNode ∧
    v .optimize = 0 :=
  ⟨⟨.fin 0, .fin 0, .fin 0, .fin 0, .fin 0, .fin 1, .fin 1, .fin 0, .fin 0, .fin 0, .fin 0, .fin 0⟩,
    fun k => match k with | .addNode => 1 | .insertNode => 1 | _ => 0,
    fun k => by cases k <;> rfl, fun k => by cases k <;> simp, by simp, rfl⟩

end SR
