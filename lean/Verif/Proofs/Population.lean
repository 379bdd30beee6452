import Verif.Model.Population
import Mathlib.Tactic.Common
/-
Lemmas for population replacement and migration.
-/
namespace SR
variable {K : Type}

/-- The birth of the member at an index. -/
def birthAt (p : Population K) (i : Nat) : Option Nat := p[i]?.map (·.birth)

theorem oldestLoop_spec (p : Population K) : ∀ (ms : List (Member K)) (i : Nat) (best : Nat × Nat),
    p.drop i = ms → best.1 < i → i ≤ p.length → birthAt p best.1 = some best.2 →
    (∀ (j b : Nat), j < i → birthAt p j = some b → best.2 ≤ b) →
    (∀ (j b : Nat), j < best.1 → birthAt p j = some b → best.2 < b) →
    let r := oldestLoop ms i best
    r.1 < p.length ∧ birthAt p r.1 = some r.2 ∧ (∀ (j b : Nat), birthAt p j = some b → r.2 ≤ b) ∧
      (∀ (j b : Nat), j < r.1 → birthAt p j = some b → r.2 < b) := by
  intro ms
  induction ms with
  | nil =>
    intro i best hd h1 hi h2 h3 h4
    have hi' : p.length ≤ i := by simpa using hd
    refine ⟨by simp only [oldestLoop]; omega, h2, ?_, h4⟩
    intro j b hj
    apply h3 j b _ hj
    by_contra hh
    rw [birthAt, List.getElem?_eq_none (by omega)] at hj; simp at hj
  | cons m ms ih =>
    intro i best hd h1 hi h2 h3 h4
    have hlt : i < p.length := by
      by_contra hh
      rw [List.drop_eq_nil_of_le (by omega)] at hd; simp at hd
    have hm : p[i]? = some m := by
      have : (p.drop i)[0]? = some m := by rw [hd]; rfl
      simpa using this
    have hd' : p.drop (i + 1) = ms := by
      rw [← List.tail_drop, hd]; rfl
    have hbm : birthAt p i = some m.birth := by rw [birthAt, hm]; rfl
    rw [oldestLoop]
    apply ih (i + 1) _ hd'
    · split
      · exact Nat.lt_succ_self i
      · omega
    · omega
    · split
      · exact hbm
      · exact h2
    · intro j b hj hb
      rcases Nat.lt_or_eq_of_le (Nat.le_of_lt_succ hj) with hj | rfl
      · have := h3 j b hj hb
        split
        · simp; omega
        · exact this
      · rw [hbm] at hb; simp at hb; subst hb
        split
        · simp
        · omega
    · split
      · next hlt' =>
        intro j b hj hb
        simp only at hj ⊢
        have := h3 j b hj hb
        omega
      · exact h4

theorem oldestIndex_spec (p : Population K) (hne : p ≠ []) :
    ∃ i b, oldestIndex p = some i ∧ i < p.length ∧ birthAt p i = some b ∧
      (∀ (j c : Nat), birthAt p j = some c → b ≤ c) ∧
      (∀ (j c : Nat), j < i → birthAt p j = some c → b < c) := by
  cases p with
  | nil => exact absurd rfl hne
  | cons m ms =>
    have := oldestLoop_spec (m :: ms) ms 1 (0, m.birth) rfl (by simp) (by simp) rfl
      (by
        intro j b hj hb
        have : j = 0 := by omega
        subst this
        simp [birthAt] at hb
        omega)
      (by intro j b hj; simp at hj)
    exact ⟨_, _, rfl, this.1, this.2.1, this.2.2.1, this.2.2.2⟩

/-- Loop invariant of `two_oldest_indices` once two members have been seen. -/
structure TwoOldest (p : Population K) (n : Nat) (a b : Nat × Nat) : Prop where
  ne : a.1 ≠ b.1
  lta : a.1 < n
  ltb : b.1 < n
  ha : birthAt p a.1 = some a.2
  hb : birthAt p b.1 = some b.2
  le : a.2 ≤ b.2
  rest : ∀ (j c : Nat), j < n → j ≠ a.1 → birthAt p j = some c → b.2 ≤ c

theorem twoOldestLoop_spec (p : Population K) : ∀ (ms : List (Member K)) (i : Nat) (a b : Nat × Nat),
    p.drop i = ms → i ≤ p.length → TwoOldest p i a b →
    ∃ a' b', twoOldestLoop ms i (some a, some b) = (some a', some b') ∧ TwoOldest p p.length a' b' := by
  intro ms
  induction ms with
  | nil =>
    intro i a b hd hi h
    have hi' : p.length ≤ i := by simpa using hd
    have : i = p.length := by omega
    exact ⟨a, b, rfl, this ▸ h⟩
  | cons m ms ih =>
    intro i a b hd hi h
    have hlt : i < p.length := by
      by_contra hh
      rw [List.drop_eq_nil_of_le (by omega)] at hd; simp at hd
    have hm : p[i]? = some m := by
      have : (p.drop i)[0]? = some m := by rw [hd]; rfl
      simpa using this
    have hd' : p.drop (i + 1) = ms := by
      rw [← List.tail_drop, hd]; rfl
    have hbm : birthAt p i = some m.birth := by rw [birthAt, hm]; rfl
    obtain ⟨a1, a2⟩ := a
    obtain ⟨b1, b2⟩ := b
    obtain ⟨hne, hla, hlb, hba, hbb, hle, hrest⟩ := h
    simp only at *
    rw [twoOldestLoop, twoOldestStep]
    by_cases h1 : m.birth < a2
    · rw [if_pos h1]
      refine ih (i + 1) _ _ hd' (by omega) ⟨by simp; omega, by simp, by simp; omega, hbm, hba, by simp; omega, ?_⟩
      intro j c hj hja hc
      simp only at hja ⊢
      by_cases hj1 : j = a1
      · subst hj1; rw [hba] at hc; simp at hc; omega
      · have := hrest j c (by omega) hj1 hc; omega
    · rw [if_neg h1]
      by_cases h2 : m.birth < b2
      · have h3 : m.birth < b2 ∧ a1 ≠ i := ⟨h2, by omega⟩
        simp only [if_pos h3]
        refine ih (i + 1) _ _ hd' (by omega)
          ⟨by simp; omega, by simp; omega, by simp, hba, hbm, by simp; omega, ?_⟩
        intro j c hj hja hc
        simp only at hja ⊢
        by_cases hj1 : j = i
        · subst hj1; rw [hbm] at hc; simp at hc; omega
        · have := hrest j c (by omega) hja hc; omega
      · have h3 : ¬ (m.birth < b2 ∧ a1 ≠ i) := fun h => h2 h.1
        simp only [if_neg h3]
        refine ih (i + 1) _ _ hd' (by omega)
          ⟨hne, by simp; omega, by simp; omega, hba, hbb, hle, ?_⟩
        intro j c hj hja hc
        simp only at hja ⊢
        by_cases hj1 : j = i
        · subst hj1; rw [hbm] at hc; simp at hc; omega
        · exact hrest j c (by omega) hja hc

theorem twoOldestIndices_spec (p : Population K) (h2 : 2 ≤ p.length) :
    ∃ a b, twoOldestIndices p = some (a.1, b.1) ∧ TwoOldest p p.length a b := by
  match p, h2 with
  | m0 :: m1 :: ms, _ =>
    have key : ∃ a b, twoOldestStep 1 m1.birth (some (0, m0.birth), none) = (some a, some b) ∧
        TwoOldest (m0 :: m1 :: ms) 2 a b := by
      rw [twoOldestStep]
      by_cases h : m1.birth < m0.birth
      · rw [if_pos h]
        refine ⟨_, _, rfl, ⟨by simp, by simp, by simp, rfl, rfl, by simp; omega, ?_⟩⟩
        intro j c hj hja hc
        have : j = 0 := by simp at hja; omega
        subst this; simp [birthAt] at hc; simp; omega
      · rw [if_neg h]
        refine ⟨(0, m0.birth), (1, m1.birth), rfl, ⟨by simp, by simp, by simp, rfl, rfl, by simp; omega, ?_⟩⟩
        intro j c hj hja hc
        have : j = 1 := by simp at hja; omega
        subst this; simp [birthAt] at hc; simp; omega
    obtain ⟨a, b, he, hinv⟩ := key
    obtain ⟨a', b', hl, hinv'⟩ := twoOldestLoop_spec (m0 :: m1 :: ms) ms 2 a b rfl (by simp) hinv
    refine ⟨a', b', ?_, hinv'⟩
    have : twoOldestLoop (m0 :: m1 :: ms) 0 (none, none) = (some a', some b') := by
      rw [twoOldestLoop, twoOldestLoop]
      rw [show twoOldestStep 0 m0.birth (none, none) = (some (0, m0.birth), none) from rfl, he]
      exact hl
    rw [twoOldestIndices, this]

/-! ### Migration -/

/-- The copy of migrant `src` with fresh id and birth. -/
def freshCopy (src : Member K) (id birth : Nat) : Member K :=
  { src with parent := some src.id, id := id, birth := birth }

theorem choose_total {F α : Type} (l : List α) (h : l ≠ []) :
    Rand.Total (choose l : Rand F (Option α)) (fun r => ∃ x ∈ l, r = some x) := by
  have hl : 0 < l.length := List.length_pos_iff.mpr h
  rw [choose, if_neg (by simpa using h)]
  refine Rand.Total.bind (Rand.Total.below hl) fun i hi => ?_
  refine Rand.Total.bind (P := fun x => x ∈ l) (Rand.Total.lift ⟨l[i], List.getElem?_eq_getElem hi,
    List.getElem_mem hi⟩) fun x hx => ?_
  exact Rand.Total.pure ⟨x, hx, rfl⟩

theorem migrateLoop_total {F : Type} (migrants : List (Member K)) (hm : migrants ≠ []) (n : Nat) :
    ∀ (dst : Population K) (c : Counters), dst ≠ [] →
    Rand.Total (migrateLoop migrants n dst c : Rand F (Population K × Counters)) fun r =>
      r.1.length = dst.length ∧ r.2.nextId = c.nextId + n ∧ r.2.nextBirth = c.nextBirth + n ∧
      ∃ slot : Nat → Nat, ∃ src : Nat → Member K, (∀ k < n, slot k < dst.length ∧ src k ∈ migrants) ∧
        ∀ (i : Nat), (∃ k, k < n ∧ slot k = i ∧ (∀ k', k < k' → k' < n → slot k' ≠ i) ∧
            r.1[i]? = some (freshCopy (src k) (c.nextId + k) (c.nextBirth + k))) ∨
          ((∀ k < n, slot k ≠ i) ∧ r.1[i]? = dst[i]?) := by
  induction n with
  | zero =>
    intro dst c hd
    refine Rand.Total.pure ⟨rfl, rfl, rfl, fun _ => 0, fun _ => migrants.head hm, by simp, fun i => .inr ⟨by simp, rfl⟩⟩
  | succ n ih =>
    intro dst c hd
    have hl : 0 < dst.length := List.length_pos_iff.mpr hd
    rw [migrateLoop]
    refine Rand.Total.bind (Rand.Total.below hl) fun loc hloc => ?_
    refine Rand.Total.bind (choose_total migrants hm) fun s hs => ?_
    obtain ⟨x, hx, rfl⟩ := hs
    have hne : dst.set loc (migrantCopy c x) ≠ [] := by
      intro h
      have := congrArg List.length h
      simp at this; exact hd this
    refine (ih (dst.set loc (migrantCopy c x)) ⟨c.nextId + 1, c.nextBirth + 1⟩ hne).mono ?_
    rintro ⟨r, rc⟩ ⟨h1, h2, h3, slot, src, h4, h5⟩
    simp only at h1 h2 h3 h5 ⊢
    refine ⟨by simpa using h1, by omega, by omega, fun k => match k with | 0 => loc | k + 1 => slot k,
      fun k => match k with | 0 => x | k + 1 => src k, ?_, ?_⟩
    · intro k hk
      cases k with
      | zero => exact ⟨hloc, hx⟩
      | succ k => have := h4 k (by omega); simpa using this
    · intro i
      rcases h5 i with ⟨k, hk, hsk, hlast, hr⟩ | ⟨hno, hr⟩
      · refine .inl ⟨k + 1, by omega, hsk, ?_, ?_⟩
        · intro k' hk' hkn
          cases k' with
          | zero => omega
          | succ k' => exact hlast k' (by omega) (by omega)
        · rw [hr]
          congr 2 <;> omega
      · by_cases hi : loc = i
        · subst hi
          refine .inl ⟨0, by omega, rfl, ?_, ?_⟩
          · intro k' hk' hkn
            cases k' with
            | zero => omega
            | succ k' => exact hno k' (by omega)
          · rw [hr, List.getElem?_set]
            simp [hloc, migrantCopy, freshCopy]
        · refine .inr ⟨?_, ?_⟩
          · intro k hk
            cases k with
            | zero => exact hi
            | succ k => exact hno k (by omega)
          · rw [hr, List.getElem?_set]; simp [hi]

end SR
