import Verif.Model.Random
import Mathlib.Data.List.Perm.Basic
import Mathlib.Data.List.Nodup
import Mathlib.Tactic.Linarith
import Mathlib.Tactic.Ring
import Mathlib.Algebra.Order.BigOperators.Group.List
/-
Lemmas for the samplers.
-/
namespace SR
variable {F α : Type}

theorem swapAt_spec (l : List α) (i j : Nat) (hi : i < l.length) (hj : j < l.length) :
    ∃ l', swapAt l i j = some l' ∧ l'.Perm l ∧ l'.length = l.length ∧
      ∀ (k : Nat), l'[k]? = if k = j then l[i]? else if k = i then l[j]? else l[k]? := by
  refine ⟨(l.set i l[j]).set j l[i], ?_, ?_, by simp, ?_⟩
  · rw [swapAt, List.getElem?_eq_getElem hi, List.getElem?_eq_getElem hj]; rfl
  · by_cases hij : i = j
    · subst hij
      simp
    · exact List.set_set_perm hi hj
  · intro k
    rw [List.getElem?_set, List.getElem?_set]
    by_cases h1 : k = j
    · subst h1; simp [hj, List.getElem?_eq_getElem hi]
    · have h1' : ¬ j = k := fun h => h1 h.symm
      by_cases h2 : k = i
      · subst h2; simp [hi, h1, h1', List.getElem?_eq_getElem hj]
      · have h2' : ¬ i = k := fun h => h2 h.symm
        simp [h1, h1', h2, h2']

theorem shuffleLoop_total (i : Nat) : ∀ l : List α, i < l.length →
    Rand.Total (shuffleLoop i l : Rand F (List α)) fun l' => l'.Perm l := by
  induction i with
  | zero => intro l _; exact Rand.Total.pure (List.Perm.refl _)
  | succ i ih =>
    intro l hl
    rw [shuffleLoop]
    refine Rand.Total.bind (Rand.Total.below (by omega)) fun j hj => ?_
    obtain ⟨l1, e, hp, hlen, _⟩ := swapAt_spec l (i + 1) j hl (by omega)
    refine Rand.Total.bind (P := fun x => x = l1) (Rand.Total.lift ⟨l1, e, rfl⟩) fun x hx => ?_
    subst hx
    exact (ih x (by omega)).mono fun r hr => hr.trans hp

/-- The part above the loop index is final. -/
theorem shuffleLoop_fixed (i : Nat) : ∀ (l : List α) (g : Rng F) (l' : List α) (g' : Rng F),
    i < l.length → shuffleLoop i l g = some (l', g') → ∀ (k : Nat), i < k → l'[k]? = l[k]? := by
  induction i with
  | zero =>
    intro l g l' g' _ h k _
    have : some (l, g) = some (l', g') := h
    simp at this; rw [this.1]
  | succ i ih =>
    intro l g l' g' hl h k hk
    obtain ⟨l1, e, hp, hlen, hget⟩ := swapAt_spec l (i + 1) (g.ints 0 % (i + 2)) hl
      (by have := Nat.mod_lt (g.ints 0) (show i + 2 > 0 by omega); omega)
    have hm := Nat.mod_lt (g.ints 0) (show i + 2 > 0 by omega)
    have h2 : shuffleLoop i l1 g.nextInt = some (l', g') := by
      rw [shuffleLoop, Rand.run_bind] at h
      simp only [Rand.below, Nat.add_eq_zero_iff, OfNat.ofNat_ne_zero, and_false, if_false] at h
      rw [Rand.run_bind] at h
      simp only [Rand.lift, e, Option.map_some] at h
      exact h
    rw [ih l1 _ l' g' (by omega) h2 k (by omega), hget k, if_neg (by omega), if_neg (by omega)]

theorem take_perm {l l' : List α} (n : Nat) (hp : l'.Perm l) (hd : l'.drop n = l.drop n) :
    (l'.take n).Perm (l.take n) := by
  rw [← List.take_append_drop n l', ← List.take_append_drop n l, hd] at hp
  exact (List.perm_append_right_iff _).mp hp

theorem drop_eq_of_getElem? {l l' : List α} {n : Nat} (h : ∀ (k : Nat), n ≤ k → l'[k]? = l[k]?) :
    l'.drop n = l.drop n := by
  apply List.ext_getElem?
  intro k
  rw [List.getElem?_drop, List.getElem?_drop]
  exact h _ (by omega)

theorem shuffleLoop_reach (i : Nat) : ∀ (l l' : List α), i < l.length → l'.Perm l →
    l'.drop (i + 1) = l.drop (i + 1) → ∀ g0 : Rng F,
    ∃ g, (shuffleLoop i l : Rand F (List α)) g = some (l', g0) := by
  induction i with
  | zero =>
    intro l l' hl hp hd g0
    have h1 := take_perm 1 hp hd
    have : l' = l := by
      rw [← List.take_append_drop 1 l', ← List.take_append_drop 1 l, hd]
      congr 1
      match l, hl, l', hp with
      | a :: l, _, b :: l', _ => simpa using h1
      | a :: l, _, [], hp => exact absurd hp.length_eq (by simp)
    exact ⟨g0, by rw [this]; rfl⟩
  | succ i ih =>
    intro l l' hl hp hd g0
    have hl' : i + 1 < l'.length := by rw [hp.length_eq]; exact hl
    have h1 := take_perm (i + 2) hp hd
    have hmem : l'[i + 1] ∈ l.take (i + 2) := by
      apply h1.mem_iff.mp
      rw [List.mem_take_iff_getElem]
      exact ⟨i + 1, by omega, rfl⟩
    obtain ⟨j, hj, hje⟩ := List.mem_take_iff_getElem.mp hmem
    have hj2 : j < i + 2 := by omega
    have hj3 : j < l.length := by omega
    obtain ⟨l1, e, hp1, hlen, hget⟩ := swapAt_spec l (i + 1) j hl hj3
    have hd1 : l'.drop (i + 1) = l1.drop (i + 1) := by
      apply drop_eq_of_getElem?
      intro k hk
      rw [hget k]
      by_cases hk1 : k = i + 1
      · subst hk1
        rw [List.getElem?_eq_getElem hl']
        split
        · next h => subst h; rw [List.getElem?_eq_getElem hl, ← hje]
        · rw [if_pos rfl, List.getElem?_eq_getElem hj3, ← hje]
      · rw [if_neg (by omega), if_neg hk1]
        have : (l'.drop (i + 1 + 1))[k - (i + 2)]? = (l.drop (i + 1 + 1))[k - (i + 2)]? := by rw [hd]
        rw [List.getElem?_drop, List.getElem?_drop] at this
        rw [show i + 1 + 1 + (k - (i + 2)) = k by omega] at this
        exact this
    obtain ⟨g, hg⟩ := ih l1 l' (by omega) (hp.trans hp1.symm) hd1 g0
    refine ⟨Rand.consInt j g, ?_⟩
    rw [shuffleLoop, Rand.run_bind, Rand.below_cons hj2]
    simp only
    rw [Rand.run_bind]
    simp only [Rand.lift, e, Option.map_some]
    exact hg

theorem shuffleLoop_inj (i : Nat) : ∀ (l : List α) (g1 g2 : Rng F) (l' : List α) (g1' g2' : Rng F),
    l.Nodup → i < l.length → shuffleLoop i l g1 = some (l', g1') → shuffleLoop i l g2 = some (l', g2') →
    ∀ k < i, g1.ints k % (i + 1 - k) = g2.ints k % (i + 1 - k) := by
  induction i with
  | zero => intro l g1 g2 l' g1' g2' _ _ _ _ k hk; omega
  | succ i ih =>
    intro l g1 g2 l' g1' g2' hnd hl h1 h2 k hk
    have step : ∀ (g g' : Rng F), shuffleLoop (i + 1) l g = some (l', g') →
        ∃ l1, swapAt l (i + 1) (g.ints 0 % (i + 2)) = some l1 ∧
          shuffleLoop i l1 g.nextInt = some (l', g') ∧ l1.length = l.length ∧ l1.Perm l ∧
          l'[i + 1]? = l[g.ints 0 % (i + 2)]? := by
      intro g g' h
      have hm := Nat.mod_lt (g.ints 0) (show i + 2 > 0 by omega)
      obtain ⟨l1, e, hp, hlen, hget⟩ := swapAt_spec l (i + 1) (g.ints 0 % (i + 2)) hl (by omega)
      have h2 : shuffleLoop i l1 g.nextInt = some (l', g') := by
        rw [shuffleLoop, Rand.run_bind] at h
        simp only [Rand.below, Nat.add_eq_zero_iff, OfNat.ofNat_ne_zero, and_false, if_false] at h
        rw [Rand.run_bind] at h
        simp only [Rand.lift, e, Option.map_some] at h
        exact h
      refine ⟨l1, e, h2, hlen, hp, ?_⟩
      rw [shuffleLoop_fixed i l1 _ l' g' (by omega) h2 (i + 1) (by omega), hget]
      split
      · next h => rw [h]
      · rw [if_pos rfl]
    obtain ⟨a, ea, ha, hla, hpa, hga⟩ := step g1 g1' h1
    obtain ⟨b, eb, hb, hlb, hpb, hgb⟩ := step g2 g2' h2
    have hm1 := Nat.mod_lt (g1.ints 0) (show i + 2 > 0 by omega)
    have hm2 := Nat.mod_lt (g2.ints 0) (show i + 2 > 0 by omega)
    have hj : g1.ints 0 % (i + 2) = g2.ints 0 % (i + 2) := by
      have := hga.symm.trans hgb
      rw [List.getElem?_eq_getElem (by omega), List.getElem?_eq_getElem (by omega)] at this
      exact (hnd.getElem_inj_iff).mp (by simpa using this)
    cases k with
    | zero => exact hj
    | succ k =>
      rw [hj, eb] at ea
      simp at ea; subst ea
      have := ih b g1.nextInt g2.nextInt l' g1' g2' (hpb.nodup_iff.mpr hnd) (by omega) ha hb k (by omega)
      rw [show i + 1 + 1 - (k + 1) = i + 1 - k by omega]
      exact this

/-! ### Index sampling -/

theorem rejectLoop_post (len take fuel : Nat) : ∀ out : List Nat, out.Nodup → (∀ i ∈ out, i < len) →
    out.length ≤ take →
    Rand.Post (rejectLoop len take fuel out : Rand F (List Nat)) fun r =>
      r.length = take ∧ r.Nodup ∧ ∀ i ∈ r, i < len := by
  induction fuel with
  | zero => intro out _ _ _; exact Rand.Post.fail
  | succ fuel ih =>
    intro out h1 h2 h3
    rw [rejectLoop]
    split
    · refine Rand.Post.bind Rand.Post.below fun idx hidx => ?_
      split
      · exact ih out h1 h2 h3
      · next hc =>
        have hc' : idx ∉ out := by simpa using hc
        apply ih
        · rw [List.nodup_append]
          exact ⟨h1, by simp, fun a ha b hb h => hc' (by simp at hb; rw [← hb, ← h]; exact ha)⟩
        · intro i hi
          rcases List.mem_append.mp hi with hi | hi
          · exact h2 i hi
          · simp at hi; omega
        · simp; omega
    · exact Rand.Post.pure ⟨by omega, h1, h2⟩

theorem partialShuffle_total (k : Nat) : ∀ (i : Nat) (v : List Nat), i + k ≤ v.length →
    Rand.Total (partialShuffle k i v : Rand F (List Nat)) fun r => r.Perm v := by
  induction k with
  | zero => intro i v _; exact Rand.Total.pure (List.Perm.refl _)
  | succ k ih =>
    intro i v h
    rw [partialShuffle]
    refine Rand.Total.bind (Rand.Total.below (by omega)) fun d hd => ?_
    obtain ⟨v1, e, hp, hlen, _⟩ := swapAt_spec v i (i + d) (by omega) (by omega)
    refine Rand.Total.bind (P := fun x => x = v1) (Rand.Total.lift ⟨v1, e, rfl⟩) fun x hx => ?_
    subst hx
    exact (ih (i + 1) x (by omega)).mono fun r hr => hr.trans hp

theorem rejectLoop_reach (len take : Nat) : ∀ (rest out : List Nat) (fuel : Nat) (g0 : Rng F),
    (out ++ rest).Nodup → (∀ i ∈ rest, i < len) → out.length + rest.length = take → rest.length < fuel →
    ∃ g, (rejectLoop len take fuel out : Rand F (List Nat)) g = some (out ++ rest, g0) := by
  intro rest
  induction rest with
  | nil =>
    intro out fuel g0 _ _ hl hf
    cases fuel with
    | zero => simp at hf
    | succ fuel =>
      refine ⟨g0, ?_⟩
      rw [rejectLoop, if_neg (by simp at hl; omega), List.append_nil]; rfl
  | cons x rest ih =>
    intro out fuel g0 hnd hr hl hf
    cases fuel with
    | zero => simp at hf
    | succ fuel =>
      have hx : x ∉ out := by
        intro h
        rw [List.nodup_append] at hnd
        exact hnd.2.2 x h x (by simp) rfl
      obtain ⟨g, hg⟩ := ih (out ++ [x]) fuel g0 (by simpa using hnd) (fun i hi => hr i (by simp [hi]))
        (by simp at hl ⊢; omega) (by simp at hf; omega)
      refine ⟨Rand.consInt x g, ?_⟩
      rw [rejectLoop, if_pos (by simp at hl; omega), Rand.run_bind, Rand.below_cons (hr x (by simp))]
      have hc : out.contains x = false := by simpa using hx
      simp only [hc, Bool.false_eq_true, if_false]
      rw [hg]; simp

theorem partialShuffle_reach (rest : List Nat) : ∀ (i : Nat) (v : List Nat) (g0 : Rng F),
    i + rest.length ≤ v.length → v.Nodup → rest.Nodup → (∀ x ∈ rest, x ∈ v.drop i) →
    ∃ g r, (partialShuffle rest.length i v : Rand F (List Nat)) g = some (r, g0) ∧
      r.take (i + rest.length) = v.take i ++ rest := by
  induction rest with
  | nil => intro i v g0 _ _ _ _; exact ⟨g0, v, rfl, by simp⟩
  | cons x rest ih =>
    intro i v g0 hl hnd hrn hr
    have hx := hr x (by simp)
    obtain ⟨d, hd, hdx⟩ := List.mem_iff_getElem.mp hx
    rw [List.length_drop] at hd
    have hdx' : v[i + d]? = some x := by
      rw [List.getElem?_eq_getElem (by omega), ← hdx, List.getElem_drop]
    obtain ⟨v1, e, hp, hlen, hget⟩ := swapAt_spec v i (i + d) (by simp at hl; omega) (by omega)
    have hv1i : v1[i]? = some x := by
      rw [hget i]
      split
      · next h =>
        have : d = 0 := by omega
        subst this; simpa using hdx'
      · rw [if_pos rfl]; exact hdx'
    have htake : v1.take i = v.take i := by
      apply List.ext_getElem?
      intro k
      rw [List.getElem?_take, List.getElem?_take]
      split
      · rw [hget k, if_neg (by omega), if_neg (by omega)]
      · rfl
    have htake1 : v1.take (i + 1) = v.take i ++ [x] := by
      rw [List.take_succ, htake, hv1i]; rfl
    have hnd1 := hp.nodup_iff.mpr hnd
    obtain ⟨g, r, hg, hr2⟩ := ih (i + 1) v1 g0 (by simp at hl; omega) hnd1 (by simp at hrn; exact hrn.2) (by
      intro y hy
      have hyv : y ∈ v1 := hp.mem_iff.mpr (List.mem_of_mem_drop (hr y (by simp [hy])))
      rw [← List.take_append_drop (i + 1) v1, List.mem_append] at hyv
      rcases hyv with hyv | hyv
      · rw [htake1, List.mem_append] at hyv
        exfalso
        rcases hyv with hyv | hyv
        · have h3 := hr y (by simp [hy])
          rw [← List.take_append_drop i v, List.nodup_append] at hnd
          exact hnd.2.2 y hyv y h3 rfl
        · simp at hyv; subst hyv
          simp at hrn; exact hrn.1 hy
      · exact hyv)
    refine ⟨Rand.consInt d g, r, ?_, ?_⟩
    · rw [List.length_cons, partialShuffle, Rand.run_bind, Rand.below_cons hd]
      simp only
      rw [Rand.run_bind]
      simp only [Rand.lift, e, Option.map_some]
      exact hg
    · rw [List.length_cons, show i + (rest.length + 1) = i + 1 + rest.length by omega, hr2, htake1]
      simp

/-! ### Weighted choice -/
section Weighted
variable {K : Type} [Field K] [LinearOrder K]

theorem weightedLoop_range (R : Rounding K) (ws : List (Fl K)) : ∀ (idx : Nat) (t : Fl K) (r : Nat),
    weightedLoop R ws idx t = some r →
      idx ≤ r ∧ ∃ w, ws[r - idx]? = some w ∧ w.le (.fin 0) = false ∧ r < idx + ws.length := by
  induction ws with
  | nil => intro idx t r h; simp [weightedLoop] at h
  | cons w ws ih =>
    intro idx t r h
    rw [weightedLoop] at h
    have rec' : ∀ t', weightedLoop R ws (idx + 1) t' = some r →
        idx ≤ r ∧ ∃ w', (w :: ws)[r - idx]? = some w' ∧ w'.le (.fin 0) = false ∧
          r < idx + (w :: ws).length := by
      intro t' h'
      obtain ⟨h1, w', h2, h3, h4⟩ := ih _ _ _ h'
      refine ⟨by omega, w', ?_, h3, by simp; omega⟩
      rw [show r - idx = (r - (idx + 1)) + 1 by omega]
      simpa using h2
    by_cases h1 : w.le (.fin 0) = true
    · rw [if_pos h1] at h; exact rec' _ h
    · rw [if_neg h1] at h
      by_cases h2 : t.lt w = true
      · rw [if_pos h2] at h; simp at h; subst h
        exact ⟨by omega, w, by simp, by simpa using h1, by simp⟩
      · rw [if_neg h2] at h; exact rec' _ h

variable [IsStrictOrderedRing K]

theorem exact_sub (x y : K) : (Rounding.exact K).sub (.fin x) (.fin y) = .fin (x - y) := by
  simp [Rounding.sub, Rounding.add, Fl.neg, Rounding.exact, sub_eq_add_neg]
theorem exact_add (x y : K) : (Rounding.exact K).add (.fin x) (.fin y) = .fin (x + y) := rfl
theorem exact_mul (x y : K) : (Rounding.exact K).mul (.fin x) (.fin y) = .fin (x * y) := rfl

theorem weightedLoop_exact (ws : List K) (hw : ∀ w ∈ ws, 0 ≤ w) : ∀ (idx : Nat) (t : K), 0 ≤ t → t < ws.sum →
    ∃ i, weightedLoop (Rounding.exact K) (ws.map .fin) idx (.fin t) = some (idx + i) ∧ i < ws.length ∧
      (ws.take i).sum ≤ t ∧ t < (ws.take (i + 1)).sum := by
  induction ws with
  | nil => intro idx t h1 h2; simp at h2; exact absurd h1 (not_le.mpr h2)
  | cons w ws ih =>
    intro idx t h1 h2
    have hw0 := hw w (by simp)
    have hws : ∀ x ∈ ws, 0 ≤ x := fun x hx => hw x (by simp [hx])
    rw [List.map_cons, weightedLoop]
    rw [List.sum_cons] at h2
    simp only [Fl.le, Fl.lt, decide_eq_true_eq]
    by_cases h3 : w ≤ 0
    · rw [if_pos h3]
      have : w = 0 := le_antisymm h3 hw0
      subst this
      obtain ⟨i, e, hi, ha, hb⟩ := ih hws (idx + 1) t h1 (by linarith)
      exact ⟨i + 1, by rw [e]; congr 1; omega, by simp; omega, by simpa using ha, by simpa using hb⟩
    · rw [if_neg h3]
      by_cases h4 : t < w
      · rw [if_pos h4]
        exact ⟨0, rfl, by simp, by simpa using h1, by simpa using h4⟩
      · rw [if_neg h4, exact_sub]
        push Not at h4
        obtain ⟨i, e, hi, ha, hb⟩ := ih hws (idx + 1) (t - w) (by linarith) (by linarith)
        exact ⟨i + 1, by rw [e]; congr 1; omega, by simp; omega, by simp; linarith, by simp; linarith⟩

theorem weightedTotal_exact (ws : List K) (hw : ∀ w ∈ ws, 0 ≤ w) : ∀ t : K,
    weightedTotal (Rounding.exact K) (ws.map .fin) (.fin t) = some (.fin (t + ws.sum)) := by
  induction ws with
  | nil => intro t; simp [weightedTotal]
  | cons w ws ih =>
    intro t
    rw [List.map_cons, weightedTotal, if_neg, exact_add, ih fun x hx => hw x (by simp [hx]), List.sum_cons]
    · congr 2; ring
    · have := hw w (by simp)
      simp [Fl.isFinite, Fl.lt, this]

end Weighted
end SR
