import Verif.Proofs.Population
import Mathlib.Data.List.Sort
import Mathlib.Data.Rat.Defs
import Mathlib.Algebra.Order.Ring.Rat
/-
C29 (replacement of the oldest), C30 (migration).
-/
namespace SR
variable {K : Type}

/-- C29: in every non-empty population the newcomer takes exactly the place of the first member of least birth;
nothing else changes. -/
theorem C29_replace_oldest (p : Population K) (hne : p ≠ []) (child : Member K) :
    ∃ (i : Nat) (m : Member K), p[i]? = some m ∧ replaceOldest p child = some (p.set i child) ∧
      (p.set i child).length = p.length ∧
      (∀ x ∈ p, m.birth ≤ x.birth) ∧
      (∀ (j : Nat) (x : Member K), j < i → p[j]? = some x → m.birth < x.birth) := by
  obtain ⟨i, b, h1, h2, h3, h4, h5⟩ := oldestIndex_spec p hne
  have hi : p[i]? = some p[i] := List.getElem?_eq_getElem h2
  have hb : b = p[i].birth := by rw [birthAt, hi] at h3; simpa using h3.symm
  subst hb
  refine ⟨i, p[i], hi, ?_, by simp, ?_, ?_⟩
  · rw [replaceOldest, h1]; rfl
  · intro x hx
    obtain ⟨j, hj⟩ := List.mem_iff_getElem?.mp hx
    exact h4 j x.birth (by rw [birthAt, hj]; rfl)
  · intro j x hji hj
    exact h5 j x.birth hji (by rw [birthAt, hj]; rfl)

/-- C29: in every population of at least two members the two newcomers take the places of two distinct members
`m1`, `m2` such that every other member is at least as young as both, and `m1` is at least as old as `m2`; nothing
else changes. -/
theorem C29_replace_two_oldest (p : Population K) (h2 : 2 ≤ p.length) (a b : Member K) :
    ∃ (i1 i2 : Nat) (m1 m2 : Member K), i1 ≠ i2 ∧ p[i1]? = some m1 ∧ p[i2]? = some m2 ∧
      replaceTwoOldest p a b = some ((p.set i1 a).set i2 b) ∧
      ((p.set i1 a).set i2 b).length = p.length ∧ m1.birth ≤ m2.birth ∧
      ∀ (j : Nat) (x : Member K), j ≠ i1 → p[j]? = some x → m2.birth ≤ x.birth := by
  obtain ⟨x, y, he, ⟨hne, hla, hlb, hba, hbb, hle, hrest⟩⟩ := twoOldestIndices_spec p h2
  have h1 : p[x.1]? = some p[x.1] := List.getElem?_eq_getElem hla
  have h3 : p[y.1]? = some p[y.1] := List.getElem?_eq_getElem hlb
  have hx : x.2 = p[x.1].birth := by rw [birthAt, h1] at hba; simpa using hba.symm
  have hy : y.2 = p[y.1].birth := by rw [birthAt, h3] at hbb; simpa using hbb.symm
  refine ⟨x.1, y.1, _, _, hne, h1, h3, ?_, by simp, by omega, ?_⟩
  · rw [replaceTwoOldest, he]; rfl
  · intro j z hj hz
    have hlt : j < p.length := by
      by_contra hh
      rw [List.getElem?_eq_none (by omega)] at hz; simp at hz
    have := hrest j z.birth hlt hj (by rw [birthAt, hz]; rfl)
    omega

/-- C29: replacement panics exactly on populations that are too small. -/
theorem C29_panics (p : Population K) (a b : Member K) :
    (replaceOldest p a = none ↔ p = []) ∧ (replaceTwoOldest p a b = none ↔ p.length < 2) := by
  constructor
  · constructor
    · intro h
      by_contra hne
      obtain ⟨i, _, _, h1, _⟩ := C29_replace_oldest p hne a
      rw [h] at h1; simp at h1
    · rintro rfl; rfl
  · constructor
    · intro h
      by_contra hne
      obtain ⟨i1, i2, _, _, _, _, _, h1, _⟩ := C29_replace_two_oldest p (by omega) a b
      rw [h] at h1; simp at h1
    · intro h
      match p, h with
      | [], _ => rfl
      | [m], _ => rfl

/-- C30: the population keeps its size; some `n` at most
the number of members and the number of migrants copies are placed; the k-th copy is a copy of a migrant
(same expression, complexity, loss and cost) with recorded parent, id `nextId + k` and birth `nextBirth + k`; a
position holds the last copy placed there, and every other position is unchanged; the counters advance by `n`. -/
theorem C30_migrate [Field K] [LinearOrder K] (R : Rounding K) (poisson : Fl K → Rand (Fl K) Nat)
    (dst : Population K) (migrants : List (Member K)) (frac : Fl K) (c : Counters) :
    Rand.Post (migrateInto R poisson dst migrants frac c) fun r =>
      r.1.length = dst.length ∧
      ∃ n, n ≤ dst.length ∧ n ≤ migrants.length ∧
        r.2.nextId = c.nextId + n ∧ r.2.nextBirth = c.nextBirth + n ∧
        ∃ slot : Nat → Nat, ∃ src : Nat → Member K, (∀ k < n, slot k < dst.length ∧ src k ∈ migrants) ∧
          ∀ (i : Nat), (∃ k, k < n ∧ slot k = i ∧ (∀ k', k < k' → k' < n → slot k' ≠ i) ∧
              r.1[i]? = some { src k with
                parent := some (src k).id, id := c.nextId + k, birth := c.nextBirth + k }) ∨
            ((∀ k < n, slot k ≠ i) ∧ r.1[i]? = dst[i]?) := by
  have hnop : ∀ x : Member K, (fun r : Population K × Counters => r.1.length = dst.length ∧
      ∃ n, n ≤ dst.length ∧ n ≤ migrants.length ∧
        r.2.nextId = c.nextId + n ∧ r.2.nextBirth = c.nextBirth + n ∧
        ∃ slot : Nat → Nat, ∃ src : Nat → Member K, (∀ k < n, slot k < dst.length ∧ src k ∈ migrants) ∧
          ∀ (i : Nat), (∃ k, k < n ∧ slot k = i ∧ (∀ k', k < k' → k' < n → slot k' ≠ i) ∧
              r.1[i]? = some { src k with
                parent := some (src k).id, id := c.nextId + k, birth := c.nextBirth + k }) ∨
            ((∀ k < n, slot k ≠ i) ∧ r.1[i]? = dst[i]?)) (dst, c) := by
    intro x
    exact ⟨rfl, 0, by omega, by omega, rfl, rfl, fun _ => 0, fun _ => x, by simp,
      fun i => .inr ⟨by simp, rfl⟩⟩
  have hx : Nonempty (Member K) :=
    ⟨⟨0, none, 0, ⟨[], []⟩, ⟨[], 0, .slot 0, 0⟩, 0, .nan, .nan⟩⟩
  obtain ⟨x⟩ := hx
  rw [migrateInto]
  by_cases h1 : migrants.isEmpty = true
  · rw [if_pos h1]; exact Rand.Post.pure (hnop x)
  rw [if_neg h1]
  by_cases h2 : frac.le (.fin 0) = true
  · rw [if_pos h2]; exact Rand.Post.pure (hnop x)
  rw [if_neg h2]
  by_cases h3 : dst.isEmpty = true
  · rw [if_pos h3]; exact Rand.Post.pure (hnop x)
  rw [if_neg h3]
  simp only
  split
  · exact Rand.Post.pure (hnop x)
  · refine Rand.Post.bind Rand.Post.true fun n _ => ?_
    refine (migrateLoop_total migrants (by simpa using h1) _ dst c (by simpa using h3)).post.mono ?_
    rintro r ⟨h4, h5, h6, slot, src, h7, h8⟩
    exact ⟨h4, _, by omega, by omega, h5, h6, slot, src, h7, h8⟩

/-- C30: migration never panics when the Poisson draw does not (`poisson_sample` itself never panics, but for an
adversarial random stream its rejection loop may not end). -/
theorem C30_no_panic [Field K] [LinearOrder K] (R : Rounding K) (poisson : Fl K → Rand (Fl K) Nat)
    (dst : Population K) (migrants : List (Member K)) (frac : Fl K) (c : Counters) (g : Rng (Fl K))
    (hp : ∀ mean, (poisson mean g).isSome) :
    (migrateInto R poisson dst migrants frac c g).isSome := by
  rw [migrateInto]
  by_cases h1 : migrants.isEmpty = true
  · rw [if_pos h1]; rfl
  rw [if_neg h1]
  by_cases h2 : frac.le (.fin 0) = true
  · rw [if_pos h2]; rfl
  rw [if_neg h2]
  by_cases h3 : dst.isEmpty = true
  · rw [if_pos h3]; rfl
  rw [if_neg h3]
  split
  · rfl
  · obtain ⟨⟨n, g'⟩, hn⟩ := Option.isSome_iff_exists.mp (hp (R.mul (R.ofNat dst.length) frac))
    rw [Rand.run_bind, hn]
    obtain ⟨a, g'', e, _⟩ := migrateLoop_total (F := Fl K) migrants (by simpa using h1)
      (min (min n dst.length) migrants.length) dst c (by simpa using h3) g'
    simp only [e]; rfl

/-- C30: nothing happens without migrants, for a non-positive fraction, or for an empty population. -/
theorem C30_no_migrants [Field K] [LinearOrder K] (R : Rounding K) (poisson : Fl K → Rand (Fl K) Nat)
    (dst : Population K) (migrants : List (Member K)) (frac : Fl K) (c : Counters) (g : Rng (Fl K))
    (h : migrants = [] ∨ frac.le (.fin 0) = true ∨ dst = []) :
    migrateInto R poisson dst migrants frac c g = some ((dst, c), g) := by
  rw [migrateInto]
  rcases h with rfl | h | rfl
  · rfl
  · split
    · rfl
    · rfl
  · split
    · rfl
    · split
      · rfl
      · rfl

/-- C30 (the migrant pool): with comparable costs, the pool of the `topn` best is a part of the population of
size `min topn size`, listed by increasing cost, and no member left out is cheaper than a member of the pool. -/
theorem C30_best_sub_pop [LinearOrder K] (S : SortBy) (p : Population K) (topn : Nat)
    (hn : ∀ m ∈ p, m.cost.isNan = false) :
    ∃ best rest, bestSubPop S p topn = some best ∧ (best ++ rest).Perm p ∧
      best.length = min topn p.length ∧
      best.Pairwise (fun x y => x.cost.le y.cost = true) ∧
      ∀ x ∈ best, ∀ y ∈ rest, x.cost.le y.cost = true := by
  have hnn : ∀ i, i < p.length → (costAt p i).isNan = false := by
    intro i hi
    rw [costAt, List.getElem?_eq_getElem hi]
    exact hn _ (List.getElem_mem hi)
  have hsort := S.sorted (fun i j => (costAt p i).cmpG (costAt p j)) (List.range p.length)
    (by
      intro a ha b hb
      exact Fl.cmpG_swap (hnn a (by simpa using ha)) (hnn b (by simpa using hb)))
    (by
      intro a ha b hb d hd
      rw [Fl.cmpG_ne_gt, Fl.cmpG_ne_gt, Fl.cmpG_ne_gt]
      exact Fl.le_trans)
  set le' : Nat → Nat → Bool := fun a b => (costAt p a).cmpG (costAt p b) != .gt with hle'
  have hle : ∀ a b, le' a b = true ↔ (costAt p a).le (costAt p b) = true := by
    intro a b
    simp only [hle', bne_iff_ne]
    exact Fl.cmpG_ne_gt
  set idxs := (List.range p.length).mergeSort le' with hidx
  have hperm : idxs.Perm (List.range p.length) := List.mergeSort_perm _ _
  have hmem : ∀ i ∈ idxs, i < p.length := fun i hi => by simpa using hperm.mem_iff.mp hi
  have hsorted : idxs.Pairwise fun a b => (costAt p a).le (costAt p b) = true := by
    have hmap : ∀ (l : List Nat), (∀ i ∈ l, i < p.length) →
        (l.mergeSort le').Pairwise fun a b => (costAt p a).le (costAt p b) = true := by
      intro l hl
      have := List.pairwise_mergeSort (le := fun (a b : {i // i < p.length}) => le' a.1 b.1)
        (by intro a b c h1 h2; rw [hle] at *; exact Fl.le_trans h1 h2)
        (by
          intro a b
          rw [Bool.or_eq_true, hle, hle]
          exact Fl.le_total (hnn _ a.2) (hnn _ b.2)) (l.attachWith _ hl)
      have h2 : ((l.attachWith _ hl).mergeSort fun a b => le' a.1 b.1).map Subtype.val = l.mergeSort le' := by
        rw [List.map_mergeSort (r := fun (a b : {i // i < p.length}) => le' a.1 b.1) (s := le')]
        · simp
        · intros; rfl
      rw [← h2, List.pairwise_map]
      exact this.imp fun h => (hle _ _).mp h
    exact hmap _ (by simp)
  have hget : ∀ (l : List Nat), (∀ i ∈ l, i < p.length) →
      (l.filterMap (p[·]?)).length = l.length ∧
      ∀ x ∈ l.filterMap (p[·]?), ∃ i ∈ l, p[i]? = some x ∧ x.cost = costAt p i := by
    intro l hl
    constructor
    · induction l with
      | nil => rfl
      | cons i l ih =>
        rw [List.filterMap_cons, List.getElem?_eq_getElem (hl i (by simp))]
        simp [ih fun j hj => hl j (by simp [hj])]
    · intro x hx
      obtain ⟨i, hi, he⟩ := List.mem_filterMap.mp hx
      exact ⟨i, hi, he, by rw [costAt, he]; rfl⟩
  refine ⟨(idxs.take topn).filterMap (p[·]?), (idxs.drop topn).filterMap (p[·]?), ?_, ?_, ?_, ?_, ?_⟩
  · rw [bestSubPop, hsort]; rfl
  · rw [← List.filterMap_append, List.take_append_drop]
    have h3 := hperm.filterMap (p[·]?)
    refine h3.trans ?_
    have : (List.range p.length).filterMap (p[·]?) = p := by
      apply List.ext_getElem?
      intro i
      rw [show (fun x => p[x]?) = (fun x : Nat => p[x]?) from rfl]
      have hm : (List.range p.length).map (fun i : Nat => p[i]?) = p.map some := by
        apply List.ext_getElem?
        intro j
        by_cases hj : j < p.length
        · simp [hj]
        · simp [hj]
      have h4 : (List.range p.length).filterMap (fun i : Nat => p[i]?)
          = ((List.range p.length).map (fun i : Nat => p[i]?)).filterMap id := by
        rw [List.filterMap_map]; rfl
      rw [h4, hm, List.filterMap_map]
      simp
    rw [this]
  · rw [(hget _ fun i hi => hmem i (List.mem_of_mem_take hi)).1, List.length_take, hperm.length_eq]
    simp
  · rw [List.pairwise_filterMap]
    refine (hsorted.sublist (List.take_sublist _ _)).imp ?_
    intro a b hab x hx y hy
    have e1 : x.cost = costAt p a := by rw [costAt, hx]; rfl
    have e2 : y.cost = costAt p b := by rw [costAt, hy]; rfl
    rw [e1, e2]; exact hab
  · intro x hx y hy
    obtain ⟨i, hi, _, e1⟩ := (hget _ fun i hi => hmem i (List.mem_of_mem_take hi)).2 x hx
    obtain ⟨j, hj, _, e2⟩ := (hget _ fun i hi => hmem i (List.mem_of_mem_drop hi)).2 y hy
    rw [e1, e2]
    rw [← List.take_append_drop topn idxs, List.pairwise_append] at hsorted
    exact hsorted.2.2 i hi j hj

/-! ### Concrete cases -/

/-- A member with a given id and birth and cost. -/
def popSample (id birth : Nat) (cost : Fl ℚ) : Member ℚ :=
  { id := id, parent := none, birth := birth, expr := ⟨[.var 0], []⟩, plan := ⟨[], 0, .slot 0, 0⟩,
    complexity := 1, loss := cost, cost := cost }

example : (replaceOldest [popSample 0 5 (.fin 1), popSample 1 3 (.fin 1), popSample 2 3 (.fin 1)]
    (popSample 9 9 (.fin 0))).map (·.map (·.id)) = some [0, 9, 2] := by decide
example : (replaceTwoOldest [popSample 0 5 (.fin 1), popSample 1 4 (.fin 1), popSample 2 3 (.fin 1)]
    (popSample 8 8 (.fin 0)) (popSample 9 9 (.fin 0))).map (·.map (·.id)) = some [0, 9, 8] := by decide
example : ((migrateLoop [popSample 7 7 (.fin 0)] 2
      [popSample 0 5 (.fin 1), popSample 1 4 (.fin 1), popSample 2 3 (.fin 1)] ⟨20, 30⟩
      : Rand Nat (Population ℚ × Counters)) (Rand.script Nat [2, 0, 1, 0])).map
        (fun r => (r.1.1.map fun m => (m.id, m.birth, m.parent), r.1.2.nextId))
    = some ([(0, 5, none), (21, 31, some 7), (20, 30, some 7)], 22) := by decide

end SR
