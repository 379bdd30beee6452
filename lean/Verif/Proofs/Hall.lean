import Verif.Spec.Search
/-
Lemmas for the hall of fame.
-/
namespace SR
variable {K : Type} [LinearOrder K]

/-- What a slot holds after its candidates have been offered in order. -/
def slotStep (s : Option (Member K)) (m : Member K) : Option (Member K) :=
  if Hall.better m s then some m else s

theorem slotStep_some (b m : Member K) :
    slotStep (some b) m = if m.cost.lt b.cost = true then some m else some b := by
  simp only [slotStep, Hall.better, beq_iff_eq, Fl.cmpG_lt]

theorem slotFold_nan (b : Member K) (hb : b.cost.isNan = true) (l : List (Member K)) :
    l.foldl slotStep (some b) = some b := by
  induction l with
  | nil => rfl
  | cons m l ih =>
    rw [List.foldl_cons, slotStep_some, if_neg, ih]
    intro h
    have := (Fl.lt_not_nan h).2
    simp [hb] at this

/-- The least cost, first among equals, ignoring NaN costs. -/
theorem slotFold_num (b : Member K) (hb : b.cost.isNan = false) (l : List (Member K)) :
    ∃ m, l.foldl slotStep (some b) = some m ∧ m.cost.isNan = false ∧
      ∃ pre post, b :: l = pre ++ m :: post ∧
        (∀ x ∈ pre, x.cost.isNan = false → m.cost.lt x.cost = true) ∧
        (∀ x ∈ b :: l, x.cost.isNan = false → m.cost.le x.cost = true) := by
  induction l generalizing b with
  | nil =>
    refine ⟨b, rfl, hb, [], [], rfl, by simp, ?_⟩
    intro x hx _
    simp at hx; subst hx; exact Fl.le_refl hb
  | cons a l ih =>
    rw [List.foldl_cons, slotStep_some]
    by_cases h : a.cost.lt b.cost = true
    · rw [if_pos h]
      obtain ⟨m, hm, hn, pre, post, he, h1, h2⟩ := ih a (Fl.lt_not_nan h).1
      refine ⟨m, hm, hn, b :: pre, post, by rw [he]; rfl, ?_, ?_⟩
      · intro x hx hxn
        rcases List.mem_cons.mp hx with rfl | hx
        · exact Fl.lt_of_le_of_lt (h2 a (by simp) (Fl.lt_not_nan h).1) h
        · exact h1 x hx hxn
      · intro x hx hxn
        rcases List.mem_cons.mp hx with rfl | hx
        · exact Fl.le_of_lt (Fl.lt_of_le_of_lt (h2 a (by simp) (Fl.lt_not_nan h).1) h)
        · exact h2 x hx hxn
    · rw [if_neg h]
      obtain ⟨m, hm, hn, pre, post, he, h1, h2⟩ := ih b hb
      have hab : a.cost.isNan = false → m.cost.le a.cost = true := by
        intro ha
        exact Fl.le_trans (h2 b (by simp) hb) ((Fl.le_iff hb ha).mpr (by simpa using h))
      cases pre with
      | nil =>
        simp at he
        obtain ⟨rfl, rfl⟩ := he
        refine ⟨b, hm, hn, [], a :: l, rfl, by simp, ?_⟩
        intro x hx hxn
        rcases List.mem_cons.mp hx with rfl | hx
        · exact Fl.le_refl hb
        · rcases List.mem_cons.mp hx with rfl | hx
          · exact hab hxn
          · exact h2 x (by simp [hx]) hxn
      | cons p pre =>
        simp at he
        obtain ⟨rfl, rfl⟩ := he
        refine ⟨m, hm, hn, b :: a :: pre, post, by simp, ?_, ?_⟩
        · intro x hx hxn
          have hmb : m.cost.lt b.cost = true := h1 b (by simp) hb
          rcases List.mem_cons.mp hx with rfl | hx
          · exact hmb
          · rcases List.mem_cons.mp hx with rfl | hx
            · exact Fl.lt_of_lt_of_le hmb ((Fl.le_iff hb hxn).mpr (by simpa using h))
            · exact h1 x (by simp [hx]) hxn
        · intro x hx hxn
          rcases List.mem_cons.mp hx with rfl | hx
          · exact h2 x (by simp) hxn
          · rcases List.mem_cons.mp hx with rfl | hx
            · exact hab hxn
            · exact h2 x (by simp [hx]) hxn

open Classical in
/-- The candidates for complexity `c` among the offers. -/
noncomputable def cands (o : CxOptions) (c : Nat) (offers : List (Offer K)) : List (Member K) :=
  (offers.filter fun x => decide (Offer.Counts o c x)).map Prod.snd

omit [LinearOrder K] in
theorem mem_cands {o : CxOptions} {c : Nat} {offers : List (Offer K)} {m : Member K} :
    m ∈ cands o c offers ↔ ∃ cur, (cur, m) ∈ offers ∧ Offer.Counts o c (cur, m) := by
  simp [cands]

open Classical in
/-- One offer, for members that are trees. -/
theorem consider_tree (o : CxOptions) (hw : o.WF) (cur : Nat) (hcur : cur < usizeMax) (h : Hall K)
    (m : Member K) (ht : m.IsTree o.D) :
    ∃ h', h.consider o cur m = some h' ∧ h'.length = h.length ∧
      ∀ (c : Nat), h'[c]? = if m.Feasible o cur ∧ m.complexity = c ∧ c ≠ 0
        then h[c]?.map (fun s => slotStep s m) else h[c]? := by
  obtain ⟨t, hn, hp, hD⟩ := ht
  obtain ⟨b, hb, hiff⟩ := C23_accepts_iff o hw cur hcur t hp hD
  have hfe : m.Feasible o cur ↔ (o.limits cur).Allows t := by
    constructor
    · rintro ⟨t', h1, h2⟩
      have : t' = t := toPostfix_injective (h1.symm.trans hn)
      exact this ▸ h2
    · intro h; exact ⟨t, hn, h⟩
  rw [Hall.consider, hn, hb]
  cases b with
  | false =>
    refine ⟨h, rfl, rfl, fun c => ?_⟩
    rw [if_neg]
    intro ⟨hf, _⟩
    have := hiff.mpr (hfe.mp hf)
    simp at this
  | true =>
    have hf : m.Feasible o cur := hfe.mpr (hiff.mp rfl)
    simp only [Option.bind_eq_bind, Option.bind_some, Bool.not_true, Bool.false_eq_true, if_false]
    by_cases h0 : m.complexity = 0
    · rw [if_pos h0]
      refine ⟨h, rfl, rfl, fun c => ?_⟩
      rw [if_neg]
      rintro ⟨_, h1, h2⟩; omega
    · rw [if_neg h0]
      cases hs : h[m.complexity]? with
      | none =>
        refine ⟨h, rfl, rfl, fun c => ?_⟩
        by_cases hc : m.Feasible o cur ∧ m.complexity = c ∧ c ≠ 0
        · rw [if_pos hc, ← hc.2.1, hs]; rfl
        · rw [if_neg hc]
      | some s =>
        refine ⟨_, rfl, ?_, fun c => ?_⟩
        · split <;> simp
        · by_cases hc : m.complexity = c
          · subst hc
            have hc3 : m.Feasible o cur ∧ m.complexity = m.complexity ∧ m.complexity ≠ 0 := ⟨hf, rfl, h0⟩
            rw [if_pos hc3, hs]
            have hlt : m.complexity < h.length := by
              by_contra hh
              rw [List.getElem?_eq_none (by omega)] at hs; simp at hs
            simp only [Option.map_some, slotStep]
            by_cases hbt : Hall.better m s = true
            · rw [if_pos hbt, if_pos hbt, List.getElem?_set]; simp [hlt]
            · rw [if_neg hbt, if_neg hbt]; exact hs
          · have hc3 : ¬ (m.Feasible o cur ∧ m.complexity = c ∧ c ≠ 0) := fun h => hc h.2.1
            rw [if_neg hc3]
            by_cases hbt : Hall.better m s = true
            · rw [if_pos hbt, List.getElem?_set]; simp [hc]
            · rw [if_neg hbt]

theorem offerAll_spec (o : CxOptions) (hw : o.WF) (offers : List (Offer K))
    (hoff : ∀ x ∈ offers, x.1 < usizeMax ∧ x.2.IsTree o.D) (h : Hall K) :
    ∃ h', offerAll o h offers = some h' ∧ h'.length = h.length ∧
      ∀ (c : Nat), h'[c]? = if c = 0 then h[c]?
        else h[c]?.map (fun s => (cands o c offers).foldl slotStep s) := by
  classical
  induction offers generalizing h with
  | nil =>
    refine ⟨h, rfl, rfl, fun c => ?_⟩
    split
    · rfl
    · simp [cands]
  | cons x xs ih =>
    obtain ⟨h1, e1, l1, s1⟩ := consider_tree o hw x.1 (hoff x (by simp)).1 h x.2 (hoff x (by simp)).2
    obtain ⟨h2, e2, l2, s2⟩ := ih (fun y hy => hoff y (by simp [hy])) h1
    refine ⟨h2, ?_, l2.trans l1, fun c => ?_⟩
    · show offerAll o h (x :: xs) = some h2
      simp only [offerAll, List.foldlM_cons, e1]
      exact e2
    · rw [s2 c, s1 c]
      by_cases hc : c = 0
      · simp [hc]
      · simp only [hc, if_false, ne_eq, not_false_iff, and_true]
        by_cases hx : Offer.Counts o c x
        · have hx' : x.2.Feasible o x.1 ∧ x.2.complexity = c := hx
          rw [if_pos hx']
          cases h[c]? with
          | none => rfl
          | some s => simp [cands, hx]
        · have hx' : ¬ (x.2.Feasible o x.1 ∧ x.2.complexity = c) := hx
          rw [if_neg hx']
          cases h[c]? with
          | none => rfl
          | some s => simp [cands, hx]

theorem update_eq_offerAll (o : CxOptions) (cur : Nat) (h : Hall K) (ms : List (Member K)) :
    h.update o cur ms = offerAll o h (ms.map fun m => (cur, m)) := by
  induction ms generalizing h with
  | nil => rfl
  | cons m ms ih =>
    rw [Hall.update, List.map_cons, offerAll, List.foldlM_cons]
    congr 1
    funext h'
    exact ih h'

/-! ### Pareto front -/

theorem paretoLoop_sub (l : List (Member K)) (b : Fl K) : List.Sublist (paretoLoop l b) l := by
  induction l generalizing b with
  | nil => exact .slnil
  | cons m l ih =>
    rw [paretoLoop]
    split
    · exact (ih _).cons_cons m
    · exact (ih _).cons m

theorem paretoLoop_mem (l : List (Member K)) (b : Fl K) (m : Member K) (hm : m ∈ paretoLoop l b) :
    m.loss.lt b = true := by
  induction l generalizing b with
  | nil => simp [paretoLoop] at hm
  | cons a l ih =>
    rw [paretoLoop] at hm
    split at hm
    · next h =>
      rcases List.mem_cons.mp hm with rfl | hm
      · exact h
      · exact Fl.lt_trans (ih _ hm) h
    · exact ih _ hm

theorem paretoLoop_desc (l : List (Member K)) (b : Fl K) :
    (paretoLoop l b).Pairwise fun x y => y.loss.lt x.loss = true := by
  induction l generalizing b with
  | nil => exact .nil
  | cons a l ih =>
    rw [paretoLoop]
    split
    · exact .cons (fun y hy => paretoLoop_mem l _ y hy) (ih _)
    · exact ih _

open Classical in
/-- On a list strictly increasing in complexity the loop keeps exactly the elements below the bound that beat
every element of smaller complexity. -/
theorem paretoLoop_filter (l : List (Member K)) : ∀ (pre : List (Member K)) (b : Fl K),
    (pre ++ l).Pairwise (fun x y => x.complexity < y.complexity) →
    (∀ v : Fl K, v.lt b = true ↔ v.lt .pinf = true ∧ ∀ x ∈ pre, x.loss.isNan = false → v.lt x.loss = true) →
    paretoLoop l b = l.filter fun m => decide (m.loss.lt .pinf = true ∧
      ∀ x ∈ pre ++ l, x.complexity < m.complexity → x.loss.isNan = false → m.loss.lt x.loss = true) := by
  induction l with
  | nil => intro pre b _ _; rfl
  | cons m l ih =>
    intro pre b hp hb
    have hp' : ((pre ++ [m]) ++ l).Pairwise (fun x y => x.complexity < y.complexity) := by simpa using hp
    have hm : (m.loss.lt b = true) ↔ (m.loss.lt .pinf = true ∧
        ∀ x ∈ pre ++ m :: l, x.complexity < m.complexity → x.loss.isNan = false →
          m.loss.lt x.loss = true) := by
      rw [hb m.loss]
      have h1 := List.pairwise_append.mp hp
      have h2 := List.pairwise_cons.mp h1.2.1
      constructor
      · rintro ⟨h, hx⟩
        refine ⟨h, fun x hxm hlt hn => ?_⟩
        rcases List.mem_append.mp hxm with hxm | hxm
        · exact hx x hxm hn
        · rcases List.mem_cons.mp hxm with rfl | hxm
          · omega
          · have := h2.1 x hxm; omega
      · rintro ⟨h, hx⟩
        exact ⟨h, fun x hxm hn => hx x (by simp [hxm]) (h1.2.2 x hxm m (by simp)) hn⟩
    rw [paretoLoop, List.filter_cons]
    by_cases h : m.loss.lt b = true
    · have hd := hm.mp h
      rw [if_pos h, if_pos (decide_eq_true hd), ih (pre ++ [m]) m.loss hp' ?_]
      · congr 2
        funext x
        simp
      · intro v
        constructor
        · intro hv
          have := Fl.lt_trans hv h
          have h3 := (hb v).mp this
          refine ⟨h3.1, fun x hx hn => ?_⟩
          rcases List.mem_append.mp hx with hx | hx
          · exact h3.2 x hx hn
          · simp at hx; subst hx; exact hv
        · rintro ⟨_, hx⟩
          exact hx m (by simp) (Fl.lt_not_nan h).1
    · have hd := fun hh => h (hm.mpr hh)
      rw [if_neg h, if_neg (by simpa using hd), ih (pre ++ [m]) b hp' ?_]
      · congr 2
        funext x
        simp
      · intro v
        rw [hb v]
        constructor
        · rintro ⟨h1, hx⟩
          refine ⟨h1, fun x hxm hn => ?_⟩
          rcases List.mem_append.mp hxm with hxm | hxm
          · exact hx x hxm hn
          · simp at hxm; subst hxm
            have hvb : v.lt b = true := (hb v).mpr ⟨h1, hx⟩
            exact Fl.lt_of_lt_of_le hvb ((Fl.le_iff (Fl.lt_not_nan hvb).2 hn).mpr (by simpa using h))
        · rintro ⟨h1, hx⟩
          exact ⟨h1, fun x hxm hn => hx x (by simp [hxm]) hn⟩

end SR
