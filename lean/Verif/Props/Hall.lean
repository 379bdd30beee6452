import Verif.Proofs.Hall
import Mathlib.Data.Rat.Defs
import Mathlib.Algebra.Order.Ring.Rat
/-
C25 (hall of fame), C26 (Pareto front), C27 (NaN costs).
-/
namespace SR
variable {K : Type} [LinearOrder K]

/-- `m` is, among the offers counting for complexity `c`, the first of least cost. -/
def IsFirstLeast (o : CxOptions) (c : Nat) (offers : List (Offer K)) (m : Member K) : Prop :=
  ∃ (pre post : List (Offer K)) (cur : Nat), offers = pre ++ (cur, m) :: post ∧
    Offer.Counts o c (cur, m) ∧
    (∀ x ∈ pre, Offer.Counts o c x → m.cost.lt x.2.cost = true) ∧
    (∀ x ∈ post, Offer.Counts o c x → m.cost.le x.2.cost = true)

omit [LinearOrder K] in
theorem cands_split {o : CxOptions} {c : Nat} {offers : List (Offer K)} {p q : List (Member K)}
    {m : Member K} (h : cands o c offers = p ++ m :: q) :
    ∃ pre post cur, offers = pre ++ (cur, m) :: post ∧ Offer.Counts o c (cur, m) ∧
      cands o c pre = p ∧ cands o c post = q := by
  classical
  induction offers generalizing p with
  | nil => simp [cands] at h
  | cons x xs ih =>
    by_cases hx : Offer.Counts o c x
    · have he : cands o c (x :: xs) = x.2 :: cands o c xs := by simp [cands, hx]
      rw [he] at h
      cases p with
      | nil =>
        simp at h
        obtain ⟨rfl, rfl⟩ := h
        exact ⟨[], xs, x.1, rfl, hx, by simp [cands], rfl⟩
      | cons a p =>
        simp at h
        obtain ⟨rfl, h⟩ := h
        obtain ⟨pre, post, cur, e, h1, h2, h3⟩ := ih h
        exact ⟨x :: pre, post, cur, by rw [e]; rfl, h1, by simp [cands, hx, ← h2], h3⟩
    · have he : cands o c (x :: xs) = cands o c xs := by simp [cands, hx]
      rw [he] at h
      obtain ⟨pre, post, cur, e, h1, h2, h3⟩ := ih h
      exact ⟨x :: pre, post, cur, by rw [e]; rfl, h1, by rw [← h2]; simp [cands, hx], h3⟩

theorem slot_new (o : CxOptions) (hw : o.WF) (max : Nat) (offers : List (Offer K))
    (hoff : ∀ x ∈ offers, x.1 < usizeMax ∧ x.2.IsTree o.D) :
    ∃ h, offerAll o (Hall.new max) offers = some h ∧ h.length = max + 1 ∧
      ∀ (c : Nat) (s : Option (Member K)), h[c]? = some s ↔
        c ≤ max ∧ s = if c = 0 then none else (cands o c offers).foldl slotStep none := by
  obtain ⟨h, e, hl, hs⟩ := offerAll_spec o hw offers hoff (Hall.new max)
  refine ⟨h, e, by simpa [Hall.new] using hl, fun c s => ?_⟩
  rw [hs c]
  simp only [Hall.new, List.getElem?_replicate]
  by_cases hc : c < max + 1
  · have hc' : c ≤ max := by omega
    by_cases h0 : c = 0
    · simp [h0, eq_comm]
    · simp [hc, hc', h0, eq_comm]
  · have hc' : ¬ c ≤ max := by omega
    by_cases h0 : c = 0
    · omega
    · simp [hc, hc', h0]

/-- C25: after any sequence of offered members with comparable costs, no offer panics, and the entry of
complexity `c`, if any (see `C25_entry_exists`), has `1 ≤ c ≤ max` and is the first least-cost member among the offered members
of complexity `c` that satisfied the constraints at the time of the offer. -/
theorem C25_entry (o : CxOptions) (hw : o.WF) (max : Nat) (offers : List (Offer K))
    (hoff : ∀ x ∈ offers, x.1 < usizeMax ∧ x.2.IsTree o.D)
    (hnum : ∀ x ∈ offers, x.2.cost.isNan = false) :
    ∃ h, offerAll o (Hall.new max) offers = some h ∧ h.length = max + 1 ∧
      ∀ (c : Nat) (m : Member K), h[c]? = some (some m) → 1 ≤ c ∧ c ≤ max ∧ IsFirstLeast o c offers m := by
  obtain ⟨h, e, hl, hs⟩ := slot_new o hw max offers hoff
  refine ⟨h, e, hl, fun c m hm => ?_⟩
  obtain ⟨hc, h2⟩ := (hs c (some m)).mp hm
  by_cases h0 : c = 0
  · simp [h0] at h2
  rw [if_neg h0] at h2
  refine ⟨by omega, hc, ?_⟩
  cases hcd : cands o c offers with
  | nil => rw [hcd] at h2; simp at h2
  | cons b l =>
    rw [hcd, List.foldl_cons] at h2
    have hb : slotStep none b = some b := rfl
    rw [hb] at h2
    have hnn : ∀ x ∈ b :: l, x.cost.isNan = false := by
      intro x hx
      rw [← hcd] at hx
      obtain ⟨cur, h3, _⟩ := mem_cands.mp hx
      exact hnum _ h3
    obtain ⟨m', hm', hn, p, q, he, h3, h4⟩ := slotFold_num b (hnn b (by simp)) l
    rw [hm'] at h2
    simp at h2; subst h2
    obtain ⟨pre, post, cur, e2, h5, h6, h7⟩ := cands_split (hcd.trans he)
    refine ⟨pre, post, cur, e2, h5, ?_, ?_⟩
    · intro x hx hcx
      have hxp : x.2 ∈ p := by rw [← h6]; exact mem_cands.mpr ⟨x.1, hx, hcx⟩
      exact h3 x.2 hxp (hnn x.2 (by rw [he]; simp [hxp]))
    · intro x hx hcx
      have hxq : x.2 ∈ q := by rw [← h7]; exact mem_cands.mpr ⟨x.1, hx, hcx⟩
      have hxm : x.2 ∈ b :: l := by rw [he]; simp [hxq]
      exact h4 x.2 hxm (hnn x.2 hxm)

/-- C25: an entry exists for every complexity in range of which a feasible member has been offered (whatever
its cost), and the size of the hall never changes. -/
theorem C25_entry_exists (o : CxOptions) (hw : o.WF) (max : Nat) (offers : List (Offer K))
    (hoff : ∀ x ∈ offers, x.1 < usizeMax ∧ x.2.IsTree o.D) (h : Hall K)
    (hh : offerAll o (Hall.new max) offers = some h) (c : Nat) :
    (∃ m, h[c]? = some (some m)) ↔ 1 ≤ c ∧ c ≤ max ∧ ∃ x ∈ offers, Offer.Counts o c x := by
  obtain ⟨h', e, hl, hs⟩ := slot_new o hw max offers hoff
  rw [hh] at e; simp at e; subst e
  constructor
  · rintro ⟨m, hm⟩
    obtain ⟨hc, h2⟩ := (hs c (some m)).mp hm
    by_cases h0 : c = 0
    · simp [h0] at h2
    rw [if_neg h0] at h2
    refine ⟨by omega, hc, ?_⟩
    cases hcd : cands o c offers with
    | nil => rw [hcd] at h2; simp at h2
    | cons b l =>
      obtain ⟨cur, h3, h4⟩ := mem_cands.mp (show b ∈ cands o c offers by rw [hcd]; simp)
      exact ⟨_, h3, h4⟩
  · rintro ⟨h1, hc, x, hx, hcx⟩
    have hmem : x.2 ∈ cands o c offers := mem_cands.mpr ⟨x.1, hx, hcx⟩
    have : ∃ m, (cands o c offers).foldl slotStep none = some m := by
      cases hcd : cands o c offers with
      | nil => rw [hcd] at hmem; cases hmem
      | cons b l =>
        rw [List.foldl_cons]
        have hb : slotStep none b = some b := rfl
        rw [hb]
        cases hbn : b.cost.isNan with
        | true => exact ⟨b, slotFold_nan b hbn l⟩
        | false => obtain ⟨m, hm, _⟩ := slotFold_num b hbn l; exact ⟨m, hm⟩
    obtain ⟨m, hm⟩ := this
    exact ⟨m, (hs c (some m)).mpr ⟨hc, by rw [if_neg (by omega), hm]⟩⟩

/-- C25: the cost of an entry never increases: after more offers the entry of a complexity is the same member or
one of strictly smaller cost.  (Any costs, including NaN; any hall.) -/
theorem C25_cost_monotone (o : CxOptions) (hw : o.WF) (h : Hall K) (offers : List (Offer K))
    (hoff : ∀ x ∈ offers, x.1 < usizeMax ∧ x.2.IsTree o.D) (c : Nat) (m : Member K)
    (hm : h[c]? = some (some m)) :
    ∃ h' m', offerAll o h offers = some h' ∧ h'[c]? = some (some m') ∧
      (m' = m ∨ m'.cost.lt m.cost = true) := by
  obtain ⟨h', e, hl, hs⟩ := offerAll_spec o hw offers hoff h
  have hs := hs c
  rw [hm] at hs
  by_cases h0 : c = 0
  · rw [if_pos h0] at hs
    exact ⟨h', m, e, hs, .inl rfl⟩
  · rw [if_neg h0, Option.map_some] at hs
    have : ∀ l : List (Member K), ∃ m', l.foldl slotStep (some m) = some m' ∧
        (m' = m ∨ m'.cost.lt m.cost = true) := by
      intro l
      cases hn : m.cost.isNan with
      | true => exact ⟨m, slotFold_nan m hn l, .inl rfl⟩
      | false =>
        obtain ⟨m', h1, h2, pre, post, h3, h4, h5⟩ := slotFold_num m hn l
        refine ⟨m', h1, ?_⟩
        cases pre with
        | nil => simp at h3; exact .inl h3.1.symm
        | cons a pre =>
          simp at h3
          obtain ⟨rfl, _⟩ := h3
          exact .inr (h4 m (by simp) hn)
    obtain ⟨m', h1, h2⟩ := this (cands o c offers)
    exact ⟨h', m', e, by rw [hs, h1], h2⟩

/-- C25: a member that violates the constraints, has complexity 0 or a complexity beyond the hall changes
nothing. -/
theorem C25_rejected (o : CxOptions) (hw : o.WF) (h : Hall K) (cur : Nat) (hcur : cur < usizeMax)
    (m : Member K) (ht : m.IsTree o.D)
    (hrej : ¬ m.Feasible o cur ∨ m.complexity = 0 ∨ h.length ≤ m.complexity) :
    h.consider o cur m = some h := by
  obtain ⟨h', e, hl, hs⟩ := consider_tree o hw cur hcur h m ht
  rw [e]
  congr 1
  apply List.ext_getElem?
  intro c
  rw [hs c]
  split
  · next hc =>
    obtain ⟨h1, h2, h3⟩ := hc
    rcases hrej with hr | hr | hr
    · exact absurd h1 hr
    · omega
    · rw [List.getElem?_eq_none (by omega)]; rfl
  · rfl

/-- C25: offering the members of a population one after the other is what a population update does. -/
theorem C25_update (o : CxOptions) (cur : Nat) (h : Hall K) (ms : List (Member K)) :
    h.update o cur ms = offerAll o h (ms.map fun m => (cur, m)) := update_eq_offerAll o cur h ms

/-- C27: a NaN cost never displaces a comparable one, and the comparable entry is the least of the comparable
ones: if the first member counted for complexity `c` has a comparable cost, then after all offers the entry of
complexity `c` has a comparable cost, not above the cost of any offered comparable member of that complexity. -/
theorem C27_numeric (o : CxOptions) (hw : o.WF) (max : Nat) (pre post : List (Offer K)) (x : Offer K) (c : Nat)
    (hoff : ∀ y ∈ pre ++ x :: post, y.1 < usizeMax ∧ y.2.IsTree o.D) (h1 : 1 ≤ c) (hc : c ≤ max)
    (hpre : ∀ y ∈ pre, ¬ Offer.Counts o c y) (hx : Offer.Counts o c x) (hn : x.2.cost.isNan = false) :
    ∃ h m, offerAll o (Hall.new max) (pre ++ x :: post) = some h ∧ h[c]? = some (some m) ∧
      m.cost.isNan = false ∧ ∀ y ∈ pre ++ x :: post, Offer.Counts o c y → y.2.cost.isNan = false →
        m.cost.le y.2.cost = true := by
  classical
  obtain ⟨h, e, hl, hs⟩ := slot_new o hw max _ hoff
  have hcd : cands o c (pre ++ x :: post) = x.2 :: cands o c post := by
    have : cands o c pre = [] := by
      simp only [cands, List.map_eq_nil_iff, List.filter_eq_nil_iff, decide_eq_true_eq]
      exact hpre
    simp only [cands, List.filter_append, List.map_append] at this ⊢
    rw [this]
    simp [hx]
  obtain ⟨m, hm, hmn, p, q, he, _, h4⟩ := slotFold_num x.2 hn (cands o c post)
  refine ⟨h, m, e, (hs c _).mpr ⟨hc, ?_⟩, hmn, ?_⟩
  · rw [if_neg (by omega), hcd, List.foldl_cons]
    exact hm.symm
  · intro y hy hcy hyn
    apply h4 y.2 _ hyn
    rw [← hcd]
    exact mem_cands.mpr ⟨y.1, hy, hcy⟩

/-- C27 (the exception is real): if the first member counted for complexity `c` has a NaN cost, it keeps the slot
for ever, whatever is offered afterwards. -/
theorem C27_nan_blocks (o : CxOptions) (hw : o.WF) (max : Nat) (pre post : List (Offer K)) (x : Offer K) (c : Nat)
    (hoff : ∀ y ∈ pre ++ x :: post, y.1 < usizeMax ∧ y.2.IsTree o.D) (h1 : 1 ≤ c) (hc : c ≤ max)
    (hpre : ∀ y ∈ pre, ¬ Offer.Counts o c y) (hx : Offer.Counts o c x) (hn : x.2.cost.isNan = true) :
    ∃ h, offerAll o (Hall.new max) (pre ++ x :: post) = some h ∧ h[c]? = some (some x.2) := by
  classical
  obtain ⟨h, e, hl, hs⟩ := slot_new o hw max _ hoff
  have hcd : cands o c (pre ++ x :: post) = x.2 :: cands o c post := by
    have : cands o c pre = [] := by
      simp only [cands, List.map_eq_nil_iff, List.filter_eq_nil_iff, decide_eq_true_eq]
      exact hpre
    simp only [cands, List.filter_append, List.map_append] at this ⊢
    rw [this]
    simp [hx]
  refine ⟨h, e, (hs c _).mpr ⟨hc, ?_⟩⟩
  rw [if_neg (by omega), hcd, List.foldl_cons]
  exact (slotFold_nan x.2 hn _).symm

/-- A hall as produced by the code: slot `c` holds a member of complexity `c`, slot 0 is empty. -/
def Hall.Indexed (h : Hall K) : Prop :=
  ∀ (c : Nat) (m : Member K), h[c]? = some (some m) → m.complexity = c ∧ c ≠ 0

omit [LinearOrder K] in
theorem mem_members {h : Hall K} {m : Member K} : m ∈ h.members ↔ ∃ (c : Nat), h[c]? = some (some m) := by
  simp only [Hall.members, List.mem_filterMap, id_eq, exists_eq_right]
  rw [List.mem_iff_getElem?]

omit [LinearOrder K] in
theorem members_sorted {h : Hall K} (hi : h.Indexed) :
    h.members.Pairwise fun x y => x.complexity < y.complexity := by
  rw [Hall.members, List.pairwise_filterMap, List.pairwise_iff_getElem]
  intro i j hi' hj' hij a ha b hb
  have h1 := (hi i a (by rw [List.getElem?_eq_getElem hi']; simpa using ha)).1
  have h2 := (hi j b (by rw [List.getElem?_eq_getElem hj']; simpa using hb)).1
  omega

/-- C26: every hall reached by offers keeps each member in the slot of its complexity. -/
theorem C26_reachable_indexed (o : CxOptions) (hw : o.WF) (max : Nat) (offers : List (Offer K))
    (hoff : ∀ x ∈ offers, x.1 < usizeMax ∧ x.2.IsTree o.D) (h : Hall K)
    (hh : offerAll o (Hall.new max) offers = some h) : h.Indexed := by
  obtain ⟨h', e, hl, hs⟩ := slot_new o hw max offers hoff
  rw [hh] at e; simp at e; subst e
  intro c m hm
  obtain ⟨hc, h2⟩ := (hs c (some m)).mp hm
  by_cases h0 : c = 0
  · simp [h0] at h2
  rw [if_neg h0] at h2
  refine ⟨?_, h0⟩
  cases hcd : cands o c offers with
  | nil => rw [hcd] at h2; simp at h2
  | cons b l =>
    rw [hcd, List.foldl_cons] at h2
    have hb : slotStep none b = some b := rfl
    rw [hb] at h2
    have hall : ∀ x ∈ b :: l, x.complexity = c := by
      intro x hx
      rw [← hcd] at hx
      obtain ⟨cur, _, h4⟩ := mem_cands.mp hx
      exact h4.2
    cases hbn : b.cost.isNan with
    | true =>
      rw [slotFold_nan b hbn] at h2; simp at h2; subst h2
      exact hall _ (by simp)
    | false =>
      obtain ⟨m', hm', _, p, q, he, _, _⟩ := slotFold_num b hbn l
      rw [hm'] at h2; simp at h2; subst h2
      exact hall _ (by rw [he]; simp)

/-- C26: the reported front is strictly increasing in complexity and strictly decreasing in loss. -/
theorem C26_strict (h : Hall K) (hi : h.Indexed) :
    h.paretoFront.Pairwise fun x y => x.complexity < y.complexity ∧ y.loss.lt x.loss = true := by
  have h1 := (members_sorted hi).sublist (paretoLoop_sub h.members .pinf)
  have h2 := paretoLoop_desc h.members .pinf
  exact h1.and h2

open Classical in
/-- C26: the reported front is exactly the list of hall entries, in order of complexity, whose loss is below
infinity and strictly below the loss of every entry of smaller complexity (NaN losses aside). -/
theorem C26_exact (h : Hall K) (hi : h.Indexed) :
    h.paretoFront = h.members.filter fun m => decide (m.loss.lt .pinf = true ∧
      ∀ x ∈ h.members, x.complexity < m.complexity → x.loss.isNan = false → m.loss.lt x.loss = true) := by
  have := paretoLoop_filter h.members [] .pinf (by simpa using members_sorted hi) (by simp)
  simpa [Hall.paretoFront] using this

/-- C26: only hall entries with a loss below infinity are reported, and none of them is dominated by a hall entry. -/
theorem C26_not_dominated (h : Hall K) (hi : h.Indexed) (m : Member K) (hm : m ∈ h.paretoFront) :
    m ∈ h.members ∧ m.loss.lt .pinf = true ∧
    ∀ x ∈ h.members,
      ¬ (x.complexity < m.complexity ∧ x.loss.le m.loss = true) ∧
      ¬ (x.complexity ≤ m.complexity ∧ x.loss.lt m.loss = true) := by
  classical
  rw [C26_exact h hi, List.mem_filter, decide_eq_true_eq] at hm
  obtain ⟨h1, h2, h3⟩ := hm
  refine ⟨h1, h2, fun x hx => ⟨?_, ?_⟩⟩
  · rintro ⟨hc, hl⟩
    have := Fl.lt_of_lt_of_le (h3 x hx hc (Fl.le_not_nan hl).1) hl
    rw [Fl.lt_irrefl] at this; simp at this
  · rintro ⟨hc, hl⟩
    rcases Nat.lt_or_eq_of_le hc with hc | hc
    · have := Fl.lt_trans (h3 x hx hc (Fl.lt_not_nan hl).1) hl
      rw [Fl.lt_irrefl] at this; simp at this
    · obtain ⟨c1, e1⟩ := mem_members.mp hx
      obtain ⟨c2, e2⟩ := mem_members.mp h1
      have hc1 := (hi c1 x e1).1
      have hc2 := (hi c2 m e2).1
      have : c1 = c2 := by omega
      subst this
      rw [e1] at e2; simp at e2; subst e2
      rw [Fl.lt_irrefl] at hl; simp at hl

/-- C26: every hall entry with a loss below infinity is matched by a front member that is at most as complex and
has at most its loss. -/
theorem C26_covers (h : Hall K) (hi : h.Indexed) (x : Member K) (hx : x ∈ h.members)
    (hl : x.loss.lt .pinf = true) :
    ∃ m ∈ h.paretoFront, m.complexity ≤ x.complexity ∧ m.loss.le x.loss = true := by
  classical
  induction hc : x.complexity using Nat.strongRecOn generalizing x with
  | ind c ih =>
    subst hc
    by_cases hd : ∀ y ∈ h.members, y.complexity < x.complexity → y.loss.isNan = false →
        x.loss.lt y.loss = true
    · refine ⟨x, ?_, le_refl _, Fl.le_refl (Fl.lt_not_nan hl).1⟩
      rw [C26_exact h hi, List.mem_filter, decide_eq_true_eq]
      exact ⟨hx, hl, hd⟩
    · push Not at hd
      obtain ⟨y, hy, hyc, hyn, hyl⟩ := hd
      have hle : y.loss.le x.loss = true := (Fl.le_iff hyn (Fl.lt_not_nan hl).1).mpr (by simpa using hyl)
      obtain ⟨m, hm, h1, h2⟩ := ih y.complexity hyc y hy (Fl.lt_of_le_of_lt hle hl) rfl
      exact ⟨m, hm, by omega, Fl.le_trans h2 hle⟩

/-! ### A concrete case -/

/-- Options with default complexities and no operator constraints. -/
def plainOptions : CxOptions :=
  { D := 2, complexityOfConstants := 1, complexityOfVariables := 1, variableComplexities := none,
    operatorComplexityOverrides := [], maxdepth := 5, opLimits := [], nested := [] }

/-- A member with the given expression, complexity and cost (also used as loss). -/
def sampleMember (id : Nat) (t : Tree) (cost : Fl ℚ) : Member ℚ :=
  { id := id, parent := none, birth := id, expr := ⟨t.toPostfix, []⟩,
    plan := ⟨[], 0, .slot 0, 0⟩, complexity := t.toPostfix.length, loss := cost, cost := cost }

def sampleOffers : List (Offer ℚ) :=
  [(5, sampleMember 0 (.var 0) (.fin 3)), (5, sampleMember 1 (.op 0 [.var 0, .var 1]) (.fin 1)),
   (5, sampleMember 2 (.var 1) (.fin 2)), (2, sampleMember 3 (.op 0 [.var 0, .var 0]) (.fin 0)),
   (5, sampleMember 4 (.op 1 [.var 0]) (.fin 2))]

/-- The cheaper of the two leaves wins its slot, the oversized offer is refused, and the front skips the
dominated entry of complexity 2. -/
example : ((offerAll plainOptions (Hall.new 5) sampleOffers).map fun h => h.members.map (·.id))
    = some [2, 4, 1] := by decide
example : ((offerAll plainOptions (Hall.new 5) sampleOffers).map fun h => h.paretoFront.map (·.id))
    = some [2, 1] := by decide

example : ∀ x ∈ sampleOffers, x.1 < usizeMax ∧ x.2.IsTree plainOptions.D := by
  have hleaf : ∀ i, (Tree.var i).Proper ∧ (Tree.var i).ArityLe 2 := by
    intro i; simp [Tree.Proper, Tree.ArityLe, Tree.All]
  intro x hx
  simp only [sampleOffers, List.mem_cons, List.not_mem_nil, or_false] at hx
  rcases hx with rfl | rfl | rfl | rfl | rfl <;> refine ⟨by decide, _, rfl, ?_, ?_⟩ <;>
    simp [Tree.Proper, Tree.ArityLe, Tree.All, plainOptions]


/-- A NaN cost offered first keeps its slot against a perfect fit; offered second it is ignored. -/
example : ((offerAll plainOptions (Hall.new 5)
    [(5, sampleMember 0 (.var 0) .nan), (5, sampleMember 1 (.var 0) (.fin 0))]).map fun h =>
      h.members.map (·.id)) = some [0] := by decide
example : ((offerAll plainOptions (Hall.new 5)
    [(5, sampleMember 1 (.var 0) (.fin 7)), (5, sampleMember 0 (.var 0) .nan)]).map fun h =>
      h.members.map (·.id)) = some [1] := by decide
example : plainOptions.WF := by
  constructor <;> simp [plainOptions]

end SR
