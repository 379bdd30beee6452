import Verif.Spec.Rows
import Verif.Proofs.Postfix
import Verif.Props.Baseline
import Mathlib.Algebra.BigOperators.Group.List.Basic
import Mathlib.Algebra.Order.Field.Basic
import Mathlib.Data.List.Perm.Basic
/-
Lemmas for C95: in exact arithmetic the loss and the loss gradient of an expression depend on the data only through how much each row
weighs.
-/
namespace SR
variable {K : Type} [Field K] [LinearOrder K] [IsStrictOrderedRing K]

/-! ## Exact sums -/

/-- Exact addition of extended numbers is commutative and associative. -/
@[reducible] def exactMonoid : AddCommMonoid (Fl K) where
  zero := .fin 0
  add := (Rounding.exact K).add
  add_assoc a b c := by
    show (Rounding.exact K).add ((Rounding.exact K).add a b) c = (Rounding.exact K).add a ((Rounding.exact K).add b c)
    cases a <;> cases b <;> cases c <;> simp [Rounding.add, Rounding.exact, add_assoc]
  zero_add a := by show (Rounding.exact K).add (.fin 0) a = a; cases a <;> simp [Rounding.add, Rounding.exact]
  add_zero a := by show (Rounding.exact K).add a (.fin 0) = a; cases a <;> simp [Rounding.add, Rounding.exact]
  add_comm a b := by
    show (Rounding.exact K).add a b = (Rounding.exact K).add b a
    cases a <;> cases b <;> simp [Rounding.add, Rounding.exact, add_comm]
  nsmul := @nsmulRec _ ⟨.fin 0⟩ ⟨(Rounding.exact K).add⟩
  nsmul_zero _ := rfl
  nsmul_succ _ _ := rfl

attribute [local instance] exactMonoid

theorem exact_foldl (l : List (Fl K)) : l.foldl (Rounding.exact K).add (.fin 0) = l.sum := by
  rw [List.sum_eq_foldl]; rfl

/-- Multiplication by a positive number. -/
abbrev act (w : K) (v : Fl K) : Fl K := (Rounding.exact K).mul (.fin w) v

theorem act_nan (w : K) : act w .nan = .nan := rfl
theorem act_fin (w x : K) : act w (.fin x) = .fin (w * x) := rfl
theorem act_pinf {w : K} (hw : 0 < w) : act w .pinf = .pinf := by simp [act, Rounding.mul, Rounding.signInf, hw]
theorem act_ninf {w : K} (hw : 0 < w) : act w .ninf = .ninf := by
  simp only [act, Rounding.mul, Rounding.signInf]
  rw [if_neg (by simpa using hw.le), if_pos (by simpa using hw)]

theorem act_signInf {w : K} (hw : 0 < w) (x : K) : act w (Rounding.signInf x) = Rounding.signInf x := by
  unfold Rounding.signInf
  split
  · exact act_pinf hw
  · split
    · exact act_ninf hw
    · rfl

theorem signInf_mul {w : K} (hw : 0 < w) (x : K) : Rounding.signInf (w * x) = Rounding.signInf x := by
  rcases lt_trichotomy x 0 with hx | hx | hx
  · have := mul_neg_of_pos_of_neg hw hx
    simp only [Rounding.signInf, if_neg (not_lt.mpr this.le), if_pos this, if_neg (not_lt.mpr hx.le), if_pos hx]
  · simp [hx]
  · have := mul_pos hw hx
    simp only [Rounding.signInf, if_pos this, if_pos hx]

theorem act_add {a b : K} (ha : 0 < a) (hb : 0 < b) (v : Fl K) : act (a + b) v = act a v + act b v := by
  show act (a + b) v = (Rounding.exact K).add (act a v) (act b v)
  cases v with
  | nan => rfl
  | ninf => rw [act_ninf ha, act_ninf hb, act_ninf (add_pos ha hb)]; rfl
  | pinf => rw [act_pinf ha, act_pinf hb, act_pinf (add_pos ha hb)]; rfl
  | fin x => rw [act_fin, act_fin, act_fin, add_mul]; rfl

theorem act_one (v : Fl K) : act 1 v = v := by
  cases v with
  | nan => rfl
  | ninf => exact act_ninf one_pos
  | pinf => exact act_pinf one_pos
  | fin x => rw [act_fin, one_mul]

theorem act_mul {w : K} (hw : 0 < w) (a b : Fl K) : (Rounding.exact K).mul (act w a) b = act w ((Rounding.exact K).mul a b) := by
  cases a with
  | nan => cases b <;> rfl
  | ninf =>
    rw [act_ninf hw]
    cases b with
    | nan => rfl
    | ninf => exact (act_pinf hw).symm
    | pinf => exact (act_ninf hw).symm
    | fin x => exact (act_signInf hw _).symm
  | pinf =>
    rw [act_pinf hw]
    cases b with
    | nan => rfl
    | ninf => exact (act_ninf hw).symm
    | pinf => exact (act_pinf hw).symm
    | fin x => exact (act_signInf hw _).symm
  | fin y =>
    rw [act_fin]
    cases b with
    | nan => rfl
    | ninf =>
      show Rounding.signInf (-(w * y)) = act w (Rounding.signInf (-y))
      rw [act_signInf hw, ← mul_neg, signInf_mul hw]
    | pinf =>
      show Rounding.signInf (w * y) = act w (Rounding.signInf y)
      rw [act_signInf hw, signInf_mul hw]
    | fin x =>
      show Fl.fin (w * y * x) = act w (.fin (y * x))
      rw [act_fin, mul_assoc]

theorem mul_act (w s : K) : (Rounding.exact K).mul (.fin s) (.fin w) = act w (.fin s) := by
  simp [Rounding.mul, act, Rounding.exact, mul_comm]

theorem act_zero {w : K} (v : Fl K) (hw : 0 < w) : act w ((Rounding.exact K).mul (.fin 0) v) = (Rounding.exact K).mul (.fin 0) v := by
  rw [← act_mul hw]; simp [act, Rounding.mul, Rounding.exact]

/-! ## Weighted sums over rows -/

variable {Key : Type} [DecidableEq Key]

/-- The total weight of a key. -/
def total (l : List (Key × K)) (k : Key) : K := ((l.filter fun p => p.1 = k).map Prod.snd).sum

/-- The weighted sum. -/
def wsum (l : List (Key × K)) (f : Key → Fl K) : Fl K := (l.map fun p => act p.2 (f p.1)).sum

omit [DecidableEq Key] in
theorem wsum_same {k : Key} {l : List (Key × K)} (f : Key → Fl K) (hk : ∀ p ∈ l, p.1 = k) (hp : ∀ p ∈ l, 0 < p.2) (hne : l ≠ []) :
    wsum l f = act (l.map Prod.snd).sum (f k) ∧ 0 < (l.map Prod.snd).sum := by
  induction l with
  | nil => exact (hne rfl).elim
  | cons p l ih =>
    have h1 := hp p (by simp)
    by_cases hl : l = []
    · subst hl
      simp [wsum, hk p (by simp), h1]
    · obtain ⟨a, b⟩ := ih (fun q hq => hk q (by simp [hq])) (fun q hq => hp q (by simp [hq])) hl
      unfold wsum at a ⊢
      rw [List.map_cons, List.sum_cons, List.map_cons, List.sum_cons, a, act_add h1 b, hk p (by simp)]
      exact ⟨rfl, add_pos h1 b⟩

theorem wsum_split (l : List (Key × K)) (f : Key → Fl K) (k : Key) :
    wsum l f = wsum (l.filter fun p => p.1 = k) f + wsum (l.filter fun p => !decide (p.1 = k)) f := by
  unfold wsum
  rw [← List.sum_append, ← List.map_append]
  exact (((List.filter_append_perm (fun p : Key × K => decide (p.1 = k)) l).map _).sum_eq).symm

theorem total_pos {l : List (Key × K)} (hp : ∀ p ∈ l, 0 < p.2) {k : Key} : 0 < total l k ↔ ∃ p ∈ l, p.1 = k := by
  constructor
  · intro h
    by_contra hc
    have : l.filter (fun p => decide (p.1 = k)) = [] := by
      rw [List.filter_eq_nil_iff]
      intro p hpl he
      exact hc ⟨p, hpl, by simpa using he⟩
    unfold total at h
    rw [this] at h
    simp at h
  · rintro ⟨p, hpl, rfl⟩
    refine (wsum_same (k := p.1) (fun _ => .nan) ?_ ?_ ?_).2
    · intro q hq; simpa using (List.mem_filter.mp hq).2
    · intro q hq; exact hp q (List.mem_filter.mp hq).1
    · intro he
      have : p ∈ l.filter fun q => q.1 = p.1 := List.mem_filter.mpr ⟨hpl, by simp⟩
      rw [he] at this; cases this

theorem total_other (l : List (Key × K)) (k j : Key) :
    total (l.filter fun p => !decide (p.1 = k)) j = if j = k then 0 else total l j := by
  unfold total
  rw [List.filter_filter]
  split
  · next h =>
    subst h
    rw [List.filter_eq_nil_iff.mpr (by intro p _; simp)]
    simp
  · next h =>
    congr 2
    apply List.filter_congr
    intro p _
    by_cases hj : p.1 = j
    · simp [hj, h]
    · simp [hj]

/-- Weighted sums depend on the weights only through the totals. -/
theorem wsum_total (f : Key → Fl K) : ∀ (n : Nat) (l l' : List (Key × K)), l.length ≤ n → (∀ p ∈ l, 0 < p.2) → (∀ p ∈ l', 0 < p.2) →
    (∀ k, total l' k = total l k) → wsum l' f = wsum l f := by
  intro n
  induction n with
  | zero =>
    intro l l' hn hp hp' ht
    obtain rfl : l = [] := List.length_eq_zero_iff.mp (by omega)
    cases l' with
    | nil => rfl
    | cons p l' =>
      have := (total_pos hp' (k := p.1)).mpr ⟨p, by simp, rfl⟩
      rw [ht] at this
      simp [total] at this
  | succ n ih =>
    intro l l' hn hp hp' ht
    cases l with
    | nil =>
      cases l' with
      | nil => rfl
      | cons p l' =>
        have := (total_pos hp' (k := p.1)).mpr ⟨p, by simp, rfl⟩
        rw [ht] at this
        simp [total] at this
    | cons p l =>
      have h1 := (total_pos hp (k := p.1)).mpr ⟨p, by simp, rfl⟩
      obtain ⟨q, hq, hqk⟩ := (total_pos hp' (k := p.1)).mp (by rw [ht]; exact h1)
      rw [wsum_split _ f p.1, wsum_split (p :: l) f p.1]
      have e1 := (wsum_same (k := p.1) (l := (p :: l).filter fun q => q.1 = p.1) f (fun q hq => by simpa using (List.mem_filter.mp hq).2)
        (fun q hq => hp q (List.mem_filter.mp hq).1) (List.ne_nil_of_mem (a := p) (List.mem_filter.mpr ⟨by simp, by simp⟩))).1
      have e2 := (wsum_same (k := p.1) (l := l'.filter fun q => q.1 = p.1) f (fun q hq => by simpa using (List.mem_filter.mp hq).2)
        (fun q hq => hp' q (List.mem_filter.mp hq).1) (List.ne_nil_of_mem (a := q) (List.mem_filter.mpr ⟨hq, by simp [hqk]⟩))).1
      have e3 : ((l'.filter fun q => q.1 = p.1).map Prod.snd).sum = (((p :: l).filter fun q => q.1 = p.1).map Prod.snd).sum := ht p.1
      rw [e1, e2, e3]
      congr 1
      refine ih _ _ ?_ (fun q hq => hp q (List.mem_filter.mp hq).1) (fun q hq => hp' q (List.mem_filter.mp hq).1) ?_
      · have : ((p :: l).filter fun q => !decide (q.1 = p.1)).length ≤ l.length := by
          rw [List.filter_cons_of_neg (by simp)]
          exact List.length_filter_le _ _
        simp only [List.length_cons] at hn
        omega
      · intro k
        rw [total_other, total_other, ht]

end SR
