import Verif.Model.Web
import Verif.Spec.Batch
import Verif.Props.Random
import Verif.Props.Binary
import Mathlib.Tactic.Linarith
import Mathlib.Tactic.NormNum
/-
C51: the split of the web interface into training and validation rows.
-/
namespace SR
variable {F : Type}

/-! ### The number of validation rows -/

theorem near64_nat (n : Nat) (h1 : 1 ≤ n) (h2 : n ≤ usizeMax) :
    binary64.ofNat n = .fin (fmt64.nearest n) ∧ |fmt64.nearest n - n| ≤ n * pow2 (-53) ∧
    1 ≤ fmt64.nearest n ∧ fmt64.nearest n ≤ pow2 64 := by
  have hp : 1 ≤ fmt64.p := by decide
  have hn : (1 : ℚ) ≤ n := by exact_mod_cast h1
  have e1 : fmt64.nearest 1 = 1 := nearest_representable (f := fmt64) hp 1 0 (by simp [pow2_eq]) (by decide) (by decide)
  have e2 : fmt64.nearest (pow2 64) = pow2 64 :=
    nearest_representable (f := fmt64) hp 1 64 (by simp) (by decide) (by decide)
  have e3 : (n : ℚ) ≤ pow2 64 := by
    rw [show (64 : Int) = ((64 : Nat) : Int) from rfl, pow2_nat]
    have : n ≤ 2 ^ 64 := h2.trans (by decide)
    exact_mod_cast this
  have lo : 1 ≤ fmt64.nearest n := by rw [← e1]; exact nearest_mono' hp hn
  have hi : fmt64.nearest n ≤ pow2 64 := by rw [← e2]; exact nearest_mono' hp e3
  have herr := nearest_error (f := fmt64) (n : ℚ) (by
    rw [abs_of_nonneg (by linarith)]
    refine le_trans ?_ hn
    rw [show (1 : ℚ) = pow2 0 by simp [pow2_eq]]
    exact pow2_le (by decide))
  rw [abs_of_nonneg (by linarith : (0 : ℚ) ≤ n)] at herr
  refine ⟨?_, herr, lo, hi⟩
  show fmt64.rnd n = _
  have h3 : pow2 64 < pow2 fmt64.emax := pow2_lt.mpr (by decide)
  have h4 := pow2_pos fmt64.emax
  rw [rnd_eq', if_neg (by linarith), if_neg (by linarith)]

/-- `0.9_f64`. -/
def nineTenths : ℚ := 8106479329266893 / 9007199254740992

theorem rnd_nineTenths : binary64.rnd (9 / 10) = .fin nineTenths := by decide +kernel

/-- The fraction that is used: a number, brought between 0 and `0.9_f64`. -/
def usedFraction (v : ℚ) : ℚ := max 0 (min v nineTenths)

theorem clamp_fraction (v : ℚ) : (Fl.fin v).clamp (.fin 0) (binary64.rnd (9 / 10)) = .fin (usedFraction v) := by
  rw [rnd_nineTenths]
  have h9 : (0 : ℚ) < nineTenths := by norm_num [nineTenths]
  unfold Fl.clamp usedFraction Fl.lt
  simp only [decide_eq_true_eq]
  split
  · next h => rw [max_eq_left]; exact (min_le_left _ _).trans h.le
  · next h =>
    split
    · next h' => rw [min_eq_right h'.le, max_eq_right h9.le]
    · next h' => rw [min_eq_left (not_lt.mp h'), max_eq_right (not_lt.mp h)]

theorem nVal_core (n : Nat) (h1 : 1 ≤ n) (h2 : n ≤ usizeMax) (v : ℚ) :
    ∃ p : ℚ, 0 ≤ p ∧ |p - usedFraction v * n| ≤ n * pow2 (-52) ∧
      nVal n (.fin v) = min (min ⌊p + 1 / 2⌋.toNat usizeMax) n ∧ p ≤ nineTenths * n + n * pow2 (-52) := by
  obtain ⟨e, herr, lo, hi⟩ := near64_nat n h1 h2
  have hp : 1 ≤ fmt64.p := by decide
  set c := usedFraction v with hc
  have c0 : 0 ≤ c := le_max_left _ _
  have c9 : c ≤ nineTenths := by
    rw [hc, usedFraction]
    exact max_le (by norm_num [nineTenths]) (min_le_right _ _)
  have h9 : nineTenths ≤ 91 / 100 := by norm_num [nineTenths]
  have hn : (1 : ℚ) ≤ n := by exact_mod_cast h1
  set m := fmt64.nearest n with hm
  obtain ⟨herr1, herr2⟩ := abs_le.mp herr
  have hu : pow2 (-52) = 2 * pow2 (-53) := by
    rw [show (-52 : Int) = 1 + -53 by norm_num, pow2_add]; simp [pow2_eq]
  have hup : 0 < pow2 (-53) := pow2_pos _
  have hsm : pow2 (-53) ≤ 1 / 100 := by
    rw [pow2_eq]; norm_num
  have hcm : 0 ≤ c * m := by positivity
  have hcm2 : c * m ≤ pow2 64 := by nlinarith [pow2_pos 64]
  have q0 : 0 ≤ fmt64.nearest (c * m) := le_nearest fmt64 0 (by simp) hcm
  have e2 : fmt64.nearest (pow2 64) = pow2 64 :=
    nearest_representable (f := fmt64) hp 1 64 (by simp) (by decide) (by decide)
  have q1 : fmt64.nearest (c * m) ≤ pow2 64 := by rw [← e2]; exact nearest_mono' hp hcm2
  have hq : |fmt64.nearest (c * m) - c * m| ≤ n * pow2 (-53) * (95 / 100) := by
    by_cases hs : pow2 fmt64.emin ≤ |c * m|
    · have h := nearest_error (f := fmt64) (c * m) hs
      rw [abs_of_nonneg hcm] at h
      refine h.trans ?_
      show c * m * pow2 (-53) ≤ _
      have : c * m ≤ n * (95 / 100) := by
        have : m ≤ n * (101 / 100) := by nlinarith
        nlinarith
      nlinarith
    · rw [abs_of_nonneg hcm, not_le] at hs
      have e3 : fmt64.nearest (pow2 fmt64.emin) = pow2 fmt64.emin :=
        nearest_representable (f := fmt64) hp 1 fmt64.emin (by simp) (by decide) (by decide)
      have q2 : fmt64.nearest (c * m) ≤ pow2 fmt64.emin := by rw [← e3]; exact nearest_mono' hp hs.le
      have : |fmt64.nearest (c * m) - c * m| ≤ pow2 fmt64.emin := abs_le.mpr ⟨by linarith, by linarith⟩
      refine this.trans ?_
      have h3 : pow2 fmt64.emin ≤ pow2 (-54) := pow2_le (by decide)
      have h4 : pow2 (-53) = 2 * pow2 (-54) := by
        rw [show (-53 : Int) = 1 + -54 by norm_num, pow2_add]; simp [pow2_eq]
      have h5 := pow2_pos (-54)
      nlinarith
  obtain ⟨hq1, hq2⟩ := abs_le.mp hq
  have a1 : c * m - c * n ≤ n * pow2 (-53) * (91 / 100) := by
    have h : c * (m - n) ≤ c * (n * pow2 (-53)) := mul_le_mul_of_nonneg_left herr2 c0
    have : (0 : ℚ) ≤ n * pow2 (-53) := by positivity
    nlinarith
  have a2 : -(n * pow2 (-53) * (91 / 100)) ≤ c * m - c * n := by
    have h : c * (-(n * pow2 (-53))) ≤ c * (m - n) := mul_le_mul_of_nonneg_left herr1 c0
    have : (0 : ℚ) ≤ n * pow2 (-53) := by positivity
    nlinarith
  have hpos : (0 : ℚ) ≤ n * pow2 (-53) := by positivity
  refine ⟨fmt64.nearest (c * m), q0, ?_, ?_, ?_⟩
  · rw [abs_le, hu]
    constructor <;> nlinarith
  · unfold nVal
    rw [clamp_fraction, e]
    have : binary64.mul (.fin c) (.fin m) = .fin (fmt64.nearest (c * m)) := by
      show fmt64.rnd (c * m) = _
      have h3 : pow2 64 < pow2 fmt64.emax := pow2_lt.mpr (by decide)
      have h4 := pow2_pos fmt64.emax
      rw [rnd_eq', if_neg (by linarith), if_neg (by linarith)]
    simp only
    rw [← hc, this, roundUsize, if_pos q0]
  · rw [hu]
    have : c * n ≤ nineTenths * n := mul_le_mul_of_nonneg_right c9 (by linarith)
    nlinarith

/-- C51: the number of validation rows is the fraction (brought between 0 and 0.9) of the rows, up to rounding to a
whole number and the rounding errors of `f64`. -/
theorem C51_size (n : Nat) (h1 : 1 ≤ n) (h2 : n ≤ usizeMax) (v : ℚ) :
    |(nVal n (.fin v) : ℚ) - usedFraction v * n| ≤ 1 / 2 + n * pow2 (-52) := by
  obtain ⟨p, p0, p1, p2, p3⟩ := nVal_core n h1 h2 v
  have hn : (1 : ℚ) ≤ n := by exact_mod_cast h1
  have h9 : nineTenths ≤ 91 / 100 := by norm_num [nineTenths]
  have hsm : pow2 (-52) ≤ 1 / 100 := by rw [pow2_eq]; norm_num
  have hup : 0 < pow2 (-52) := pow2_pos _
  have hf1 := Int.floor_le (p + 1 / 2)
  have hf2 := Int.lt_floor_add_one (p + 1 / 2)
  have f0 : 0 ≤ ⌊p + 1 / 2⌋ := Int.floor_nonneg.mpr (by linarith)
  have fle : ⌊p + 1 / 2⌋ ≤ n := by
    have : (⌊p + 1 / 2⌋ : ℚ) < (n : ℚ) + 1 := by nlinarith
    have : ⌊p + 1 / 2⌋ < (n : Int) + 1 := by exact_mod_cast this
    omega
  have hnat : nVal n (.fin v) = ⌊p + 1 / 2⌋.toNat := by
    rw [p2]; omega
  have hcast : (nVal n (.fin v) : ℚ) = (⌊p + 1 / 2⌋ : ℚ) := by
    rw [hnat]
    have : ((⌊p + 1 / 2⌋.toNat : Int) : ℚ) = (⌊p + 1 / 2⌋ : ℚ) := by rw [Int.toNat_of_nonneg f0]
    exact_mod_cast this
  rw [hcast]
  obtain ⟨a, b⟩ := abs_le.mp p1
  rw [abs_le]
  constructor <;> linarith

/-- From six rows on, not all rows are validation rows. -/
theorem nVal_lt (n : Nat) (h1 : 6 ≤ n) (h2 : n ≤ usizeMax) (v : Fl ℚ) : nVal n v < n := by
  have main : ∀ q : ℚ, nVal n (.fin q) < n := by
    intro q
    obtain ⟨p, p0, -, p2, p3⟩ := nVal_core n (by omega) h2 q
    have hn : (6 : ℚ) ≤ n := by exact_mod_cast h1
    have h9 : nineTenths ≤ 901 / 1000 := by norm_num [nineTenths]
    have hsm : pow2 (-52) ≤ 1 / 1000 := by rw [pow2_eq]; norm_num
    have hf1 := Int.floor_le (p + 1 / 2)
    have : (⌊p + 1 / 2⌋ : ℚ) < (n : ℚ) := by nlinarith
    have : ⌊p + 1 / 2⌋ < (n : Int) := by exact_mod_cast this
    rw [p2]; omega
  have h9 : (0 : ℚ) < nineTenths := by norm_num [nineTenths]
  cases v with
  | fin q => exact main q
  | nan =>
    have : nVal n .nan = 0 := by simp [nVal, Fl.clamp, Fl.lt, rnd_nineTenths, Rounding.mul, roundUsize]
    omega
  | ninf =>
    have : nVal n .ninf = nVal n (.fin 0) := by
      unfold nVal Fl.clamp
      rw [rnd_nineTenths]
      simp [Fl.lt, h9.not_gt]
    rw [this]; exact main 0
  | pinf =>
    have : nVal n .pinf = nVal n (.fin nineTenths) := by
      unfold nVal Fl.clamp
      rw [rnd_nineTenths]
      simp [Fl.lt, h9.not_gt]
    rw [this]; exact main _

/-! ### The split -/

/-- C51: for every number of rows, fraction and random stream the split ends without panic, and training and validation
rows together are all the rows, each exactly once; the number of validation rows is the rounded fraction. -/
theorem C51_partition (n : Nat) (v : Fl ℚ) :
    Rand.Total (makeSplitIndices n v : Rand F Split) fun s =>
      (s.train ++ s.val).Perm (List.range n) ∧ s.val.length = nVal n v := by
  unfold makeSplitIndices
  split
  · next h => subst h; exact Rand.Total.pure ⟨by simp, by simp [nVal]⟩
  · simp only
    split
    · next h => exact Rand.Total.pure ⟨by simp, by simp [h]⟩
    · refine Rand.Total.bind (C33_shuffle_perm (List.range n)) fun l hl => Rand.Total.pure ⟨?_, ?_⟩
      · refine (List.perm_append_comm.trans ?_).trans hl
        simp only [List.take_append_drop]
        exact List.Perm.refl _
      · simp only
        rw [List.length_take, hl.length_eq, List.length_range, Nat.min_eq_left]
        unfold nVal
        exact Nat.min_le_right _ _

/-- C51: no row is both a training and a validation row. -/
theorem C51_disjoint (n : Nat) (v : Fl ℚ) :
    Rand.Total (makeSplitIndices n v : Rand F Split) fun s => s.train.Nodup ∧ s.val.Nodup ∧ ∀ i ∈ s.train, i ∉ s.val := by
  refine (C51_partition n v).mono fun s hs => ?_
  have := hs.1.nodup_iff.mpr List.nodup_range
  rw [List.nodup_append] at this
  exact ⟨this.1, this.2.1, fun i h1 h2 => this.2.2 i h1 i h2 rfl⟩

/-- C51: from six rows on there are training rows, whatever the fraction (even infinite or NaN) and the stream. -/
theorem C51_train_nonempty (n : Nat) (h1 : 6 ≤ n) (h2 : n ≤ usizeMax) (v : Fl ℚ) :
    Rand.Total (makeSplitIndices n v : Rand F Split) fun s => s.train ≠ [] := by
  refine (C51_partition n v).mono fun s hs he => ?_
  have := hs.1.length_eq
  rw [he, List.nil_append, hs.2, List.length_range] at this
  have := nVal_lt n h1 h2 v
  omega

/-- C51 (exception): with one to five rows and a fraction of 0.9 or more, every row becomes a validation row and no
training row is left. -/
theorem C51_empty_train (n : Nat) (h1 : 1 ≤ n) (h2 : n ≤ 5) (v : ℚ) (hv : nineTenths ≤ v) :
    Rand.Total (makeSplitIndices n (.fin v) : Rand F Split) fun s => s.train = [] := by
  have hu : usedFraction v = nineTenths := by
    unfold usedFraction
    rw [min_eq_right hv, max_eq_right]; norm_num [nineTenths]
  have key : nVal n (.fin v) = n := by
    unfold nVal
    rw [clamp_fraction, hu]
    have : n = 1 ∨ n = 2 ∨ n = 3 ∨ n = 4 ∨ n = 5 := by omega
    rcases this with rfl | rfl | rfl | rfl | rfl <;> decide +kernel
  refine (C51_partition n (.fin v)).mono fun s hs => ?_
  have := hs.1.length_eq
  rw [List.length_append, hs.2, key, List.length_range] at this
  exact List.length_eq_zero_iff.mp (by omega)

/-! ### The data sets of the split -/

section
variable {K : Type} [Field K] [LinearOrder K]

theorem mapM_get {α : Type} {l : List α} : ∀ {idx : List Nat}, (∀ i ∈ idx, i < l.length) →
    ∃ r, idx.mapM (fun i => l[i]?) = some r ∧ r.length = idx.length ∧ ∀ (k : Nat), r[k]? = idx[k]?.bind (l[·]?)
  | [], _ => ⟨[], rfl, rfl, by simp⟩
  | i :: idx, h => by
    obtain ⟨r, h1, h2, h3⟩ := mapM_get (l := l) (idx := idx) fun j hj => h j (by simp [hj])
    have hi : l[i]? = some (l[i]'(h i (by simp))) := List.getElem?_eq_getElem _
    refine ⟨l[i]'(h i (by simp)) :: r, by rw [List.mapM_cons, hi, h1]; rfl, by simp [h2], fun k => ?_⟩
    cases k with
    | zero => simp
    | succ k => simpa using h3 k

/-- `b` consists of the rows `idx` of `full`, in this order. -/
structure RowsOf (full b : Dataset K) (idx : List Nat) : Prop where
  shape : BatchShape full b
  rows : b.x.cols = idx.length
  row : ∀ (i s : Nat), idx[i]? = some s → SameRow full b i s

theorem selectRows_spec {full : Dataset K} (hfull : full.WF) {idx : List Nat} (hidx : ∀ i ∈ idx, i < full.x.cols) :
    ∃ x y w b, selectRows full.x full.y full.weights idx = some (some (x, y, w)) ∧ mkDataset x y w = some b ∧
      RowsOf full b idx := by
  obtain ⟨yo, y1, y2, y3⟩ := mapM_get (l := full.y) (idx := idx) (by rw [hfull.y]; exact hidx)
  have hw : ∃ wo, selectWeights idx full.weights = some wo ∧ wo.isSome = full.weights.isSome ∧
      (∀ w, wo = some w → w.length = idx.length) ∧
      ∀ wb wf, wo = some wb → full.weights = some wf → ∀ (k : Nat), wb[k]? = idx[k]?.bind (wf[·]?) := by
    cases hf : full.weights with
    | none => exact ⟨none, rfl, rfl, by simp, by simp⟩
    | some w =>
      obtain ⟨wo, w1, w2, w3⟩ := mapM_get (l := w) (idx := idx) (by rw [hfull.w w hf]; exact hidx)
      refine ⟨some wo, by simp only [selectWeights, w1]; rfl, rfl, by rintro _ ⟨⟩; exact w2, ?_⟩
      rintro _ _ ⟨⟩ ⟨⟩
      exact w3
  obtain ⟨wo, w1, w2, w3, w4⟩ := hw
  have hany : idx.any (fun i => decide (full.x.cols ≤ i)) = false := by
    rw [List.any_eq_false]
    intro i hi
    have := hidx i hi
    simp; omega
  refine ⟨⟨full.x.rows, idx.length, fun f r => full.x.at' f (idx.getD r 0)⟩, yo, wo,
    ⟨⟨full.x.rows, idx.length, fun f r => full.x.at' f (idx.getD r 0)⟩, yo, wo, none⟩, ?_, ?_,
    ⟨⟨rfl, y2, w3, w2⟩, rfl, fun i s hi => ⟨hidx s (List.mem_of_getElem? hi), fun f => ?_, ?_, fun wb wf h1 h2 => ?_⟩⟩⟩
  · unfold selectRows
    rw [hany]
    simp only [Bool.false_eq_true, if_false, y1, w1, Option.bind_eq_bind, Option.bind_some]
  · unfold mkDataset
    rw [if_neg]
    rintro (h | ⟨w, hm, h⟩)
    · exact h y2
    · exact h (w3 w hm)
  · show full.x.at' f (idx.getD i 0) = _
    rw [List.getD_eq_getElem?_getD, hi]; rfl
  · show yo[i]? = _
    rw [y3, hi]; rfl
  · rw [w4 wb wf h1 h2, hi]; rfl

/-- C51: on a well-formed table the split into data sets never fails: the training data set consists of the training
rows in their order, with all features, targets and weights; there is a validation data set exactly if there are
validation rows, and it consists of them. -/
theorem C51_datasets {full : Dataset K} (hfull : full.WF) (v : Fl ℚ) :
    Rand.Total (makeSplitIndices full.x.cols v : Rand F Split) fun s =>
      ∃ train val, splitTrainVal full.x full.y full.weights s = some (some (train, val)) ∧
        RowsOf full train s.train ∧ (s.val = [] → val = none) ∧ (s.val ≠ [] → ∃ b, val = some b ∧ RowsOf full b s.val) := by
  refine (C51_partition full.x.cols v).mono fun s hs => ?_
  have hin : ∀ i, i ∈ s.train ++ s.val → i < full.x.cols := fun i hi => by
    simpa using hs.1.mem_iff.mp hi
  obtain ⟨xt, yt, wt, train, h1, h2, h3⟩ := selectRows_spec hfull (idx := s.train) fun i hi => hin i (by simp [hi])
  obtain ⟨xv, yv, wv, val, h4, h5, h6⟩ := selectRows_spec hfull (idx := s.val) fun i hi => hin i (by simp [hi])
  unfold splitTrainVal
  rw [h1]
  simp only [Option.bind_eq_bind, Option.bind_some, h2]
  split
  · next h =>
    have h := List.isEmpty_iff.mp h
    exact ⟨train, none, rfl, h3, fun _ => rfl, fun hne => absurd h hne⟩
  · next h =>
    have h : s.val ≠ [] := fun e => h (by rw [e]; rfl)
    rw [h4]
    simp only [Option.bind_some, h5]
    exact ⟨train, some val, rfl, h3, fun e => absurd e h, fun _ => ⟨val, rfl, h6⟩⟩

end

/-- Two of seven rows are kept for validation; with five rows and the fraction 0.9 nothing is left to train on. -/
example : ((makeSplitIndices 7 (.fin (1 / 4)) : Rand Unit Split) ⟨fun i => i * i + 3, fun _ => ()⟩).map (·.1) =
    some ⟨[1, 0, 2, 4, 3], [5, 6]⟩ := by decide +kernel
example : ((makeSplitIndices 5 (.fin (19 / 20)) : Rand Unit Split) ⟨fun i => i, fun _ => ()⟩).map (·.1.train) =
    some [] := by decide +kernel

end SR
