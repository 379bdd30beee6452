import Verif.Spec.PageStats
import Verif.Spec.Binary64
import Mathlib.Algebra.Order.Field.Basic
import Mathlib.Algebra.Order.BigOperators.Group.List
import Mathlib.Algebra.BigOperators.Ring.List
import Mathlib.Algebra.Order.Ring.Rat
import Mathlib.Algebra.Field.Rat
import Mathlib.Tactic.Ring
import Mathlib.Tactic.FieldSimp
import Mathlib.Tactic.Linarith
/-
C96: the figures that the web page computes itself.
-/
namespace SR
namespace PageStats
variable {K : Type} [Field K] [LinearOrder K]

/-! ## The table of columns -/

/-- One finite cell. -/
def step (R : Rounding K) (a : ColAcc K) (v : K) : ColAcc K := a.add R (some (.fin v))

theorem fold_rows (R : Rounding K) (rows : List (List (Fl K))) (j : Nat) : ∀ accs : List (ColAcc K),
    (rows.foldl (addRow R) accs)[j]? = (accs[j]?).map fun a => rows.foldl (fun a r => a.add R r[j]?) a := by
  induction rows with
  | nil => intro accs; simp
  | cons r rows ih =>
    intro accs
    rw [List.foldl_cons, ih]
    simp only [addRow, List.getElem?_mapIdx, Option.map_map, List.foldl_cons]
    rfl

theorem fold_cells (R : Rounding K) (rows : List (List (Fl K))) (j : Nat) : ∀ a : ColAcc K,
    rows.foldl (fun a r => a.add R r[j]?) a = (finiteCells rows j).foldl (step R) a := by
  induction rows with
  | nil => intro a; rfl
  | cons r rows ih =>
    intro a
    rw [List.foldl_cons, ih]
    simp only [finiteCells, List.filterMap_cons]
    cases h : r[j]? with
    | none => rfl
    | some v => cases v <;> simp [ColAcc.add, Fl.isFinite, finiteCell, step]

theorem summary_at (R : Rounding K) (sqrt : Fl K → Fl K) (p : Parsed K) (j : Nat) (name : String) (h : p.headers[j]? = some name) :
    (columnSummary R sqrt p)[j]? = some (((finiteCells p.rows j).foldl (step R) ColAcc.start).summary R sqrt name) := by
  simp only [columnSummary, List.getElem?_mapIdx, h, Option.map_some, fold_rows, List.getElem?_map, Option.getD_some, fold_cells]

/-- The least and the greatest of the finite cells so far. -/
def Extremes (l : List K) (a : ColAcc K) : Prop :=
  a.count = l.length ∧ (l = [] → a.min = .pinf ∧ a.max = .ninf) ∧
    (l ≠ [] → ∃ lo ∈ l, ∃ hi ∈ l, a.min = .fin lo ∧ a.max = .fin hi ∧ ∀ v ∈ l, lo ≤ v ∧ v ≤ hi)

theorem extremes_step (R : Rounding K) {l : List K} {a : ColAcc K} (h : Extremes l a) (v : K) : Extremes (l ++ [v]) (step R a v) := by
  obtain ⟨hc, h0, h1⟩ := h
  refine ⟨by simp [step, ColAcc.add, Fl.isFinite, hc], fun h => absurd h (by simp), fun _ => ?_⟩
  by_cases hl : l = []
  · subst hl
    obtain ⟨hmin, hmax⟩ := h0 rfl
    refine ⟨v, by simp, v, by simp, ?_, ?_, by simp⟩ <;> simp [step, ColAcc.add, Fl.isFinite, hmin, hmax, Fl.lt]
  · obtain ⟨lo, hlo, hi, hhi, hmin, hmax, hall⟩ := h1 hl
    refine ⟨if v < lo then v else lo, ?_, if hi < v then v else hi, ?_, ?_, ?_, ?_⟩
    · split <;> simp [hlo]
    · split <;> simp [hhi]
    · simp only [step, ColAcc.add, Fl.isFinite, hmin, Fl.lt]; by_cases c : v < lo <;> simp [c]
    · simp only [step, ColAcc.add, Fl.isFinite, hmax, Fl.lt]; by_cases c : hi < v <;> simp [c]
    · intro u hu
      rcases List.mem_append.mp hu with hu | hu
      · have := hall u hu
        constructor
        · split
          · next c => exact le_of_lt (lt_of_lt_of_le c this.1)
          · exact this.1
        · split
          · next c => exact le_of_lt (lt_of_le_of_lt this.2 c)
          · exact this.2
      · obtain rfl : u = v := by simpa using hu
        constructor
        · split
          · exact le_refl _
          · next c => exact le_of_not_gt c
        · split
          · exact le_refl _
          · next c => exact le_of_not_gt c

theorem extremes_fold (R : Rounding K) : ∀ (m l : List K) (a : ColAcc K), Extremes l a → Extremes (l ++ m) (m.foldl (step R) a)
  | [], l, a, h => by simpa using h
  | v :: m, l, a, h => by
    have := extremes_fold R m (l ++ [v]) (step R a v) (extremes_step R h v)
    simpa using this

theorem extremes (R : Rounding K) (l : List K) : Extremes l (l.foldl (step R) ColAcc.start) := by
  simpa using extremes_fold R l [] ColAcc.start ⟨rfl, fun _ => ⟨rfl, rfl⟩, fun h => absurd rfl h⟩

/-- C96, the table of columns in any arithmetic: it has a line for every column, under its name; minimum and maximum are the least and
the greatest finite number of that column; a column without any shows infinities and NaN. -/
theorem _root_.SR.C96_extremes (R : Rounding K) (sqrt : Fl K → Fl K) (p : Parsed K) :
    (columnSummary R sqrt p).length = p.headers.length ∧
    ∀ (j : Nat) (name : String), p.headers[j]? = some name → ∃ s, (columnSummary R sqrt p)[j]? = some s ∧ s.name = name ∧
      (finiteCells p.rows j = [] → s.min = .pinf ∧ s.max = .ninf ∧ s.mean = .nan ∧ s.std = .nan) ∧
      (finiteCells p.rows j ≠ [] → ∃ lo ∈ finiteCells p.rows j, ∃ hi ∈ finiteCells p.rows j, s.min = .fin lo ∧ s.max = .fin hi ∧
        ∀ v ∈ finiteCells p.rows j, lo ≤ v ∧ v ≤ hi) := by
  refine ⟨by simp [columnSummary], fun j name h => ⟨_, summary_at R sqrt p j name h, rfl, ?_, ?_⟩⟩
  · intro h0
    have := (extremes R (finiteCells p.rows j)).2.1 h0
    refine ⟨this.1, this.2, ?_, ?_⟩ <;> simp [h0, ColAcc.summary, ColAcc.start, Fl.isFinite]
  · exact (extremes R (finiteCells p.rows j)).2.2

section
variable [IsStrictOrderedRing K]

omit [IsStrictOrderedRing K] in
theorem exact_fold (l : List K) : ∀ a : ColAcc K, ∀ s q : K, a.sum = .fin s → a.sumsq = .fin q →
    (l.foldl (step (Rounding.exact K)) a).sum = .fin (s + l.sum) ∧
    (l.foldl (step (Rounding.exact K)) a).sumsq = .fin (q + (l.map fun v => v * v).sum) := by
  induction l with
  | nil => intro a s q hs hq; simp [hs, hq]
  | cons v l ih =>
    intro a s q hs hq
    have := ih (step (Rounding.exact K) a v) (s + v) (q + v * v)
      (by simp [step, ColAcc.add, Fl.isFinite, hs, Rounding.add, Rounding.exact])
      (by simp [step, ColAcc.add, Fl.isFinite, hq, Rounding.add, Rounding.mul, Rounding.exact])
    simpa [add_assoc] using this

theorem variance_formula (l : List K) (h : l ≠ []) :
    (l.map fun v => v * v).sum / (l.length : K) - meanOf l * meanOf l = varianceOf l := by
  have hn : (l.length : K) ≠ 0 := by
    have : 0 < l.length := List.length_pos_iff.mpr h
    exact_mod_cast this.ne'
  have key : ∀ (m : List K) (c : K), (m.map fun v => (v - c) ^ 2).sum = (m.map fun v => v * v).sum - 2 * c * m.sum + m.length * (c * c) := by
    intro m c
    induction m with
    | nil => simp
    | cons v m ih => simp only [List.map_cons, List.sum_cons, List.length_cons, ih]; push_cast; ring
  rw [varianceOf, key]
  have hs : l.sum = meanOf l * l.length := by rw [meanOf]; field_simp
  rw [hs]
  field_simp
  ring

theorem variance_nonneg (l : List K) : 0 ≤ varianceOf l := by
  refine div_nonneg (List.sum_nonneg fun x hx => ?_) (Nat.cast_nonneg _)
  obtain ⟨v, _, rfl⟩ := List.mem_map.mp hx
  exact sq_nonneg _

/-- C96, the table of columns in exact arithmetic: for a column with a finite number the mean is the mean of its finite numbers and the
deviation is the root of their variance. -/
theorem _root_.SR.C96_mean_std (sqrt : Fl K → Fl K) (p : Parsed K) (j : Nat) (name : String) (hj : p.headers[j]? = some name)
    (hne : finiteCells p.rows j ≠ []) :
    ∃ s, (columnSummary (Rounding.exact K) sqrt p)[j]? = some s ∧ s.mean = .fin (meanOf (finiteCells p.rows j)) ∧
      0 ≤ varianceOf (finiteCells p.rows j) ∧ s.std = sqrt (.fin (varianceOf (finiteCells p.rows j))) := by
  refine ⟨_, summary_at _ sqrt p j name hj, ?_⟩
  generalize finiteCells p.rows j = l at hne ⊢
  obtain ⟨hsum, hsq⟩ := exact_fold l ColAcc.start 0 0 rfl rfl
  have hc := (extremes (Rounding.exact K) l).1
  have hpos : 0 < l.length := List.length_pos_iff.mpr hne
  have hn : (l.length : K) ≠ 0 := by exact_mod_cast hpos.ne'
  have hmean : (Rounding.exact K).div (.fin (0 + l.sum)) ((Rounding.exact K).ofNat l.length) = .fin (meanOf l) := by
    simp [Rounding.div, Rounding.ofNat, Rounding.exact, hn, meanOf]
  have hvar : (Rounding.exact K).sub ((Rounding.exact K).div (.fin (0 + (l.map fun v => v * v).sum)) ((Rounding.exact K).ofNat l.length))
      ((Rounding.exact K).mul (.fin (meanOf l)) (.fin (meanOf l))) = .fin (varianceOf l) := by
    rw [← variance_formula l hne]
    simp [Rounding.div, Rounding.ofNat, Rounding.exact, hn, Rounding.sub, Rounding.add, Rounding.mul, Fl.neg, sub_eq_add_neg]
  have h0 := variance_nonneg l
  refine ⟨?_, h0, ?_⟩
  · simp only [ColAcc.summary, hc, hsum, if_pos hpos, hmean]
  · simp only [ColAcc.summary, hc, hsum, hsq, if_pos hpos, hmean, hvar]
    simp [Fl.isFinite, Fl.le, h0]

end

theorem std_nan {R : Rounding K} {a : ColAcc K} {name : String} (h : (a.summary R (fun _ => .fin 0) name).std = .nan) {sqrt : Fl K → Fl K} :
    (a.summary R sqrt name).std = .nan := by
  have key : ∀ var : Fl K, (if var.isFinite && Fl.le (.fin 0) var then (.fin 0 : Fl K) else .nan) = .nan →
      (if var.isFinite && Fl.le (.fin 0) var then sqrt var else .nan) = .nan := by
    intro var h
    by_cases c : (var.isFinite && Fl.le (.fin 0) var) = true
    · rw [if_pos c] at h; cases h
    · rw [if_neg c]
  exact key _ h

/-- Three times the `f64` nearest to `0.1`. -/
def tenths : List ℚ := [3602879701896397 / 36028797018963968, 3602879701896397 / 36028797018963968, 3602879701896397 / 36028797018963968]

/-- C96, the exception: in `f64` a column of three times `0.1` is shown with a mean above its maximum, and without a standard deviation
(NaN instead of zero). -/
theorem _root_.SR.C96_constant_column_rounded (sqrt : Fl ℚ → Fl ℚ) :
    ∃ (v mean : ℚ) (s : ColSummary ℚ), rnd64 (1 / 10) = .fin v ∧
      (columnSummary binary64 sqrt ⟨["a"], [[.fin v], [.fin v], [.fin v]]⟩)[0]? = some s ∧
      s.max = .fin v ∧ s.mean = .fin mean ∧ v < mean ∧ s.std = .nan := by
  refine ⟨3602879701896397 / 36028797018963968, 7205759403792795 / 72057594037927936,
    (tenths.foldl (step binary64) ColAcc.start).summary binary64 sqrt "a", by decide +kernel, rfl, ?_, ?_, by norm_num, ?_⟩
  · show (tenths.foldl (step binary64) ColAcc.start).max = _
    decide +kernel
  · show ((tenths.foldl (step binary64) ColAcc.start).summary binary64 id "a").mean = _
    decide +kernel
  · have : ((tenths.foldl (step binary64) ColAcc.start).summary binary64 (fun _ => .fin 0) "a").std = .nan := by decide +kernel
    exact std_nan this

/-! ## The inspection plot -/

omit [Field K] [LinearOrder K] in
/-- C96, the inspection plot: its two lists of coordinates have the same length, and together they are, from top to bottom, the rows in
which both chosen columns hold a finite number. -/
theorem _root_.SR.C96_inspect (rows : List (List (Fl K))) (cx cy : Nat) :
    (inspectPlot rows cx cy).1.length = (inspectPlot rows cx cy).2.length ∧
    ∃ kept : List (List (Fl K)), kept = rows.filter (fun r => ((r[cx]?).any Fl.isFinite) && ((r[cy]?).any Fl.isFinite)) ∧
      (inspectPlot rows cx cy).1.map some = kept.map (fun r => r[cx]?) ∧ (inspectPlot rows cx cy).2.map some = kept.map fun r => r[cy]? := by
  induction rows with
  | nil => exact ⟨rfl, [], rfl, rfl, rfl⟩
  | cons r rows ih =>
    obtain ⟨h1, kept, hk, hx, hy⟩ := ih
    cases ex : r[cx]? with
    | none => exact ⟨by simpa [inspectPlot, ex] using h1, kept, by simp [hk, ex], by simpa [inspectPlot, ex] using hx, by simpa [inspectPlot, ex] using hy⟩
    | some x =>
      cases ey : r[cy]? with
      | none =>
        exact ⟨by simpa [inspectPlot, ex, ey] using h1, kept, by simp [hk, ex, ey], by simpa [inspectPlot, ex, ey] using hx,
          by simpa [inspectPlot, ex, ey] using hy⟩
      | some y =>
        by_cases f : x.isFinite = true ∧ y.isFinite = true
        · refine ⟨by simpa [inspectPlot, ex, ey, f.1, f.2] using h1, r :: kept, by simp [hk, ex, ey, f.1, f.2], ?_, ?_⟩
          · simpa [inspectPlot, ex, ey, f.1, f.2] using hx
          · simpa [inspectPlot, ex, ey, f.1, f.2] using hy
        · have f' : (!x.isFinite || !y.isFinite) = true := by
            cases hxf : x.isFinite <;> cases hyf : y.isFinite <;> simp_all
          have f'' : ¬ ((some x).any Fl.isFinite && (some y).any Fl.isFinite) = true := by
            cases hxf : x.isFinite <;> cases hyf : y.isFinite <;> simp_all
          refine ⟨?_, kept, ?_, ?_, ?_⟩
          · simp only [inspectPlot, ex, ey, f', if_true]; exact h1
          · rw [List.filter_cons, ex, ey, if_neg f'']; exact hk
          · simp only [inspectPlot, ex, ey, f', if_true]; exact hx
          · simp only [inspectPlot, ex, ey, f', if_true]; exact hy

/-! ## Evaluations per second -/

section
variable [IsStrictOrderedRing K]

/-- What the references hold after the snapshots `l` (the latest first). -/
structure Tracks (s : Speed K) (l : List (K × K)) : Prop where
  lastT : s.lastT = l.head?.map fun p => .fin p.1
  lastE : s.lastE = l.head?.map fun p => .fin p.2
  ema : s.ema = (fading (speeds l)).map .fin
  shown : s.shown = none ∨ s.shown = s.ema

theorem tracks_snapshot {s : Speed K} {l : List (K × K)} (h : Tracks s l) (t e : K) :
    Tracks (s.on (Rounding.exact K) (.snapshot (.fin t) (.fin e))) ((t, e) :: l) := by
  obtain ⟨h1, h2, h3, h4⟩ := h
  cases l with
  | nil =>
    simp only [List.head?_nil, Option.map_none] at h1 h2
    simp only [Speed.on, h1, h2]
    exact ⟨rfl, rfl, h3, h4⟩
  | cons p l =>
    obtain ⟨t', e'⟩ := p
    simp only [List.head?_cons, Option.map_some] at h1 h2
    have hdt : (Rounding.exact K).div ((Rounding.exact K).sub (.fin t) (.fin t')) ((Rounding.exact K).rnd 1000) = .fin ((t - t') / 1000) := by
      have : (1000 : K) ≠ 0 := by norm_num
      simp [Rounding.div, Rounding.sub, Rounding.add, Rounding.exact, Fl.neg, sub_eq_add_neg, this]
    have hde : (Rounding.exact K).sub (.fin e) (.fin e') = .fin (e - e') := by
      simp [Rounding.sub, Rounding.add, Rounding.exact, Fl.neg, sub_eq_add_neg]
    have hc : (Fl.lt (.fin 0) (.fin ((t - t') / 1000)) && Fl.le (.fin 0) (.fin (e - e'))) = decide (t' < t ∧ e' ≤ e) := by
      have a1 : (0 : K) < (t - t') / 1000 ↔ t' < t := by
        rw [div_pos_iff_of_pos_right (by norm_num : (0 : K) < 1000), sub_pos]
      have a2 : (0 : K) ≤ e - e' ↔ e' ≤ e := sub_nonneg
      simp [Fl.lt, Fl.le, a1, a2]
    simp only [Speed.on, h1, h2, hdt, hde, hc]
    by_cases c : t' < t ∧ e' ≤ e
    · have hd : (t - t') / 1000 ≠ 0 := (div_pos (sub_pos.mpr c.1) (by norm_num)).ne'
      have hq : (Rounding.exact K).div (.fin (e - e')) (.fin ((t - t') / 1000)) = .fin ((e - e') / ((t - t') / 1000)) := by
        simp only [Rounding.div, if_neg hd]; rfl
      have hem : nextAverage (Rounding.exact K) s.ema (.fin ((e - e') / ((t - t') / 1000))) =
          ((fading (speeds ((t, e) :: (t', e') :: l))).map (Fl.fin (K := K))).getD .nan := by
        rw [h3, speeds, if_pos c, fading]
        cases fading (speeds ((t', e') :: l)) with
        | none => rfl
        | some a =>
          simp only [nextAverage, Option.map_some, Option.getD_some, Rounding.add, Rounding.mul, Rounding.exact]
          congr 1; ring
      have hs : ∃ a, fading (speeds ((t, e) :: (t', e') :: l)) = some a := by
        rw [speeds, if_pos c, fading]
        cases fading (speeds ((t', e') :: l)) <;> exact ⟨_, rfl⟩
      obtain ⟨a, ha⟩ := hs
      rw [ha] at hem
      simp only [c, and_self, decide_true, if_true, hq, hem]
      exact ⟨rfl, rfl, by rw [ha]; rfl, .inr rfl⟩
    · simp only [c, decide_false, Bool.false_eq_true, if_false]
      refine ⟨rfl, rfl, ?_, h4⟩
      rw [speeds, if_neg c]; exact h3

theorem tracks_fold : ∀ (h : List (SpeedEvent K)), (∀ t e, SpeedEvent.snapshot t e ∈ h → t.isFinite = true ∧ e.isFinite = true) →
    ∀ (s : Speed K) (l : List (K × K)), Tracks s l →
    Tracks (h.foldl (Speed.on (Rounding.exact K)) s) (h.foldl collect l)
  | [], _, s, l, hs => hs
  | ev :: h, hf, s, l, hs => by
    rw [List.foldl_cons, List.foldl_cons]
    refine tracks_fold h (fun t e m => hf t e (List.mem_cons_of_mem _ m)) _ _ ?_
    cases ev with
    | init => exact ⟨rfl, rfl, rfl, .inl rfl⟩
    | resetDone => exact ⟨hs.lastT, hs.lastE, hs.ema, .inl rfl⟩
    | snapshot t e =>
      obtain ⟨ht, he⟩ := hf t e (List.mem_cons_self ..)
      cases t <;> simp [Fl.isFinite] at ht
      cases e <;> simp [Fl.isFinite] at he
      exact tracks_snapshot hs _ _

theorem fading_between {lo hi : K} : ∀ (l : List K) (a : K), (∀ v ∈ l, lo ≤ v ∧ v ≤ hi) → fading l = some a → lo ≤ a ∧ a ≤ hi
  | [], a, _, h => nomatch h
  | v :: l, a, hl, h => by
    have hv := hl v (List.mem_cons_self ..)
    cases e : fading l with
    | none => simp only [fading, e, Option.some.injEq] at h; subst h; exact hv
    | some b =>
      simp only [fading, e, Option.some.injEq] at h
      have hb := fading_between l b (fun u hu => hl u (List.mem_cons_of_mem _ hu)) e
      subst h
      constructor <;> linarith [hv.1, hv.2, hb.1, hb.2]

theorem speeds_nonneg : ∀ (l : List (K × K)), ∀ v ∈ speeds l, 0 ≤ v
  | [], v, h => by simp [speeds] at h
  | [_], v, h => by simp [speeds] at h
  | (t, e) :: (t', e') :: l, v, h => by
    rw [speeds] at h
    split at h
    · next c =>
      rcases List.mem_cons.mp h with rfl | h
      · exact div_nonneg (sub_nonneg.mpr c.2) (div_nonneg (sub_nonneg.mpr c.1.le) (by norm_num))
      · exact speeds_nonneg _ v h
    · exact speeds_nonneg _ v h

/-- C96, evaluations per second in exact arithmetic: after any history of snapshots, resets and initialisations, what is shown (if
anything is) is the fading average of the speeds measured between successive snapshots since the last initialisation; so it lies between
the slowest and the fastest of them, and is not negative. -/
theorem _root_.SR.C96_speed (h : List (SpeedEvent K)) (hf : ∀ t e, SpeedEvent.snapshot t e ∈ h → t.isFinite = true ∧ e.isFinite = true)
    (x : Fl K) (hx : (Speed.after (Rounding.exact K) h).shown = some x) :
    ∃ v, x = .fin v ∧ fading (speeds (snapshots h)) = some v ∧ 0 ≤ v ∧
      ∀ lo hi, (∀ u ∈ speeds (snapshots h), lo ≤ u ∧ u ≤ hi) → lo ≤ v ∧ v ≤ hi := by
  have T := tracks_fold h hf ⟨none, none, none, none⟩ [] ⟨rfl, rfl, rfl, .inl rfl⟩
  rw [show h.foldl (Speed.on (Rounding.exact K)) ⟨none, none, none, none⟩ = Speed.after (Rounding.exact K) h from rfl,
    show h.foldl collect [] = snapshots h from rfl] at T
  rcases T.shown with h0 | h0
  · rw [h0] at hx; cases hx
  · rw [T.ema, hx] at h0
    cases e : fading (speeds (snapshots h)) with
    | none => rw [e] at h0; cases h0
    | some v =>
      rw [e] at h0
      refine ⟨v, by simpa using h0, rfl, ?_, fun lo hi hl => fading_between _ v hl e⟩
      have : ∀ (l : List K) (a : K), (∀ v ∈ l, 0 ≤ v) → fading l = some a → 0 ≤ a := by
        intro l
        induction l with
        | nil => intro a _ h; cases h
        | cons u l ih =>
          intro a hl ha
          have hu := hl u (List.mem_cons_self ..)
          cases e' : fading l with
          | none => simp only [fading, e', Option.some.injEq] at ha; subst ha; exact hu
          | some b =>
            have hb := ih b (fun w hw => hl w (List.mem_cons_of_mem _ hw)) e'
            simp only [fading, e', Option.some.injEq] at ha
            subst ha; linarith
      exact this _ v (speeds_nonneg _) e

end

theorem shown_fold (R : Rounding K) : ∀ (h : List (SpeedEvent K)), .resetDone ∉ h → ∀ s : Speed K, s.shown = s.ema →
    (h.foldl (Speed.on R) s).shown = (h.foldl (Speed.on R) s).ema
  | [], _, s, hs => hs
  | ev :: h, hn, s, hs => by
    refine shown_fold R h (fun m => hn (List.mem_cons_of_mem _ m)) _ ?_
    cases ev with
    | init => rfl
    | resetDone => exact absurd (List.mem_cons_self ..) hn
    | snapshot t e =>
      simp only [Speed.on]
      split
      · split
        · rfl
        · exact hs
      · exact hs

/-- C96: from the button `Initialize` until a reset, the speed is shown as soon as one has been measured. -/
theorem _root_.SR.C96_speed_shown [IsStrictOrderedRing K] (h₁ h : List (SpeedEvent K)) (hn : .resetDone ∉ h)
    (hf : ∀ t e, SpeedEvent.snapshot t e ∈ h → t.isFinite = true ∧ e.isFinite = true) :
    (Speed.after (Rounding.exact K) (h₁ ++ .init :: h)).shown = (fading (speeds (snapshots h))).map .fin := by
  have T := tracks_fold h hf ⟨none, none, none, none⟩ [] ⟨rfl, rfl, rfl, .inl rfl⟩
  have S := shown_fold (Rounding.exact K) h hn ⟨none, none, none, none⟩ rfl
  have e : Speed.after (Rounding.exact K) (h₁ ++ .init :: h) = h.foldl (Speed.on (Rounding.exact K)) ⟨none, none, none, none⟩ := by
    rw [Speed.after, List.foldl_append, List.foldl_cons]; rfl
  rw [e, S, T.ema]; rfl

/-- C96, what the speed is not: the time while the search is paused counts. A search that makes 1000 evaluations in every second of its
running, paused for nine seconds, is shown with 820 evaluations per second. -/
theorem _root_.SR.C96_pause_counts :
    (Speed.after (Rounding.exact ℚ) [.init, .snapshot (.fin 0) (.fin 0), .snapshot (.fin 1000) (.fin 1000),
      .snapshot (.fin 11000) (.fin 2000)]).shown = some (.fin 820) := by decide +kernel

/-- The hypotheses are met: three snapshots after an initialisation. -/
example : (Speed.after (Rounding.exact ℚ) [.snapshot (.fin 5) (.fin 70), .init, .snapshot (.fin 0) (.fin 0), .snapshot (.fin 500) (.fin 100),
    .snapshot (.fin 1000) (.fin 300)]).shown = some (.fin 240) ∧
    speeds (snapshots [.snapshot (.fin (5 : ℚ)) (.fin 70), .init, .snapshot (.fin 0) (.fin 0), .snapshot (.fin 500) (.fin 100),
      .snapshot (.fin 1000) (.fin 300)]) = [400, 200] := by decide +kernel

/-- A table with a missing cell and a cell that is not a number. -/
example :
    finiteCells [[.fin (1 : ℚ), .fin 4], [.fin 3], [.fin 5, .nan], [.fin 7, .fin 2]] 1 = [4, 2] ∧
    ((columnSummary (Rounding.exact ℚ) id ⟨["a", "b"], [[.fin (1 : ℚ), .fin 4], [.fin 3], [.fin 5, .nan], [.fin 7, .fin 2]]⟩)[1]?).map
      (fun s => (s.mean, s.min, s.max)) = some (.fin 3, .fin 2, .fin 4) := ⟨by decide +kernel, by decide +kernel⟩

end PageStats
end SR
