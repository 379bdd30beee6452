import Verif.Spec.Web
import Verif.Props.WebSplit
/-
C60: the data set of the web interface.
-/
namespace SR
variable {K : Type} [Field K] [LinearOrder K]

theorem dedupAdj_spec : ∀ {l : List Nat}, l.Pairwise (· ≤ ·) →
    (dedupAdj l).Pairwise (· < ·) ∧ ∀ c, c ∈ dedupAdj l ↔ c ∈ l
  | [], _ => by simp [dedupAdj]
  | [a], _ => by simp [dedupAdj]
  | a :: b :: l, h => by
    unfold dedupAdj
    rw [List.pairwise_cons] at h
    split
    · next e =>
      subst e
      obtain ⟨h1, h2⟩ := dedupAdj_spec (l := a :: l) h.2
      exact ⟨h1, fun c => by rw [h2]; simp⟩
    · next e =>
      obtain ⟨h1, h2⟩ := dedupAdj_spec (l := b :: l) h.2
      refine ⟨List.pairwise_cons.mpr ⟨fun c hc => ?_, h1⟩, fun c => by rw [List.mem_cons, h2]; simp⟩
      have hc := (h2 c).mp hc
      have hab := h.1 b (by simp)
      have hb : b ≤ c := by
        rcases List.mem_cons.mp hc with rfl | hc
        · exact Nat.le_refl _
        · exact (List.pairwise_cons.mp h.2).1 c hc
      omega

theorem featureColumns_spec (nCols yCol : Nat) (o : WebColumns) :
    (featureColumns nCols yCol o.weightsColumn o.xColumns).Pairwise (· < ·) ∧
    ∀ c, c ∈ featureColumns nCols yCol o.weightsColumn o.xColumns ↔ WantsColumn o nCols yCol c := by
  unfold featureColumns WantsColumn
  cases o.xColumns with
  | some v =>
    have hs : (v.mergeSort fun a b => decide (a ≤ b)).Pairwise (· ≤ ·) := by
      have := List.pairwise_mergeSort (le := fun a b : Nat => decide (a ≤ b)) (by simp; omega) (by simp; omega) v
      exact this.imp (by simp)
    obtain ⟨h1, h2⟩ := dedupAdj_spec hs
    exact ⟨h1, fun c => by rw [h2, (List.mergeSort_perm _ _).mem_iff]⟩
  | none =>
    have hs := (List.pairwise_mergeSort (le := fun a b : Nat => decide (a ≤ b)) (by simp; omega) (by simp; omega)
      ((List.range nCols).filter fun c => decide (c ≠ yCol ∧ some c ≠ o.weightsColumn))).imp
      (S := (· ≤ ·)) (by simp)
    obtain ⟨h1, h2⟩ := dedupAdj_spec hs
    refine ⟨h1, fun c => ?_⟩
    rw [h2, (List.mergeSort_perm _ _).mem_iff]
    simp

theorem mapM_col {rows : List (List (Fl K))} {c : Nat} (h : ∀ row ∈ rows, c < row.length) :
    ∃ r, rows.mapM (fun row => row[c]?) = some r ∧ r.length = rows.length ∧
      ∀ (i : Nat) (row : List (Fl K)), rows[i]? = some row → r[i]? = row[c]? := by
  induction rows with
  | nil => exact ⟨[], rfl, rfl, by simp⟩
  | cons row rows ih =>
    obtain ⟨r, h1, h2, h3⟩ := ih fun x hx => h x (by simp [hx])
    have hi : row[c]? = some (row[c]'(h row (by simp))) := List.getElem?_eq_getElem _
    refine ⟨row[c]'(h row (by simp)) :: r, by rw [List.mapM_cons, hi, h1]; rfl, by simp [h2], fun i x hx => ?_⟩
    cases i with
    | zero => simp only [List.getElem?_cons_zero, Option.some.injEq] at hx ⊢; subst hx; exact hi.symm
    | succ i => simpa using h3 i x (by simpa using hx)

theorem mapM_table {rows : List (List (Fl K))} : ∀ {cols : List Nat}, (∀ c ∈ cols, ∀ row ∈ rows, c < row.length) →
    ∃ t, cols.mapM (fun c => rows.mapM fun row => row[c]?) = some t ∧
      ∀ (j c i : Nat) (row : List (Fl K)), cols[j]? = some c → rows[i]? = some row → (t[j]?).bind (·[i]?) = row[c]?
  | [], _ => ⟨[], rfl, by simp⟩
  | c :: cols, h => by
    obtain ⟨r, r1, -, r3⟩ := mapM_col (h c (by simp))
    obtain ⟨t, t1, t2⟩ := mapM_table (cols := cols) fun x hx => h x (by simp [hx])
    refine ⟨r :: t, by rw [List.mapM_cons, r1, t1]; rfl, fun j c' i row h1 h2 => ?_⟩
    cases j with
    | zero =>
      simp only [List.getElem?_cons_zero, Option.some.injEq] at h1
      subst h1
      exact r3 i row h2
    | succ j => exact t2 j c' i row (by simpa using h1) h2

theorem fillDataset_spec (headers : List String) {rows : List (List (Fl K))} {o : WebColumns} {nCols yCol : Nat}
    {cols : List Nat} (hw : ∀ row ∈ rows, row.length = nCols) (hy : yCol < nCols)
    (hwc : ∀ wc, o.weightsColumn = some wc → wc < nCols) (hc : ∀ c ∈ cols, c < nCols)
    (h1 : cols.Pairwise (· < ·)) (h2 : ∀ c, c ∈ cols ↔ WantsColumn o nCols yCol c) :
    ∃ f, fillDataset headers rows o nCols yCol cols = some f ∧ IsTable headers rows o nCols yCol f cols := by
  obtain ⟨t, t1, t2⟩ := mapM_table (rows := rows) (cols := cols) fun c hx row hr => by rw [hw row hr]; exact hc c hx
  obtain ⟨y, y1, y2, y3⟩ := mapM_col (rows := rows) (c := yCol) fun row hr => by rw [hw row hr]; exact hy
  have hweights : ∃ w, weightsOf rows o.weightsColumn = some w ∧ w.isSome = o.weightsColumn.isSome ∧
      (∀ v, w = some v → v.length = rows.length) ∧
      ∀ v wc, w = some v → o.weightsColumn = some wc → ∀ (i : Nat) (row : List (Fl K)),
        rows[i]? = some row → v[i]? = row[wc]? := by
    cases hx : o.weightsColumn with
    | none => exact ⟨none, rfl, rfl, by simp, by simp⟩
    | some wc =>
      obtain ⟨w, w1, w2, w3⟩ := mapM_col (rows := rows) (c := wc) fun row hr => by rw [hw row hr]; exact hwc wc hx
      refine ⟨some w, by rw [weightsOf, w1]; rfl, rfl, by rintro _ ⟨⟩; exact w2, ?_⟩
      rintro _ _ ⟨⟩ ⟨⟩
      exact w3
  obtain ⟨w, w1, w2, w3, w4⟩ := hweights
  have hnames : ∃ n, featureNames headers o nCols cols = some n ∧ n.length = cols.length ∧
      ∀ (j c : Nat), cols[j]? = some c →
        n[j]? = if o.hasHeaders && headers.length == nCols then headers[c]? else some ("x" ++ toString j) := by
    unfold featureNames
    split
    · next h =>
      simp only [Bool.and_eq_true, beq_iff_eq] at h
      obtain ⟨n, n1, n2, n3⟩ := mapM_get (l := headers) (idx := cols) fun c hx => by rw [h.2]; exact hc c hx
      exact ⟨n, n1, n2, fun j c hj => by rw [n3, hj]; rfl⟩
    · refine ⟨_, rfl, by simp, fun j c hj => ?_⟩
      have hj' : j < cols.length := (List.getElem?_eq_some_iff.mp hj).1
      simp [hj']
  obtain ⟨n, n1, n2, n3⟩ := hnames
  refine ⟨⟨⟨cols.length, rows.length, fun f r => ((t[f]?).bind (·[r]?)).getD (.fin 0)⟩, y, n, w⟩,
    by unfold fillDataset; simp only [t1, y1, w1, n1, Option.bind_eq_bind, Option.bind_some], ?_⟩
  refine ⟨h1, h2, rfl, rfl, y2, w3, fun j c i row hj hi => ?_, y3, w2, w4, n2, n3⟩
  have hcn : c < row.length := by
    rw [hw row (List.mem_of_getElem? hi)]; exact hc c (List.mem_of_getElem? hj)
  have := t2 j c i row hj hi
  show row[c]? = some (((t[j]?).bind (·[i]?)).getD (.fin 0))
  rw [this, List.getElem?_eq_getElem hcn]; rfl

/-- C60: building the data set never panics; it fails exactly if the request is invalid, and otherwise returns the
table that was asked for. -/
theorem C60_table (headers : List String) (rows : List (List (Fl K))) (o : WebColumns) :
    ∃ r, buildFullDataset headers rows o = some r ∧
      (r = none ↔ ∀ nCols yCol, ¬ ValidRequest rows o nCols yCol) ∧
      ∀ f, r = some f → ∃ nCols yCol cols, ValidRequest rows o nCols yCol ∧ IsTable headers rows o nCols yCol f cols := by
  have bad : ∀ {P : Prop}, (∀ nCols yCol, ¬ ValidRequest rows o nCols yCol) →
      ∃ r : Option (FullData K), some none = some r ∧ (r = none ↔ ∀ nCols yCol, ¬ ValidRequest rows o nCols yCol) ∧
      ∀ f, r = some f → ∃ nCols yCol cols, ValidRequest rows o nCols yCol ∧ IsTable headers rows o nCols yCol f cols :=
    fun h => ⟨none, rfl, ⟨fun _ => h, fun _ => rfl⟩, by simp⟩
  unfold buildFullDataset
  by_cases hrows : rows = []
  · subst hrows
    exact bad (P := True) fun _ _ h => h.nonempty rfl
  · obtain ⟨first, rest, hcons⟩ := List.exists_cons_of_ne_nil hrows
    have hhead : rows.head? = some first := by rw [hcons]; rfl
    rw [hhead]
    simp only [buildChecked]
    have hfirst : first ∈ rows := by rw [hcons]; simp
    split
    · next h => exact bad (P := True) fun n y v => by have := v.width first hfirst; have := v.two; omega
    split
    · next h =>
      rw [List.any_eq_true] at h
      obtain ⟨row, hr, hne⟩ := h
      exact bad (P := True) fun n y v => by
        have h1 := v.width row hr
        have h2 := v.width first hfirst
        rw [decide_eq_true_eq] at hne
        omega
    next htwo hwidth =>
    have hw : ∀ row ∈ rows, row.length = first.length := by
      intro row hr
      by_contra hne
      exact hwidth (List.any_eq_true.mpr ⟨row, hr, by simpa using hne⟩)
    have pin : ∀ {n y}, ValidRequest rows o n y → n = first.length ∧ y = o.yColumn.getD (first.length - 1) := by
      intro n y v
      have h1 := v.width first hfirst
      exact ⟨h1.symm, by rw [v.target, h1]⟩
    generalize hyc : o.yColumn.getD (first.length - 1) = yCol
    rw [hyc] at pin
    split
    · next h =>
      exact bad (P := True) fun n y v => by
        obtain ⟨rfl, rfl⟩ := pin v; have := v.targetLt; omega
    next hlt =>
    split
    · next h =>
      exact bad (P := True) fun n y v => by
        obtain ⟨rfl, rfl⟩ := pin v
        have := v.weights
        cases hx : o.weightsColumn with
        | none => rw [hx] at h; simp [weightsColumnOk] at h
        | some wc =>
          rw [hx] at h
          have := this wc hx
          simp [weightsColumnOk] at h
          omega
    next hwok =>
    obtain ⟨f1, f2⟩ := featureColumns_spec first.length yCol o
    generalize featureColumns first.length yCol o.weightsColumn o.xColumns = cols at f1 f2
    have hwok : ∀ wc, o.weightsColumn = some wc → wc < first.length ∧ wc ≠ yCol := by
      intro wc hx
      rw [hx] at hwok
      simpa [weightsColumnOk] using hwok
    split
    · next h =>
      refine bad (P := True) fun n y v => ?_
      obtain ⟨rfl, rfl⟩ := pin v
      have hall : ∀ c, c ∈ cols → c < first.length ∧ c ≠ y ∧ some c ≠ o.weightsColumn := by
        intro c hc
        have hc := (f2 c).mp hc
        unfold WantsColumn at hc
        split at hc
        · next w hx => exact (v.features w hx).2 c hc
        · exact hc
      have hne : cols ≠ [] := by
        cases hx : o.xColumns with
        | none =>
          obtain ⟨c, hc⟩ := v.left hx
          exact List.ne_nil_of_mem ((f2 c).mpr (by unfold WantsColumn; rw [hx]; exact hc))
        | some w =>
          obtain ⟨c, hc⟩ := List.exists_mem_of_ne_nil _ (v.features w hx).1
          exact List.ne_nil_of_mem ((f2 c).mpr (by unfold WantsColumn; rw [hx]; exact hc))
      simp only [Bool.or_eq_true] at h
      rcases h with ((h | h) | h) | h
      · exact hne (List.isEmpty_iff.mp h)
      · rw [List.any_eq_true] at h
        obtain ⟨c, hc, h⟩ := h
        have := (hall c hc).1
        rw [decide_eq_true_eq] at h
        omega
      · exact (hall y (by simpa using h)).2.1 rfl
      · cases hx : o.weightsColumn with
        | none => rw [hx] at h; simp [weightsNotFeature] at h
        | some wc =>
          rw [hx] at h
          exact (hall wc (by simpa [weightsNotFeature] using h)).2.2 hx.symm
    · next h =>
      simp only [Bool.or_eq_true, not_or] at h
      obtain ⟨⟨⟨h1, h2⟩, h3⟩, h4⟩ := h
      have hc : ∀ c ∈ cols, c < first.length := by
        intro c hc
        by_contra hge
        exact h2 (List.any_eq_true.mpr ⟨c, hc, by rw [decide_eq_true_eq]; omega⟩)
      obtain ⟨f, e, ht⟩ := fillDataset_spec headers (rows := rows) (o := o) hw (by omega) (fun wc hx => (hwok wc hx).1)
        hc f1 f2
      have hy : yCol ∉ cols := fun hm => h3 (by simpa using hm)
      have hwn : ∀ c ∈ cols, some c ≠ o.weightsColumn := by
        rintro c hm hx
        rw [← hx] at h4
        exact h4 (by simpa [weightsNotFeature] using hm)
      have hne : cols ≠ [] := fun e => h1 (by rw [e]; rfl)
      have valid : ValidRequest rows o first.length yCol := by
        refine ⟨List.ne_nil_of_mem hfirst, hw, by omega, hyc.symm, by omega, hwok, fun v hx => ?_, fun hx => ?_⟩
        · have hwant : ∀ c, c ∈ cols ↔ c ∈ v := by
            intro c; rw [f2]; unfold WantsColumn; rw [hx]
          refine ⟨?_, fun c hcv => ?_⟩
          · rintro rfl
            exact hne (List.eq_nil_iff_forall_not_mem.mpr fun c hm => by simpa using (hwant c).mp hm)
          · have hm := (hwant c).mpr hcv
            exact ⟨hc c hm, fun e => hy (e ▸ hm), hwn c hm⟩
        · obtain ⟨c, hm⟩ := List.exists_mem_of_ne_nil _ hne
          exact ⟨c, hc c hm, fun e => hy (e ▸ hm), hwn c hm⟩
      refine ⟨some f, by rw [e]; rfl, ⟨by simp, fun h => absurd valid (h _ _)⟩, ?_⟩
      rintro _ ⟨⟩
      exact ⟨_, _, cols, valid, ht⟩

/-- A concrete valid request: the last column is the target, column 1 holds weights, the features are columns 2 and 0. -/
example : ValidRequest (K := ℚ) [[.fin 1, .fin 2, .fin 3, .fin 4], [.fin 5, .fin 6, .fin 7, .fin 8]]
    ⟨false, some [2, 0, 2], none, some 1⟩ 4 3 := by
  constructor <;> simp

/-- An invalid one (the target is also a feature): the answer is an error, not a panic. -/
example : buildFullDataset (K := ℚ) ["a", "b"] [[.fin 1, .fin 2]] ⟨true, some [0, 1], some 1, none⟩ = some none := by
  obtain ⟨r, h1, h2, -⟩ := C60_table (K := ℚ) ["a", "b"] [[.fin 1, .fin 2]] ⟨true, some [0, 1], some 1, none⟩
  rw [h1, h2.mpr]
  intro n y h
  have h3 := h.target
  simp only [Option.getD_some] at h3
  have := (h.features _ rfl).2 1 (by simp)
  omega

end SR
