import Verif.Spec.PageData
import Verif.Props.WebTable
import Verif.Props.WebMember
import Verif.Props.WebSession
/-
C85: the data that the page shows, and the pairing of predictions with data in its plots.
-/
namespace SR
section
variable {K : Type} [Zero K] [One K]

theorem pageRows_eq (raw : Csv K) :
    ((raw.map fun r => r.map fun c => c.js.number).filter fun r => !r.any fun v => !v.isFinite) =
      (raw.filter fun r => r.all fun c => c.js.number.isFinite).map fun r => r.map fun c => c.js.number := by
  rw [List.filter_map]
  congr 2
  funext r
  simp only [Function.comp, List.any_map]
  induction r with
  | nil => rfl
  | cons c r ih => simp only [List.any_cons, List.all_cons, Function.comp, Bool.not_or, Bool.not_not, ih]

omit [Zero K] [One K] in
theorem pageHeaders_length (hasHeaders : Bool) (raw : Csv K) (n : Nat) : (pageHeaders hasHeaders raw n).length = n := by
  unfold pageHeaders
  simp only
  generalize (if hasHeaders = true then ((List.head? raw).getD []).map Cell.shown else []) = h
  split
  · simp
  · next h => exact not_not.mp h

/-- C85: the preview.  The page shows exactly the data lines all of whose cells are finite numbers, in order; there is an error
exactly if there is none; and there is a name for each column. -/
theorem C85_preview (hasHeaders : Bool) (raw : Csv K) :
    (pageParse hasHeaders raw = none ↔ ∀ r ∈ dataLines hasHeaders raw, ¬ Numeric r) ∧
    ∀ p, pageParse hasHeaders raw = some p →
      p.rows = ((dataLines hasHeaders raw).filter fun r => r.all fun c => c.js.number.isFinite).map
        (fun r => r.map fun c => c.js.number) ∧
      AllFinite p.rows ∧ p.rows ≠ [] ∧ p.headers.length = ((p.rows.head?).getD []).length := by
  unfold pageParse
  simp only
  rw [pageRows_eq]
  have hnum : ∀ r : List (Cell K), (r.all fun c => c.js.number.isFinite) = true ↔ Numeric r := fun r => by
    unfold Numeric; rw [List.all_eq_true]
  set kept := (dataLines hasHeaders raw).filter fun r => r.all fun c => c.js.number.isFinite with hk
  cases hh : (kept.map fun r => r.map fun c => c.js.number).head? with
  | none =>
    rw [List.head?_eq_none_iff, List.map_eq_nil_iff, hk, List.filter_eq_nil_iff] at hh
    exact ⟨⟨fun _ r hr hn => hh r hr ((hnum r).mpr hn), fun _ => rfl⟩, fun p h => by cases h⟩
  | some r0 =>
    refine ⟨⟨fun h => (by cases h), fun h => ?_⟩, fun p h => ?_⟩
    · exfalso
      have h0 := List.mem_of_mem_head? hh
      obtain ⟨r, hr, -⟩ := List.mem_map.mp h0
      rw [hk, List.mem_filter] at hr
      exact h r hr.1 ((hnum r).mp hr.2)
    · cases h
      refine ⟨rfl, ?_, fun h => ?_, ?_⟩
      · intro r hr v hv
        obtain ⟨r', hr', rfl⟩ := List.mem_map.mp hr
        obtain ⟨c, hc, rfl⟩ := List.mem_map.mp hv
        rw [hk, List.mem_filter] at hr'
        exact (hnum r').mp hr'.2 c hc
      · have h : (kept.map fun r => r.map fun c => c.js.number) = [] := h
        rw [h] at hh; cases hh
      · simp only [hh, Option.getD_some]
        exact pageHeaders_length _ _ _

theorem mapM_rust {r : List (Cell K)} {vs : List (Fl K)} (h : r.mapM Cell.rust = some vs)
    (hag : ∀ c ∈ r, ∀ v, c.rust = some v → c.js.number = v ∨ (c.js.number.isFinite = false ∧ v.isFinite = false))
    (hf : ∀ v ∈ vs, v.isFinite = true) : (r.map fun c => c.js.number) = vs ∧ Numeric r := by
  induction r generalizing vs with
  | nil => cases h; exact ⟨rfl, by simp [Numeric]⟩
  | cons c r ih =>
    rw [List.mapM_cons] at h
    simp only [Option.bind_eq_bind, Option.bind_eq_some_iff, Option.pure_def, Option.some.injEq] at h
    obtain ⟨v, hv, vs', hvs, rfl⟩ := h
    obtain ⟨h1, h2⟩ := ih hvs (fun c hc => hag c (by simp [hc])) fun v hv => hf v (by simp [hv])
    have hvf := hf v (by simp)
    have hc : c.js.number = v := by
      rcases hag c (by simp) v hv with h | ⟨-, h⟩
      · exact h
      · rw [hvf] at h; cases h
    refine ⟨by rw [List.map_cons, h1, hc], fun x hx => ?_⟩
    rcases List.mem_cons.mp hx with rfl | hx
    · rw [hc]; exact hvf
    · exact h2 x hx

/-- C85: the page and the session read the same data.  If the session accepts the text and all its numbers are finite, then the rows
shown by the page are the rows of the session. -/
theorem C85_same {hasHeaders : Bool} {raw : Csv K} (hag : Agree raw) {headers : List String} {rows : List (List (Fl K))}
    (h : sessionRead hasHeaders raw = some (headers, rows)) (hf : AllFinite rows) (hne : rows ≠ []) :
    ∃ p, pageParse hasHeaders raw = some p ∧ p.rows = rows ∧ ∀ n, (∀ r ∈ rows, r.length = n) → p.headers.length = n := by
  unfold sessionRead at h
  split at h
  · cases h
  simp only [Option.bind_eq_bind, Option.bind_eq_some_iff, Option.some.injEq, Prod.mk.injEq] at h
  obtain ⟨rows', h1, -, rfl⟩ := h
  have hag' : ∀ r ∈ dataLines hasHeaders raw, r ∈ raw := fun r hr => by
    unfold dataLines at hr
    split at hr
    · exact List.mem_of_mem_drop hr
    · exact hr
  have key : ∀ (ls : Csv K) (rs : List (List (Fl K))), ls.mapM (fun r => r.mapM Cell.rust) = some rs → (∀ r ∈ ls, r ∈ raw) →
      AllFinite rs → (ls.filter fun r => r.all fun c => c.js.number.isFinite) = ls ∧ (ls.map fun r => r.map fun c => c.js.number) = rs := by
    intro ls
    induction ls with
    | nil => intro rs h _ _; cases h; exact ⟨rfl, rfl⟩
    | cons r ls ih =>
      intro rs h hm hfin
      rw [List.mapM_cons] at h
      simp only [Option.bind_eq_bind, Option.bind_eq_some_iff, Option.pure_def, Option.some.injEq] at h
      obtain ⟨vs, hv, rs', hrs, rfl⟩ := h
      obtain ⟨a1, a2⟩ := ih rs' hrs (fun r hr => hm r (by simp [hr])) fun r hr => hfin r (by simp [hr])
      obtain ⟨b1, b2⟩ := mapM_rust hv (hag r (hm r (by simp))) (hfin vs (by simp))
      exact ⟨by rw [List.filter_cons_of_pos (by rw [List.all_eq_true]; exact b2), a1], by rw [List.map_cons, a2, b1]⟩
  obtain ⟨k1, k2⟩ := key _ _ h1 hag' hf
  obtain ⟨p1, p2⟩ := C85_preview hasHeaders raw
  cases hp : pageParse hasHeaders raw with
  | none =>
    exfalso
    have := p1.mp hp
    cases hd : dataLines hasHeaders raw with
    | nil => rw [hd] at k2; exact hne k2.symm
    | cons r ls =>
      refine this r (by rw [hd]; simp) ?_
      have : r ∈ (dataLines hasHeaders raw).filter fun r => r.all fun c => c.js.number.isFinite := by rw [k1, hd]; simp
      intro c hc
      exact List.all_eq_true.mp (List.mem_filter.mp this).2 c hc
  | some p =>
    obtain ⟨q1, q2, q3, q4⟩ := p2 p hp
    rw [k1, k2] at q1
    refine ⟨p, rfl, q1, fun n hn => ?_⟩
    rw [q4, q1]
    cases hr : rows' with
    | nil => exact absurd hr hne
    | cons r rs => exact hn r (by rw [hr]; simp)

omit [Zero K] [One K] in
theorem getElem?_columnOf (rows : List (List (Fl K))) (c i : Nat) :
    (columnOf rows c)[i]? = (rows[i]?).map fun r => r[c]? := by
  unfold columnOf; rw [List.getElem?_map]

omit [Zero K] [One K] in
theorem finiteAt_column {rows : List (List (Fl K))} (hf : AllFinite rows) {c i : Nat} {r : List (Fl K)} (h : rows[i]? = some r) :
    finiteAt (columnOf rows c) i = r[c]? := by
  unfold finiteAt
  rw [getElem?_columnOf, h]
  simp only [Option.map_some, Option.join_some]
  cases hv : r[c]? with
  | none => rfl
  | some v =>
    rw [Option.filter_some, if_pos (hf r (List.mem_of_getElem? h) v (List.mem_of_getElem? hv))]

/-- A list gathered by a function that is defined everywhere on the indices. -/
theorem filterMap_total {α : Type} {f : Nat → Option α} {idx : List Nat} {l : List α} (hl : l.length = idx.length)
    (h : ∀ (k i : Nat), idx[k]? = some i → f i = l[k]?) : idx.filterMap f = l := by
  induction idx generalizing l with
  | nil => cases l <;> simp at hl ⊢
  | cons i idx ih =>
    cases l with
    | nil => simp at hl
    | cons a l =>
      have h0 := h 0 i rfl
      simp only [List.getElem?_cons_zero] at h0
      rw [List.filterMap_cons_some h0]
      congr 1
      exact ih (by simpa using hl) fun k i hk => by simpa using h (k + 1) i (by simpa using hk)

/-- C85: nothing is out of date as long as neither the text nor the header switch is changed after the data were parsed. -/
theorem C85_current {d : DataTab K} (h : d.Current) (es : List (DEvent K))
    (he : ∀ (pre : List (DEvent K)) (e : DEvent K) (post : List (DEvent K)), es = pre ++ e :: post → ¬ e.Edits (d.run pre)) :
    (d.run es).Current := by
  induction es generalizing d with
  | nil => exact h
  | cons e es ih =>
    have h1 : (d.on e).Current := by
      have he := he [] e es rfl
      change ¬ e.Edits d at he
      cases e with
      | setText t =>
        have : t = d.text := not_not.mp he
        subst this
        exact h
      | setOptions o =>
        have : o.hasHeaders = d.opts.hasHeaders := not_not.mp he
        unfold DataTab.Current at h ⊢
        simp only [DataTab.on]
        rw [this]; exact h
      | parse =>
        simp only [DataTab.on, DataTab.parseCsv]
        split
        · exact h
        · next p hp => exact hp.symm
      | ensure =>
        simp only [DataTab.on, DataTab.ensureParsed]
        split
        · exact h
        · split
          · exact h
          · next p hp => exact hp.symm
    exact ih h1 fun pre e' post e2 => he (e :: pre) e' post (by rw [e2]; rfl)

/-- C85: and after a click on Parse that succeeds the data are those of the text. -/
theorem C85_parse (d : DataTab K) (h : pageParse d.opts.hasHeaders d.text ≠ none) : (d.on .parse).Current := by
  simp only [DataTab.on, DataTab.parseCsv]
  split
  · next e => exact absurd e h
  · next p hp => exact hp.symm
end

section
variable {K : Type} [Field K] [LinearOrder K]

/-- The parts of a data set from the rows of the text. -/
theorem actual_eq {d : DataTab K} {headers : List String} {rows : List (List (Fl K))} (hag : Agree d.text)
    (hread : sessionRead d.opts.hasHeaders d.text = some (headers, rows)) (hfin : AllFinite rows) (hcur : d.Current)
    {nCols yCol : Nat} {f : FullData K} {cols : List Nat} (hv : ValidRequest rows d.opts nCols yCol)
    (ht : IsTable headers rows d.opts nCols yCol f cols) {b : Dataset K} {idx : List Nat}
    (hb : RowsOf ⟨f.x, f.y, f.weights, none⟩ b idx) :
    d.actual idx = b.y ∧ ∀ c, d.opts.xColumns = some [c] → d.points idx = ((List.range b.x.cols).map (b.x.at' 0)).zip b.y := by
  obtain ⟨p, hp, hrows, hlen⟩ := C85_same hag hread hfin hv.nonempty
  unfold DataTab.Current at hcur
  rw [hp] at hcur
  have hy : d.yCol = yCol := by
    unfold DataTab.yCol
    rw [hv.target, hcur]
    simp only
    rw [hlen nCols hv.width]
  have hsrc : ∀ (k i : Nat), idx[k]? = some i → ∃ row, rows[i]? = some row ∧ b.y[k]? = row[yCol]? ∧ yCol < row.length := fun k i hk => by
    have hs := hb.row k i hk
    have hi : i < rows.length := by have := hs.exists_; rw [← ht.nRows]; exact this
    obtain ⟨row, hrow⟩ : ∃ row, rows[i]? = some row := ⟨_, List.getElem?_eq_getElem hi⟩
    exact ⟨row, hrow, by rw [hs.y]; exact ht.y i row hrow, by rw [hv.width row (List.mem_of_getElem? hrow)]; exact hv.targetLt⟩
  have hyAll : d.yAll = columnOf rows yCol := by
    unfold DataTab.yAll; rw [hcur, hy, ← hrows]
  refine ⟨?_, fun c hc => ?_⟩
  · unfold DataTab.actual gatherAt
    rw [hyAll]
    refine filterMap_total (by rw [hb.shape.y, hb.rows]) fun k i hk => ?_
    obtain ⟨row, h1, h2, -⟩ := hsrc k i hk
    rw [finiteAt_column hfin h1, h2]
  · have hxAll : d.xAll = columnOf rows c := by
      unfold DataTab.xAll; rw [hcur, hc]; simp only; rw [← hrows]
    have hcl : c < nCols := ((hv.features _ hc).2 c (by simp)).1
    have hcols : cols = [c] := by
      have hmem : ∀ x, x ∈ cols ↔ x = c := fun x => by
        rw [ht.wanted x]; unfold WantsColumn; rw [hc]; simp
      match hcs : cols, ht.ascending, hmem with
      | [], _, hm => exact absurd ((hm c).mpr rfl) (by simp)
      | [a], _, hm => rw [(hm a).mp (by simp)]
      | a :: a' :: l, has, hm =>
        have e1 := (hm a).mp (by simp)
        have e2 := (hm a').mp (by simp)
        have := (List.pairwise_cons.mp has).1 a' (by simp)
        omega
    unfold DataTab.points
    rw [if_neg]
    · unfold gatherPairs
      rw [hxAll, hyAll]
      have hlb : b.y.length = b.x.cols := hb.shape.y
      refine filterMap_total (by simp [hlb, hb.rows]) fun k i hk => ?_
      obtain ⟨row, h1, h2, h3⟩ := hsrc k i hk
      have hrl := hv.width row (List.mem_of_getElem? h1)
      have hx : row[c]? = some (b.x.at' 0 k) := by
        rw [(hb.row k i hk).x 0]
        exact ht.x 0 c i row (by rw [hcols]; rfl) h1
      have hyv : row[yCol]? = some (row[yCol]'h3) := List.getElem?_eq_getElem h3
      rw [finiteAt_column hfin h1, finiteAt_column hfin h1, hx, hyv]
      have hk' : k < b.x.cols := by rw [hb.rows]; exact (List.getElem?_eq_some_iff.mp hk).1
      exact (List.getElem?_zip_eq_some.mpr ⟨by rw [List.getElem?_map, List.getElem?_range hk']; rfl, by rw [h2, hyv]⟩).symm
    · rw [hxAll]
      unfold columnOf
      simp [hv.nonempty]

/-- C85: the plot puts each prediction beside its own data.  The session was opened with the text and options of the page, all
numbers are finite, and the page shows the data of that text.  Then the targets that the page puts beside the predictions on the training
rows are the targets of the training data of the session in order, so are those of the validation rows, and with a single feature the
points of the curve are the pairs of that feature and the target. -/
theorem C85_aligned {d : DataTab K} {headers : List String} {rows : List (List (Fl K))} (hag : Agree d.text)
    (hread : sessionRead d.opts.hasHeaders d.text = some (headers, rows)) (hfin : AllFinite rows) (hcur : d.Current)
    {fraction : Fl ℚ} {names : List String} {split : Split} {train : Dataset K} {val : Option (Dataset K)}
    (hs : IsSplit headers rows d.opts fraction names split train val) :
    d.actual split.train = train.y ∧ (∀ b, val = some b → d.actual split.val = b.y) ∧ (val = none → d.actual split.val = []) ∧
    ∀ c, d.opts.xColumns = some [c] →
      d.points split.train = ((List.range train.x.cols).map (train.x.at' 0)).zip train.y ∧
      ∀ b, val = some b → d.points split.val = ((List.range b.x.cols).map (b.x.at' 0)).zip b.y := by
  obtain ⟨nCols, yCol, f, cols, hv, ht, -, h1, h2, h3⟩ := hs.table
  obtain ⟨a1, a2⟩ := actual_eq hag hread hfin hcur hv ht h1
  have hval : ∀ b, val = some b → RowsOf ⟨f.x, f.y, f.weights, none⟩ b split.val := fun b hb => by
    by_cases hn : split.val = []
    · rw [h2 hn] at hb; cases hb
    · obtain ⟨b', e, h⟩ := h3 hn
      rw [hb] at e; cases e; exact h
  refine ⟨a1, fun b hb => (actual_eq hag hread hfin hcur hv ht (hval b hb)).1, fun hn => ?_, fun c hc => ⟨a2 c hc, fun b hb =>
    (actual_eq hag hread hfin hcur hv ht (hval b hb)).2 c hc⟩⟩
  have : split.val = [] := by
    by_contra h
    obtain ⟨b', e, -⟩ := h3 h
    rw [hn] at e; cases e
  rw [this]; rfl

/-- C85: a click on Parse does not change what is searched: the columns it fills in are those that the session would take. -/
theorem C85_defaults (headers : List String) (rows : List (List (Fl K))) (o : WebColumns) {n : Nat} (hn : ∀ r ∈ rows, r.length = n) :
    buildFullDataset headers rows (fillColumns n o) = buildFullDataset headers rows o := by
  unfold buildFullDataset
  cases hr : rows.head? with
  | none => rfl
  | some r =>
    have hl : r.length = n := hn r (List.mem_of_mem_head? hr)
    simp only [hl]
    cases hx : o.xColumns <;> simp [buildChecked, fillColumns, featureColumns, fillDataset, featureNames, hx]

/-- C85: the curve.  The points of the curve are the pairs of a value of the feature and the prediction for it, as far as both are
finite, in ascending order of the feature. -/
theorem C85_curve (x y : List (Fl K)) (h : x.length = y.length) :
    (sortXY x y).Perm ((x.zip y).filter fun p => p.1.isFinite && p.2.isFinite) ∧
    (sortXY x y).Pairwise fun a b => ∃ u v, a.1 = .fin u ∧ b.1 = .fin v ∧ u ≤ v := by
  have hz : (x.zipIdx.map fun p => (p.1, (y[p.2]?).getD .nan)) = x.zip y := by
    refine List.ext_getElem? fun k => ?_
    rw [List.getElem?_map, List.getElem?_zipIdx]
    cases hx : x[k]? with
    | none =>
      rw [List.getElem?_eq_none (by simp; left; exact List.getElem?_eq_none_iff.mp hx)]
      rfl
    | some a =>
      have hk : k < y.length := by rw [← h]; exact (List.getElem?_eq_some_iff.mp hx).1
      rw [(List.getElem?_zip_eq_some (z := (a, y[k]))).mpr ⟨hx, List.getElem?_eq_getElem hk⟩]
      simp [List.getElem?_eq_getElem hk]
  unfold sortXY
  rw [hz]
  set l := (x.zip y).filter fun p => p.1.isFinite && p.2.isFinite with hl
  have hfin : ∀ p ∈ l, ∃ u, p.1 = .fin u := fun p hp => by
    rw [hl, List.mem_filter, Bool.and_eq_true] at hp
    have := hp.2.1
    cases h1 : p.1 <;> rw [h1] at this <;> first | exact ⟨_, rfl⟩ | cases this
  have hp := List.mergeSort_perm l fun a b => decide (finValue a.1 ≤ finValue b.1)
  refine ⟨hp, ?_⟩
  have hs := List.pairwise_mergeSort (le := fun a b : Fl K × Fl K => decide (finValue a.1 ≤ finValue b.1))
    (fun a b c h1 h2 => by simp only [decide_eq_true_eq] at *; exact h1.trans h2)
    (fun a b => by simp only [Bool.or_eq_true, decide_eq_true_eq]; exact le_total _ _) l
  refine hs.imp_of_mem fun {a b} ha hb hab => ?_
  obtain ⟨u, hu⟩ := hfin a (hp.mem_iff.mp ha)
  obtain ⟨v, hv⟩ := hfin b (hp.mem_iff.mp hb)
  rw [hu, hv] at hab
  exact ⟨u, v, hu, hv, of_decide_eq_true hab⟩

variable [E : Env K]

/-- C85: what a point of the plot means.  The reply of the session to the evaluation of an equation on its training (or validation) data
has one prediction per target on the page, and the `k`-th of both belong to the same line of the text: the target is its cell in the target column,
and the prediction is the value of the equation at its cells in the feature columns. -/
theorem C85_plot {d : DataTab K} {headers : List String} {rows : List (List (Fl K))} (hag : Agree d.text)
    (hread : sessionRead d.opts.hasHeaders d.text = some (headers, rows)) (hfin : AllFinite rows) (hcur : d.Current)
    {fraction : Fl ℚ} {names : List String} {split : Split} {train : Dataset K} {val : Option (Dataset K)}
    (hs : IsSplit headers rows d.opts fraction names split train val) {b : Dataset K} {idx : List Nat}
    (hb : (b = train ∧ idx = split.train) ∨ (val = some b ∧ idx = split.val))
    {t : Tree} {consts : List (Fl K)} {ms : Metrics K} {yhat : List (Fl K)} (ha : Answer b t consts (some (ms, yhat))) :
    yhat.length = (d.actual idx).length ∧
    ∃ (nCols yCol : Nat) (cols : List Nat), yCol = d.opts.yColumn.getD (nCols - 1) ∧ cols.Pairwise (· < ·) ∧
      (∀ c, c ∈ cols ↔ WantsColumn d.opts nCols yCol c) ∧
      ∀ (k i : Nat), idx[k]? = some i → ∃ (row : List (Fl K)) (x : Nat → Fl K), rows[i]? = some row ∧ row.length = nCols ∧
        (d.actual idx)[k]? = row[yCol]? ∧ (∀ (f c : Nat), cols[f]? = some c → row[c]? = some (x f)) ∧
        yhat[k]? = some (t.eval E.ops x (constAt consts)) := by
  obtain ⟨nCols, yCol, f, cols, hv, ht, -, h1, h2, h3⟩ := hs.table
  have hr : RowsOf ⟨f.x, f.y, f.weights, none⟩ b idx := by
    rcases hb with ⟨rfl, rfl⟩ | ⟨e, rfl⟩
    · exact h1
    · by_cases hn : split.val = []
      · rw [h2 hn] at e; cases e
      · obtain ⟨b', e', h⟩ := h3 hn
        rw [e] at e'; cases e'; exact h
  obtain ⟨a1, -⟩ := actual_eq hag hread hfin hcur hv ht hr
  have hy : yhat = predictions b t consts := by
    unfold Answer at ha
    split at ha
    · obtain ⟨m, -, e⟩ := ha
      cases e; rfl
    · cases ha
  refine ⟨by rw [hy, a1, predictions_length, hr.shape.y], nCols, yCol, cols, hv.target, ht.ascending, ht.wanted, fun k i hk => ?_⟩
  have hrow := hr.row k i hk
  have hi : i < rows.length := by have := hrow.exists_; rw [← ht.nRows]; exact this
  refine ⟨rows[i], fun f => b.x.at' f k, List.getElem?_eq_getElem hi, hv.width _ (List.getElem_mem _), ?_, fun j c hc => ?_, ?_⟩
  · rw [a1, hrow.y]; exact ht.y i _ (List.getElem?_eq_getElem hi)
  · show _ = some (b.x.at' j k)
    rw [hrow.x j]; exact ht.x j c i _ hc (List.getElem?_eq_getElem hi)
  · rw [hy]
    unfold predictions
    have hk' : k < b.x.cols := by rw [hr.rows]; exact (List.getElem?_eq_some_iff.mp hk).1
    rw [List.getElem?_map, List.getElem?_range hk']
    rfl
end

/-! ### Examples and exceptions -/

namespace PageDemo

/-- A cell that both sides read as a number. -/
def cell (q : ℚ) : Cell ℚ := ⟨.num (.fin q), some (.fin q), "", ""⟩

/-- The cell `nan`: a text for PapaParse, which `Number` makes NaN, and a number for Rust. -/
def nanCell : Cell ℚ := ⟨.other .nan, some .nan, "nan", "nan"⟩

/-- An empty cell. -/
def blank : Cell ℚ := ⟨.null, none, "null", ""⟩

/-- The header cell of a name. -/
def name (s : String) : Cell ℚ := ⟨.other .nan, none, s, s⟩

/-- No choice of columns, with headers. -/
def auto : WebColumns := ⟨true, none, none, none⟩

/-- A text with headers. -/
def text1 : Csv ℚ := [[name "a", name "b"], [cell 1, cell 2], [cell 3, cell 4], [cell 5, cell 6]]

/-- The Data tab when the text was entered and parsed. -/
def tab1 : DataTab ℚ := DataTab.run [.setText text1, .parse] ⟨[], auto, none⟩

theorem agree_of {raw : Csv ℚ} (h : ∀ r ∈ raw, ∀ c ∈ r, c = nanCell ∨ c.rust = none ∨ ∃ q, c = cell q) : Agree raw := by
  intro r hr c hc v hv
  rcases h r hr c hc with rfl | e | ⟨q, rfl⟩
  · cases hv; exact .inr ⟨rfl, rfl⟩
  · rw [e] at hv; cases hv
  · cases hv; exact .inl rfl

/-- A stream. -/
def stream : Rng (Fl ℚ) := ⟨fun i => i, fun _ => .fin 0⟩

/-- A session without validation rows: the rows are in the order of the text. -/
theorem dataOf_split {headers : List String} {rows : List (List (Fl ℚ))} {o : WebColumns} {nCols yCol : Nat} {y : List (Fl ℚ)}
    (hv : ValidRequest rows o nCols yCol) (hn : nVal rows.length (.fin 0) = 0) (hy : rows.map (fun r => r[yCol]?) = y.map some) :
    ∃ names split train val, IsSplit headers rows o (.fin 0) names split train val ∧ split.train = List.range rows.length ∧ train.y = y := by
  obtain ⟨r, h1, h2, h3⟩ := C73_data headers rows o (.fin 0) stream
  obtain ⟨r', b1, b2, b3⟩ := C60_table headers rows o
  cases r' with
  | none => exact absurd hv (b2.mp rfl nCols yCol)
  | some f =>
  obtain ⟨_, _, _, -, ht⟩ := b3 f rfl
  cases r with
  | none => exact absurd hv (h2.mp rfl nCols yCol)
  | some w =>
    have hw := h3 w rfl
    have hrows : 0 < rows.length := List.length_pos_of_ne_nil hv.nonempty
    have hs : w.split.train = List.range rows.length := by
      unfold webData at h1
      rw [b1] at h1
      have hm : (makeSplitIndices f.x.cols (.fin 0) : Rand (Fl ℚ) Split) stream = some (⟨List.range rows.length, []⟩, stream) := by
        rw [ht.nRows]
        unfold makeSplitIndices
        rw [if_neg (by omega)]
        simp only [hn, if_true]
        rfl
      simp only [Option.bind_eq_bind, Option.bind_some, hm] at h1
      rw [Option.bind_eq_some_iff] at h1
      obtain ⟨s, -, h1⟩ := h1
      cases s with
      | none => simp at h1
      | some q => simp only [Option.some.injEq] at h1; rw [← h1]
    refine ⟨_, _, _, _, hw, hs, ?_⟩
    obtain ⟨nCols', yCol', f', cols', hv', ht', -, hr, -⟩ := hw.table
    have e1 : nCols' = nCols := by
      obtain ⟨row, hrow⟩ := List.exists_mem_of_ne_nil _ hv.nonempty
      rw [← hv.width row hrow, hv'.width row hrow]
    have e2 : yCol' = yCol := by rw [hv.target, hv'.target, e1]
    subst e2
    have hyl : y.length = rows.length := by have := congrArg List.length hy; simpa using this.symm
    refine List.ext_getElem? fun k => ?_
    by_cases hk : k < rows.length
    · have hrow : rows[k]? = some rows[k] := List.getElem?_eq_getElem hk
      rw [(hr.row k k (by rw [hs, List.getElem?_range hk])).y]
      change f'.y[k]? = _
      rw [ht'.y k _ hrow]
      have := congrArg (·[k]?) hy
      simp only [List.getElem?_map, hrow, Option.map_some] at this
      have hyk : y[k]? = some (y[k]'(by omega)) := List.getElem?_eq_getElem _
      rw [hyk] at this ⊢
      simpa using this
    · rw [List.getElem?_eq_none (by rw [hr.shape.y, hr.rows, hs]; simpa using hk), List.getElem?_eq_none (by omega)]

/-- The hypotheses are met: a text of three lines, parsed on the page and opened by a session without validation rows. -/
example : ∃ (headers : List String) (rows : List (List (Fl ℚ))) (names : List String) (split : Split) (train : Dataset ℚ)
    (val : Option (Dataset ℚ)), Agree tab1.text ∧
    sessionRead tab1.opts.hasHeaders tab1.text = some (headers, rows) ∧ AllFinite rows ∧ tab1.Current ∧
    IsSplit headers rows tab1.opts (.fin 0) names split train val ∧ split.train = [0, 1, 2] ∧
    tab1.actual split.train = [.fin 2, .fin 4, .fin 6] ∧ tab1.opts.xColumns = some [0] ∧
    tab1.points split.train = [(.fin 1, .fin 2), (.fin 3, .fin 4), (.fin 5, .fin 6)] := by
  obtain ⟨names, split, train, val, h1, h2, -⟩ := dataOf_split (headers := ["a", "b"])
    (rows := [[.fin 1, .fin 2], [.fin 3, .fin 4], [.fin 5, .fin 6]]) (o := tab1.opts) (nCols := 2) (yCol := 1)
    (y := [.fin 2, .fin 4, .fin 6])
    ⟨by simp, by simp, by decide, rfl, by decide, (by intro _ h; cases h), (by intro v h; cases h; decide), (by intro h; cases h)⟩
    (by decide +kernel) rfl
  refine ⟨_, _, names, split, train, val, agree_of ?_, by rfl, ?_, rfl, h1, h2, by rw [h2]; rfl, rfl, by rw [h2]; rfl⟩
  · change ∀ r ∈ text1, _
    simp [text1, name, cell]
  · simp [AllFinite, Fl.isFinite]

/-- A text with a number that is not finite. -/
def text2 : Csv ℚ := [[name "a", name "b", name "c"], [cell 1, cell 1, cell 2], [nanCell, cell 3, cell 4], [cell 5, cell 5, cell 6]]

/-- The Data tab with that text and the columns `b` and `c` chosen. -/
def tab2 : DataTab ℚ := DataTab.run [.setText text2, .setOptions ⟨true, some [1], some 2, none⟩, .parse] ⟨[], auto, none⟩

/-- C85, the exception: a text with `nan` (or `inf`, or `1e999`) in some column.  The session keeps the line, the page drops it: the targets
on the page are those of the first and third line, beside the predictions for the first, second and third. -/
theorem _root_.SR.C85_nonfinite : ∃ (headers : List String) (rows : List (List (Fl ℚ))) (names : List String) (split : Split) (train : Dataset ℚ)
    (val : Option (Dataset ℚ)), Agree tab2.text ∧
    sessionRead tab2.opts.hasHeaders tab2.text = some (headers, rows) ∧ tab2.Current ∧
    IsSplit headers rows tab2.opts (.fin 0) names split train val ∧
    train.y = [.fin 2, .fin 4, .fin 6] ∧ tab2.actual split.train = [.fin 2, .fin 6] := by
  obtain ⟨names, split, train, val, h1, h2, h3⟩ := dataOf_split (headers := ["a", "b", "c"])
    (rows := [[.fin 1, .fin 1, .fin 2], [.nan, .fin 3, .fin 4], [.fin 5, .fin 5, .fin 6]]) (o := tab2.opts) (nCols := 3) (yCol := 2)
    (y := [.fin 2, .fin 4, .fin 6])
    ⟨by simp, by simp, by decide, rfl, by decide, (by intro _ h; cases h), (by intro v h; cases h; decide), (by intro h; cases h)⟩
    (by decide +kernel) rfl
  refine ⟨_, _, names, split, train, val, agree_of ?_, by rfl, rfl, h1, h3, by rw [h2]; rfl⟩
  change ∀ r ∈ text2, _
  simp [text2, name, cell]

/-- Another text. -/
def text3 : Csv ℚ := [[name "a", name "b"], [cell 1, cell 12], [cell 3, cell 14], [cell 5, cell 16]]

/-- C85, the exception: the text is edited after it was parsed and the search is initialised.  The plot shows the targets of the old
text beside the predictions for the new one. -/
theorem _root_.SR.C85_stale_text : ∃ (d : DataTab ℚ) (headers : List String) (rows : List (List (Fl ℚ))) (names : List String) (split : Split)
    (train : Dataset ℚ) (val : Option (Dataset ℚ)), d = DataTab.run [.setText text1, .parse, .setText text3] ⟨[], auto, none⟩ ∧
    sessionRead d.opts.hasHeaders d.text = some (headers, rows) ∧
    IsSplit headers rows d.opts (.fin 0) names split train val ∧
    train.y = [.fin 12, .fin 14, .fin 16] ∧ d.actual split.train = [.fin 2, .fin 4, .fin 6] := by
  obtain ⟨names, split, train, val, h1, h2, h3⟩ := dataOf_split (headers := ["a", "b"])
    (rows := [[.fin 1, .fin 12], [.fin 3, .fin 14], [.fin 5, .fin 16]]) (o := ⟨true, some [0], some 1, none⟩) (nCols := 2) (yCol := 1)
    (y := [.fin 12, .fin 14, .fin 16])
    ⟨by simp, by simp, by decide, rfl, by decide, (by intro _ h; cases h), (by intro v h; cases h; decide), (by intro h; cases h)⟩
    (by decide +kernel) rfl
  exact ⟨_, _, _, names, split, train, val, rfl, by rfl, h1, h3, by rw [h2]; rfl⟩

/-- A text with three columns. -/
def text4 : Csv ℚ := [[name "a", name "b", name "c"], [cell 1, cell 12, cell 7], [cell 3, cell 14, cell 8]]

/-- C85, the exception: the columns chosen for the first text stay for the next one: after a text of two columns, the target of a text of three
columns is not the last column, and the last one is not used at all. -/
theorem _root_.SR.C85_stale_columns : (DataTab.run [.setText text1, .parse, .setText text4, .parse] ⟨[], auto, none⟩).opts =
    ⟨true, some [0], some 1, none⟩ ∧ (DataTab.run [.setText text4, .parse] ⟨[], auto, none⟩).opts = ⟨true, some [0, 1], some 2, none⟩ :=
  ⟨rfl, rfl⟩

/-- C85, the exception: an empty cell is shown as zero in the preview, but a session does not accept it. -/
theorem _root_.SR.C85_blank (q : ℚ) : (pageParse false [[cell q, blank]]).map Parsed.rows = some [[.fin q, .fin 0]] ∧
    sessionRead false [[cell q, blank]] = none := ⟨rfl, rfl⟩

end PageDemo
end SR
