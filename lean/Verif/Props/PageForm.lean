import Verif.Spec.PageForm
import Verif.Props.PageData
import Verif.Props.PageOptions
import Verif.Props.Lookup
/-
C88: the forms of the web page in which columns and operators are chosen.
-/
namespace SR
section
variable {K : Type} [Zero K] [One K] {S : OpTable} {n : Nat}

theorem pageParse_headers {h : Bool} {raw : Csv K} {p : Parsed K} (hp : pageParse h raw = some p) :
    p.headers.length = ((p.rows.head?).getD []).length := by
  unfold pageParse at hp
  simp only at hp
  split at hp
  · cases hp
  · next r hr =>
    cases hp
    rw [pageHeaders_length, hr]
    rfl

/-- What holds of the forms as long as all texts have `n` columns. -/
structure Form.Inv (n : Nat) (f : Form K) : Prop where
  text : HasColumns n f.data.text
  parsed : ∀ p, f.data.parsed = some p → p.headers.length = n
  columns : GoodColumns n f.data.opts
  untouched : f.data.opts.xColumns = none → f.data.opts.yColumn = none ∧ f.data.opts.weightsColumn = none

theorem Form.Inv.nCols {f : Form K} (h : f.Inv n) (hp : f.data.parsed ≠ none) : f.nCols = n := by
  unfold Form.nCols
  cases hq : f.data.parsed with
  | none => exact absurd hq hp
  | some p => exact h.parsed p hq

theorem nCols_pos {f : Form K} {c : Nat} (h : c < f.nCols) : f.data.parsed ≠ none := by
  intro hp
  unfold Form.nCols at h
  rw [hp] at h
  exact absurd h (Nat.not_lt_zero _)

theorem keepFeatures_sub (x : Option (List Nat)) (y : Nat) (w : Option Nat) :
    ∀ i ∈ keepFeatures x y w, i ∈ x.getD [] ∧ i ≠ y ∧ some i ≠ w := by
  intro i hi
  simpa [keepFeatures] using hi

theorem getD_pairwise {c : WebColumns} (h : GoodColumns n c) : (c.xColumns.getD []).Pairwise (· < ·) := by
  cases hx : c.xColumns with
  | none => exact .nil
  | some x => exact h.ascending x hx

theorem getD_lt {c : WebColumns} (h : GoodColumns n c) :
    ∀ i ∈ c.xColumns.getD [], i < n ∧ i ≠ c.yColumn.getD (n - 1) ∧ some i ≠ c.weightsColumn := by
  cases hx : c.xColumns with
  | none => intro i hi; cases hi
  | some x => exact h.features x hx

theorem Form.Inv.on (hn : 1 ≤ n) {f f' : Form K} (h : f.Inv n) {e : FEvent K} (he : e.KeepsWidth n) (hf : f.on S e = some f') :
    f'.Inv n := by
  have g := h.columns
  have parseCase : ∀ p, pageParse f.data.opts.hasHeaders f.data.text = some p → p.headers.length = n := fun p hp => by
    rw [pageParse_headers hp]; exact h.text _ p hp
  cases e with
  | setText t => cases hf; exact ⟨he, h.parsed, g, h.untouched⟩
  | setHeaders b => cases hf; exact ⟨h.text, h.parsed, ⟨g.target, g.weights, g.ascending, g.features⟩, h.untouched⟩
  | parse =>
    cases hf
    cases hp : pageParse f.data.opts.hasHeaders f.data.text with
    | none => simpa only [DataTab.on, DataTab.parseCsv, hp] using h
    | some p =>
      have hw : ((p.rows.head?).getD []).length = n := h.text _ p hp
      have e : f.data.on .parse = { f.data with parsed := some p, opts := fillColumns n f.data.opts } := by
        simp only [DataTab.on, DataTab.parseCsv, hp, hw]
      refine ⟨by rw [e]; exact h.text, ?_, ?_, ?_⟩
      · rw [e]; rintro q ⟨⟩; exact parseCase p hp
      · rw [e]
        refine ⟨g.target, g.weights, ?_, ?_⟩
        · intro x hx
          cases hx
          cases hc : f.data.opts.xColumns with
          | some x => exact g.ascending x hc
          | none => exact (List.pairwise_lt_range (n := n)).filter _
        · intro x hx i hi
          cases hx
          cases hc : f.data.opts.xColumns with
          | some x => rw [hc] at hi; exact g.features x hc i hi
          | none =>
            rw [hc] at hi
            show i < n ∧ i ≠ f.data.opts.yColumn.getD (n - 1) ∧ some i ≠ f.data.opts.weightsColumn
            simpa using hi
      · rw [e]; intro hx; cases hx
  | ensure =>
    cases hf
    cases hq : f.data.parsed with
    | some q => simpa only [DataTab.on, DataTab.ensureParsed, hq] using h
    | none =>
      cases hp : pageParse f.data.opts.hasHeaders f.data.text with
      | none => simpa only [DataTab.on, DataTab.ensureParsed, hq, hp] using h
      | some p =>
        have e : f.data.on .ensure = { f.data with parsed := some p } := by
          simp only [DataTab.on, DataTab.ensureParsed, hq, hp]
        refine ⟨by rw [e]; exact h.text, ?_, by rw [e]; exact g, by rw [e]; exact h.untouched⟩
        rw [e]; rintro q ⟨⟩; exact parseCase p hp
  | target c =>
    simp only [Form.on] at hf
    split at hf
    · next hc =>
      cases hf
      have hN := h.nCols (nCols_pos hc)
      have hy : clampCol c n < n := by unfold clampCol; omega
      refine ⟨h.text, h.parsed, ?_, fun hx => by cases hx⟩
      simp only [Form.setTarget, hN]
      refine ⟨hy, ?_, ?_, ?_⟩
      · intro w hw
        simp only at hw
        split at hw
        · cases hw
        · next hne => exact ⟨(g.weights w hw).1, fun h' => hne (by rw [hw]; exact congrArg some h')⟩
      · intro x hx
        cases hx
        exact (getD_pairwise g).filter _
      · intro x hx i hi
        cases hx
        obtain ⟨a, b, c⟩ := keepFeatures_sub _ _ _ i hi
        exact ⟨(getD_lt g i a).1, b, c⟩
    · cases hf
  | weights c =>
    have main : ∀ w, f.data.parsed ≠ none → (∀ c, w = some c → c < n ∧ c ≠ f.target) → (f.setWeights w).Inv n := by
      intro w hp hw
      have hN := h.nCols hp
      have ht : f.target = f.data.opts.yColumn.getD (n - 1) := by unfold Form.target; rw [hN]
      have hcl : (w.map fun c => clampCol c n) = w := by
        cases w with
        | none => rfl
        | some c =>
          have := (hw c rfl).1
          simp only [Option.map_some, Option.some.injEq]
          unfold clampCol; omega
      refine ⟨h.text, h.parsed, ?_, fun hx => by cases hx⟩
      simp only [Form.setWeights, hN, hcl]
      refine ⟨g.target, fun c hc => by rw [← ht]; exact hw c hc, ?_, ?_⟩
      · intro x hx
        cases hx
        exact (getD_pairwise g).filter _
      · intro x hx i hi
        cases hx
        obtain ⟨a, b, c⟩ := keepFeatures_sub _ _ _ i hi
        exact ⟨(getD_lt g i a).1, by rw [← ht]; exact b, c⟩
    cases c with
    | none =>
      simp only [Form.on] at hf
      split at hf
      · next hp => cases hf; exact main none (by intro h'; rw [h'] at hp; cases hp) (fun c hc => by cases hc)
      · cases hf
    | some c =>
      simp only [Form.on] at hf
      split at hf
      · next hc =>
        cases hf
        have hp := nCols_pos hc.1
        exact main (some c) hp (fun c' hc' => by cases hc'; rw [← h.nCols hp]; exact hc)
      · cases hf
  | feature c =>
    simp only [Form.on] at hf
    split at hf
    · next hc =>
      cases hf
      have hp := nCols_pos hc.1
      have hN := h.nCols hp
      obtain ⟨c1, c2⟩ := hc
      rw [hN] at c1
      have ht : f.target = f.data.opts.yColumn.getD (n - 1) := by unfold Form.target; rw [hN]
      unfold Form.disabled at c2
      rw [ht, Bool.or_eq_false_iff, beq_eq_false_iff_ne, beq_eq_false_iff_ne] at c2
      have hmem : ∀ i, i ∈ toggleInList (f.data.opts.xColumns.getD []) c → i ∈ f.data.opts.xColumns.getD [] ∨ i = c := by
        intro i hi
        unfold toggleInList at hi
        split at hi
        · exact .inl (List.mem_filter.mp hi).1
        · simpa using hi
      have hnd : (toggleInList (f.data.opts.xColumns.getD []) c).Nodup := by
        have h1 : (f.data.opts.xColumns.getD []).Nodup := (getD_pairwise g).imp (fun h => Nat.ne_of_lt h)
        unfold toggleInList
        split
        · exact h1.filter _
        · next hx =>
          rw [List.nodup_append]
          refine ⟨h1, List.nodup_singleton _, ?_⟩
          intro a ha b hb hab
          rw [List.mem_singleton] at hb
          exact hx (by rw [← hb, ← hab]; exact ha)
      refine ⟨h.text, h.parsed, ?_, fun hx => by cases hx⟩
      refine ⟨g.target, g.weights, ?_, ?_⟩
      · intro x hx
        cases hx
        have hs := List.pairwise_mergeSort (le := fun a b : Nat => decide (a ≤ b)) (by simp; omega) (by simp; omega)
          (toggleInList (f.data.opts.xColumns.getD []) c)
        have hnd' := (List.mergeSort_perm (toggleInList (f.data.opts.xColumns.getD []) c) fun a b => decide (a ≤ b)).nodup_iff.mpr hnd
        refine (hs.and hnd').imp fun {a b} hab => ?_
        have h1 := of_decide_eq_true hab.1
        have h2 := hab.2
        omega
      · intro x hx i hi
        cases hx
        rcases hmem i (List.mem_mergeSort.mp hi) with h1 | rfl
        · exact getD_lt g i h1
        · exact ⟨c1, c2.1, c2.2⟩
    · cases hf
  | unary name =>
    simp only [Form.on] at hf
    split at hf
    · cases hf; exact ⟨h.text, h.parsed, g, h.untouched⟩
    · cases hf
  | binary name =>
    simp only [Form.on] at hf
    split at hf
    · cases hf; exact ⟨h.text, h.parsed, g, h.untouched⟩
    · cases hf

theorem Form.Inv.run (hn : 1 ≤ n) {f f' : Form K} (h : f.Inv n) {es : List (FEvent K)} (he : ∀ e ∈ es, e.KeepsWidth n)
    (hf : f.run S es = some f') : f'.Inv n := by
  induction es generalizing f with
  | nil => cases hf; exact h
  | cons e es ih =>
    unfold Form.run at hf
    obtain ⟨f1, h1, h2⟩ := Option.bind_eq_some_iff.mp hf
    exact ih (h.on hn (he e (by simp)) h1) (fun e h => he e (by simp [h])) h2

theorem Form.Inv.loaded (hn : 1 ≤ n) {text : Csv K} (ht : HasColumns n text) (hasHeaders : Bool) : (Form.loaded text hasHeaders).Inv n where
  text := ht
  parsed := fun p h => by cases h
  columns := ⟨by show n - 1 < n; omega, (fun w h => by cases h), (fun x h => by cases h), (fun x h => by cases h)⟩
  untouched := fun _ => ⟨rfl, rfl⟩

/-- C88: whatever is done on the forms, the columns chosen are a good choice for the table, as long as all texts that are entered have the same
number of columns: the target is a column of it, the weights are another, and the features are other ones again, in ascending
order and each once. -/
theorem C88_columns (hn : 1 ≤ n) {text : Csv K} (ht : HasColumns n text) (hasHeaders : Bool) {es : List (FEvent K)}
    (he : ∀ e ∈ es, e.KeepsWidth n) {f : Form K} (hf : (Form.loaded text hasHeaders).run S es = some f) :
    GoodColumns n f.data.opts := ((Form.Inv.loaded hn ht hasHeaders).run hn he hf).columns

/-- C88: and the session accepts them for every table of this width, exactly if at least one feature is chosen (or nothing was chosen). -/
theorem C88_accepted (hn : 2 ≤ n) {text : Csv K} (ht : HasColumns n text) (hasHeaders : Bool) {es : List (FEvent K)}
    (he : ∀ e ∈ es, e.KeepsWidth n) {f : Form K} (hf : (Form.loaded text hasHeaders).run S es = some f) {rows : List (List (Fl K))}
    (hr : rows ≠ []) (hw : ∀ row ∈ rows, row.length = n) :
    (∃ nCols yCol, ValidRequest rows f.data.opts nCols yCol) ↔ f.data.opts.xColumns ≠ some [] := by
  have hi := (Form.Inv.loaded (by omega) ht hasHeaders).run (by omega) he hf
  have g := hi.columns
  constructor
  · rintro ⟨nCols, yCol, hv⟩ hx
    exact (hv.features [] hx).1 rfl
  · intro hx
    refine ⟨n, _, ⟨hr, hw, hn, rfl, g.target, g.weights, ?_, ?_⟩⟩
    · intro v hv
      exact ⟨fun h => hx (by rw [hv, h]), g.features v hv⟩
    · intro hnone
      obtain ⟨h1, h2⟩ := hi.untouched hnone
      refine ⟨0, by omega, ?_, by rw [h2]; simp⟩
      rw [h1]
      show 0 ≠ n - 1
      omega

/-! ## What is ticked -/

/-- Columns that were chosen stay chosen (perhaps as the empty choice). -/
theorem Form.on_filled {f f' : Form K} {e : FEvent K} (hf : f.on S e = some f') (h : f.data.opts.xColumns ≠ none) :
    f'.data.opts.xColumns ≠ none := by
  cases e with
  | setText t => cases hf; exact h
  | setHeaders b => cases hf; exact h
  | parse =>
    cases hf
    show (f.data.parseCsv).opts.xColumns ≠ none
    unfold DataTab.parseCsv
    split
    · exact h
    · simp [fillColumns]
  | ensure =>
    cases hf
    show (f.data.ensureParsed).opts.xColumns ≠ none
    unfold DataTab.ensureParsed
    split
    · exact h
    · split
      · exact h
      · exact h
  | target c =>
    simp only [Form.on] at hf
    split at hf
    · cases hf; simp [Form.setTarget]
    · cases hf
  | weights c =>
    cases c with
    | none =>
      simp only [Form.on] at hf
      split at hf
      · cases hf; simp [Form.setWeights]
      · cases hf
    | some c =>
      simp only [Form.on] at hf
      split at hf
      · cases hf; simp [Form.setWeights]
      · cases hf
  | feature c =>
    simp only [Form.on] at hf
    split at hf
    · cases hf; simp [Form.toggleFeature]
    · cases hf
  | unary name =>
    simp only [Form.on] at hf
    split at hf
    · cases hf; exact h
    · cases hf
  | binary name =>
    simp only [Form.on] at hf
    split at hf
    · cases hf; exact h
    · cases hf

theorem Form.run_filled {f f' : Form K} {es : List (FEvent K)} (hf : f.run S es = some f') (h : f.data.opts.xColumns ≠ none) :
    f'.data.opts.xColumns ≠ none := by
  induction es generalizing f with
  | nil => cases hf; exact h
  | cons e es ih =>
    unfold Form.run at hf
    obtain ⟨f1, h1, h2⟩ := Option.bind_eq_some_iff.mp hf
    exact ih h2 (f.on_filled h1 h)

theorem Form.run_append {f : Form K} (es es' : List (FEvent K)) : f.run S (es ++ es') = (f.run S es).bind (Form.run S es') := by
  induction es generalizing f with
  | nil => rfl
  | cons e es ih =>
    rw [List.cons_append]
    show (f.on S e).bind (Form.run S (es ++ es')) = ((f.on S e).bind (Form.run S es)).bind (Form.run S es')
    rw [Option.bind_assoc]
    congr 1
    funext g
    exact ih

/-- The parsed table never goes away. -/
theorem Form.on_parsed {f f' : Form K} {e : FEvent K} (hf : f.on S e = some f') (h : f.data.parsed ≠ none) : f'.data.parsed ≠ none := by
  cases e with
  | setText t => cases hf; exact h
  | setHeaders b => cases hf; exact h
  | parse =>
    cases hf
    show (f.data.parseCsv).parsed ≠ none
    unfold DataTab.parseCsv
    split
    · exact h
    · simp
  | ensure =>
    cases hf
    show (f.data.ensureParsed).parsed ≠ none
    unfold DataTab.ensureParsed
    split
    · exact h
    · split
      · exact h
      · simp
  | target c =>
    simp only [Form.on] at hf
    split at hf
    · cases hf; exact h
    · cases hf
  | weights c =>
    cases c with
    | none =>
      simp only [Form.on] at hf
      split at hf
      · cases hf; exact h
      · cases hf
    | some c =>
      simp only [Form.on] at hf
      split at hf
      · cases hf; exact h
      · cases hf
  | feature c =>
    simp only [Form.on] at hf
    split at hf
    · cases hf; exact h
    · cases hf
  | unary name =>
    simp only [Form.on] at hf
    split at hf
    · cases hf; exact h
    · cases hf
  | binary name =>
    simp only [Form.on] at hf
    split at hf
    · cases hf; exact h
    · cases hf

theorem Form.run_parsed {f f' : Form K} {es : List (FEvent K)} (hf : f.run S es = some f') (h : f.data.parsed ≠ none) :
    f'.data.parsed ≠ none := by
  induction es generalizing f with
  | nil => cases hf; exact h
  | cons e es ih =>
    unfold Form.run at hf
    obtain ⟨f1, h1, h2⟩ := Option.bind_eq_some_iff.mp hf
    exact ih h2 (f.on_parsed h1 h)

/-- C88: once the table was shown (`Parse`, which succeeded), whatever was done before and is done after, the boxes that are ticked are exactly
the columns that the session searches with. -/
theorem C88_ticked (hn : 1 ≤ n) {text : Csv K} (ht : HasColumns n text) (hasHeaders : Bool) {es es' : List (FEvent K)}
    (he : ∀ e ∈ es ++ .parse :: es', e.KeepsWidth n) {g f : Form K} (hg : (Form.loaded text hasHeaders).run S es = some g)
    (hp : (pageParse g.data.opts.hasHeaders g.data.text).isSome) (hf : (Form.loaded text hasHeaders).run S (es ++ .parse :: es') = some f)
    (c : Nat) : f.ticked c = true ↔ WantsColumn f.data.opts n (f.data.opts.yColumn.getD (n - 1)) c := by
  have hi := (Form.Inv.loaded hn ht hasHeaders).run hn he hf
  have gd := hi.columns
  rw [Form.run_append, hg] at hf
  have hf' : Form.run S (.parse :: es') g = some f := hf
  unfold Form.run at hf'
  obtain ⟨g1, h1, h2⟩ := Option.bind_eq_some_iff.mp hf'
  obtain ⟨p, hp⟩ := Option.isSome_iff_exists.mp hp
  have e1 : g1.data.parsed ≠ none ∧ g1.data.opts.xColumns ≠ none := by
    cases h1
    show (g.data.parseCsv).parsed ≠ none ∧ (g.data.parseCsv).opts.xColumns ≠ none
    unfold DataTab.parseCsv
    rw [hp]
    simp [fillColumns]
  have hx := Form.run_filled h2 e1.2
  have hN := hi.nCols (Form.run_parsed h2 e1.1)
  obtain ⟨x, hx⟩ := Option.ne_none_iff_exists'.mp hx
  have hfe := gd.features x hx
  unfold Form.ticked Form.disabled Form.target WantsColumn
  rw [hN, hx]
  simp only [Option.getD_some, Bool.and_eq_true, decide_eq_true_eq, Bool.not_eq_true', Bool.or_eq_false_iff, beq_eq_false_iff_ne,
    List.contains_iff_mem]
  exact ⟨fun h => h.1.2, fun h => ⟨⟨(hfe c h).1, h⟩, (hfe c h).2⟩⟩

/-- C88, the exception: where the table was parsed by the Run tab only, no box is ticked, and yet the session searches with all columns but the
last. -/
theorem C88_unticked {text : Csv K} (ht : HasColumns n text) (hasHeaders : Bool) (hp : (pageParse hasHeaders text).isSome) :
    ∃ f, (Form.loaded text hasHeaders).run S [.ensure] = some f ∧ f.nCols = n ∧ (∀ c, f.ticked c = false) ∧
      ∀ c, WantsColumn f.data.opts n (f.data.opts.yColumn.getD (n - 1)) c ↔ c < n ∧ c ≠ n - 1 := by
  obtain ⟨p, hp⟩ := Option.isSome_iff_exists.mp hp
  have e : (Form.loaded text hasHeaders).data.ensureParsed = ⟨text, ⟨hasHeaders, none, none, none⟩, some p⟩ := by
    unfold DataTab.ensureParsed
    show (match pageParse hasHeaders text with | none => _ | some p => _) = _
    rw [hp]
    rfl
  refine ⟨{ (Form.loaded text hasHeaders) with data := ⟨text, ⟨hasHeaders, none, none, none⟩, some p⟩ }, ?_, ?_, ?_, ?_⟩
  · unfold Form.run
    simp only [Form.on, DataTab.on, e]
    rfl
  · show p.headers.length = n
    rw [pageParse_headers hp]
    exact ht _ p hp
  · intro c
    unfold Form.ticked
    simp
  · intro c
    unfold WantsColumn
    simp

/-! ## A narrower table -/

/-- A feature that is not a column of the table. -/
structure Form.Stray (n c : Nat) (f : Form K) : Prop where
  text : HasColumns n f.data.text
  parsed : f.nCols = n
  target : ∃ y, f.data.opts.yColumn = some y ∧ y ≠ c
  weights : f.data.opts.weightsColumn ≠ some c
  stray : ∃ x, f.data.opts.xColumns = some x ∧ c ∈ x

theorem Form.Stray.on {c : Nat} (hc : n ≤ c) (hn : 1 ≤ n) {f f' : Form K} (h : f.Stray n c) {e : FEvent K} (he : e.KeepsWidth n)
    (hf : f.on S e = some f') : f'.Stray n c := by
  have h0 := h
  obtain ⟨h1, h2, ⟨y, hy, hyc⟩, hw, x, hx, hcx⟩ := h
  have keep : ∀ y w, y ≠ c → w ≠ some c → c ∈ keepFeatures f.data.opts.xColumns y w := by
    intro y w hy hw
    unfold keepFeatures
    rw [hx, Option.getD_some, List.mem_filter]
    exact ⟨hcx, decide_eq_true ⟨hy.symm, hw.symm⟩⟩
  have hcl : ∀ i, clampCol i f.nCols ≠ c := by
    intro i
    rw [h2]
    unfold clampCol
    omega
  have weightsCase : ∀ w, (f.setWeights w).Stray n c := by
    intro w
    have h4 : (w.map fun i => clampCol i f.nCols) ≠ some c := by
      cases w with
      | none => simp
      | some i => simpa using hcl i
    refine ⟨h1, h2, ⟨y, hy, hyc⟩, h4, _, rfl, keep _ _ ?_ h4⟩
    unfold Form.target
    rw [hy]
    exact hyc
  cases e with
  | setText t => cases hf; exact ⟨he, h2, ⟨y, hy, hyc⟩, hw, x, hx, hcx⟩
  | setHeaders b => cases hf; exact ⟨h1, h2, ⟨y, hy, hyc⟩, hw, x, hx, hcx⟩
  | parse =>
    cases hf
    cases hp : pageParse f.data.opts.hasHeaders f.data.text with
    | none =>
      have e : f.data.on .parse = f.data := by simp only [DataTab.on, DataTab.parseCsv, hp]
      rw [e]; exact h0
    | some p =>
      have hwd : ((p.rows.head?).getD []).length = n := h1 _ p hp
      have e : f.data.on .parse = { f.data with parsed := some p, opts := fillColumns n f.data.opts } := by
        simp only [DataTab.on, DataTab.parseCsv, hp, hwd]
      rw [e]
      refine ⟨h1, ?_, ⟨y, ?_, hyc⟩, hw, x, ?_, hcx⟩
      · show p.headers.length = n
        rw [pageParse_headers hp, hwd]
      · show some (f.data.opts.yColumn.getD _) = _
        rw [hy]; rfl
      · show some (f.data.opts.xColumns.getD _) = _
        rw [hx]; rfl
  | ensure =>
    cases hf
    have : f.data.parsed ≠ none := nCols_pos (c := 0) (by omega)
    obtain ⟨q, hq⟩ := Option.ne_none_iff_exists'.mp this
    have e : f.data.on .ensure = f.data := by simp only [DataTab.on, DataTab.ensureParsed, hq]
    rw [e]; exact h0
  | target i =>
    simp only [Form.on] at hf
    split at hf
    · cases hf
      have h4 : (if f.data.opts.weightsColumn = some (clampCol i f.nCols) then none else f.data.opts.weightsColumn) ≠ some c := by
        split
        · simp
        · exact hw
      exact ⟨h1, h2, ⟨_, rfl, hcl i⟩, h4, _, rfl, keep _ _ (hcl i) h4⟩
    · cases hf
  | weights i =>
    cases i with
    | none =>
      simp only [Form.on] at hf
      split at hf
      · cases hf; exact weightsCase none
      · cases hf
    | some i =>
      simp only [Form.on] at hf
      split at hf
      · cases hf; exact weightsCase (some i)
      · cases hf
  | feature i =>
    simp only [Form.on] at hf
    split at hf
    · next hi =>
      cases hf
      refine ⟨h1, h2, ⟨y, hy, hyc⟩, hw, _, rfl, ?_⟩
      rw [List.mem_mergeSort]
      have hne : c ≠ i := by omega
      rw [hx]
      unfold toggleInList
      split
      · exact List.mem_filter.mpr ⟨hcx, decide_eq_true hne⟩
      · exact List.mem_append_left _ hcx
    · cases hf
  | unary name =>
    simp only [Form.on] at hf
    split at hf
    · cases hf; exact ⟨h1, h2, ⟨y, hy, hyc⟩, hw, x, hx, hcx⟩
    · cases hf
  | binary name =>
    simp only [Form.on] at hf
    split at hf
    · cases hf; exact ⟨h1, h2, ⟨y, hy, hyc⟩, hw, x, hx, hcx⟩
    · cases hf

theorem Form.Stray.run {c : Nat} (hc : n ≤ c) (hn : 1 ≤ n) {f f' : Form K} (h : f.Stray n c) {es : List (FEvent K)}
    (he : ∀ e ∈ es, e.KeepsWidth n) (hf : f.run S es = some f') : f'.Stray n c := by
  induction es generalizing f with
  | nil => cases hf; exact h
  | cons e es ih =>
    unfold Form.run at hf
    obtain ⟨f1, h1, h2⟩ := Option.bind_eq_some_iff.mp hf
    exact ih (h.on hc hn (he e (by simp)) h1) (fun e h => he e (by simp [h])) h2

/-- C88, the exception: after a table with `m` columns was shown and then one with `n` columns, at least two fewer, nothing that can be done on
the forms gives a choice that the session accepts for a table with `n` columns: a feature that the table does not have stays chosen, and
there is no box to untick it. -/
theorem C88_trapped {m : Nat} (hn : 1 ≤ n) (hm : n + 2 ≤ m) {wide narrow : Csv K} (hw : HasColumns m wide) (hnr : HasColumns n narrow)
    (hasHeaders : Bool) (p1 : (pageParse hasHeaders wide).isSome) (p2 : (pageParse hasHeaders narrow).isSome) {es : List (FEvent K)}
    (he : ∀ e ∈ es, e.KeepsWidth n) {f : Form K}
    (hf : (Form.loaded wide hasHeaders).run S ([.parse, .setText narrow, .parse] ++ es) = some f) :
    (∃ x, f.data.opts.xColumns = some x ∧ m - 2 ∈ x ∧ f.ticked (m - 2) = false) ∧
    ∀ (rows : List (List (Fl K))), rows ≠ [] → (∀ row ∈ rows, row.length = n) →
      ∀ nCols yCol, ¬ ValidRequest rows f.data.opts nCols yCol := by
  obtain ⟨q1, p1⟩ := Option.isSome_iff_exists.mp p1
  obtain ⟨q2, p2⟩ := Option.isSome_iff_exists.mp p2
  rw [Form.run_append] at hf
  obtain ⟨g, h1, h2⟩ := Option.bind_eq_some_iff.mp hf
  have w1 := hw _ q1 p1
  have w2 := hnr _ q2 p2
  have eg : g = { (Form.loaded wide hasHeaders) with data :=
      ⟨narrow, fillColumns n (fillColumns m ⟨hasHeaders, none, none, none⟩), some q2⟩ } := by
    have a1 : (Form.loaded wide hasHeaders).data.parseCsv = ⟨wide, fillColumns m ⟨hasHeaders, none, none, none⟩, some q1⟩ := by
      unfold DataTab.parseCsv
      show (match pageParse hasHeaders wide with | none => _ | some p => _) = _
      rw [p1]
      simp only [w1]
      rfl
    have a2 : (DataTab.mk narrow (fillColumns m ⟨hasHeaders, none, none, none⟩) (some q1)).parseCsv =
        ⟨narrow, fillColumns n (fillColumns m ⟨hasHeaders, none, none, none⟩), some q2⟩ := by
      unfold DataTab.parseCsv
      show (match pageParse hasHeaders narrow with | none => _ | some p => _) = _
      rw [p2]
      simp only [w2]
    simp only [Form.run, Form.on, DataTab.on, Option.bind_some, a1, a2, Option.some.injEq] at h1
    exact h1.symm
  have hs : g.Stray n (m - 2) := by
    rw [eg]
    refine ⟨hnr, ?_, ⟨m - 1, rfl, by omega⟩, by simp [fillColumns], _, rfl, ?_⟩
    · show q2.headers.length = n
      rw [pageParse_headers p2, w2]
    · show m - 2 ∈ (List.range m).filter _
      simp
      omega
  obtain ⟨-, h4, -, -, x, hx, hcx⟩ := hs.run (by omega) hn he h2
  refine ⟨⟨x, hx, hcx, ?_⟩, ?_⟩
  · unfold Form.ticked
    rw [h4, decide_eq_false (by omega)]
    rfl
  · intro rows hr hrw nCols yCol hv
    obtain ⟨row, hrow⟩ := List.exists_mem_of_ne_nil rows hr
    have e1 := hv.width row hrow
    have e2 := hrw row hrow
    have := (hv.features x hx).2 _ hcx
    omega

/-! ## Operators -/

theorem toggleInList_mem {α : Type} [DecidableEq α] (l : List α) (v x : α) :
    x ∈ toggleInList l v ↔ (x ≠ v ∧ x ∈ l) ∨ (x = v ∧ v ∉ l) := by
  unfold toggleInList
  split
  · next h => simp only [List.mem_filter, decide_eq_true_eq]; tauto
  · next h =>
    simp only [List.mem_append, List.mem_singleton]
    by_cases hx : x = v
    · subst hx; tauto
    · tauto

theorem toggleInList_nodup {α : Type} [DecidableEq α] {l : List α} (h : l.Nodup) (v : α) : (toggleInList l v).Nodup := by
  unfold toggleInList
  split
  · exact h.filter _
  · next hx =>
    rw [List.nodup_append]
    refine ⟨h, List.nodup_singleton _, ?_⟩
    intro a ha b hb hab
    rw [List.mem_singleton] at hb
    exact hx (by rw [← hb, ← hab]; exact ha)

/-- What holds of the operators that are ticked. -/
structure Form.GoodOps (S : OpTable) (f : Form K) : Prop where
  once1 : f.unary.Nodup
  once2 : f.binary.Nodup
  listed1 : ∀ name ∈ f.unary, name ∈ S.listed 1
  listed2 : ∀ name ∈ f.binary, name ∈ S.listed 2
  none3 : f.ternary = []

theorem Form.GoodOps.on {f f' : Form K} (h : f.GoodOps S) {e : FEvent K} (hf : f.on S e = some f') : f'.GoodOps S := by
  have same : ∀ g : Form K, g.unary = f.unary → g.binary = f.binary → g.ternary = f.ternary → g.GoodOps S := by
    intro g e1 e2 e3
    exact ⟨e1 ▸ h.once1, e2 ▸ h.once2, e1 ▸ h.listed1, e2 ▸ h.listed2, e3 ▸ h.none3⟩
  cases e with
  | unary name =>
    simp only [Form.on] at hf
    split at hf
    · next hl =>
      cases hf
      refine ⟨toggleInList_nodup h.once1 name, h.once2, ?_, h.listed2, h.none3⟩
      intro x hx
      rcases (toggleInList_mem _ _ _).mp hx with ⟨-, hx⟩ | ⟨rfl, -⟩
      · exact h.listed1 x hx
      · exact hl
    · cases hf
  | binary name =>
    simp only [Form.on] at hf
    split at hf
    · next hl =>
      cases hf
      refine ⟨h.once1, toggleInList_nodup h.once2 name, h.listed1, ?_, h.none3⟩
      intro x hx
      rcases (toggleInList_mem _ _ _).mp hx with ⟨-, hx⟩ | ⟨rfl, -⟩
      · exact h.listed2 x hx
      · exact hl
    · cases hf
  | weights c =>
    cases c <;> simp only [Form.on] at hf <;> split at hf <;> first | cases hf; done | (cases hf; exact same _ rfl rfl rfl)
  | _ =>
    simp only [Form.on] at hf
    first
      | (cases hf; exact same _ rfl rfl rfl)
      | (split at hf <;> first | cases hf; done | (cases hf; exact same _ rfl rfl rfl))

theorem Form.GoodOps.run {f f' : Form K} (h : f.GoodOps S) {es : List (FEvent K)} (hf : f.run S es = some f') : f'.GoodOps S := by
  induction es generalizing f with
  | nil => cases hf; exact h
  | cons e es ih =>
    unfold Form.run at hf
    obtain ⟨f1, h1, h2⟩ := Option.bind_eq_some_iff.mp hf
    exact ih (h.on h1) h2

theorem Form.GoodOps.loaded (text : Csv K) (hasHeaders : Bool) : (Form.loaded text hasHeaders).GoodOps presetTable where
  once1 := by show ["cos".toList].Nodup; decide
  once2 := by show ["add".toList, "sub".toList, "mul".toList, "div".toList].Nodup; decide
  listed1 := by show ∀ name ∈ ["cos".toList], name ∈ presetTable.listed 1; decide +kernel
  listed2 := by
    show ∀ name ∈ ["add".toList, "sub".toList, "mul".toList, "div".toList], name ∈ presetTable.listed 2
    decide +kernel
  none3 := rfl

theorem trimWs_self {ws : Char → Bool} {s : List Char} (h : ∀ c ∈ s, ws c = false) : trimWs ws s = s := by
  have d : ∀ l : List Char, (∀ c ∈ l, ws c = false) → l.dropWhile ws = l := by
    intro l hl
    cases l with
    | nil => rfl
    | cons a l => rw [List.dropWhile_cons, if_neg (by rw [hl a (by simp)]; simp)]
  unfold trimWs
  rw [d s h, d s.reverse (fun c hc => h c (List.mem_reverse.mp hc)), List.reverse_reverse]

theorem lookup_plain {ws : Char → Bool} {s : List Char} (h : ∀ c ∈ s, ws c = false) (S : OpTable) (a : Nat) :
    S.lookupWithArity ws s a = S.lookupWithArity (fun _ => false) s a := by
  unfold OpTable.lookupWithArity OpTable.matchesToken lookupResult
  rw [trimWs_self h, trimWs_self (ws := fun _ => false) fun _ _ => rfl]

/-- The result of a lookup, if there is one. -/
def foundOp : Except LookupError OpId → Option OpId
  | .ok op => some op
  | .error _ => none

theorem foundOp_eq {r : Except LookupError OpId} {op : OpId} : foundOp r = some op ↔ r = .ok op := by
  cases r <;> simp [foundOp]

theorem preset_found : ∀ a ∈ [1, 2], ∀ i ∈ presetTable.opsWithArity a,
    foundOp (presetTable.lookupWithArity (fun _ => false) (presetTable.metas.name a i) a) = some ⟨a, i⟩ ∧
    ∀ c ∈ presetTable.metas.name a i, c.isAlphanum = true := by decide +kernel

/-- White space that is not a letter or a digit. -/
def PlainSpace (ws : Char → Bool) : Prop := ∀ c, ws c = true → c.isAlphanum = false

theorem listed_found {ws : Char → Bool} (hws : PlainSpace ws) {a : Nat} (ha : a ∈ [1, 2]) {name : List Char}
    (h : name ∈ presetTable.listed a) :
    ∃ op, presetTable.lookupWithArity ws name a = .ok op ∧ op.arity = a ∧ presetTable.metas.name a op.id = name := by
  unfold OpTable.listed at h
  obtain ⟨i, hi, rfl⟩ := List.mem_map.mp h
  obtain ⟨h1, h2⟩ := preset_found a ha i hi
  refine ⟨⟨a, i⟩, ?_, rfl, rfl⟩
  rw [lookup_plain (fun c hc => ?_), foundOp_eq.mp h1]
  cases hx : ws c with
  | false => rfl
  | true => have := hws c hx; rw [h2 c hc] at this; cases this

theorem id_found {ws : Char → Bool} (hws : PlainSpace ws) {a : Nat} (ha : a ∈ [1, 2]) {i : Nat} (hi : i ∈ presetTable.opsWithArity a) :
    presetTable.lookupWithArity ws (presetTable.metas.name a i) a = .ok ⟨a, i⟩ := by
  obtain ⟨h1, h2⟩ := preset_found a ha i hi
  rw [lookup_plain (fun c hc => ?_), foundOp_eq.mp h1]
  cases hx : ws c with
  | false => rfl
  | true => have := hws c hx; rw [h2 c hc] at this; cases this

theorem list_found {ws : Char → Bool} (hws : PlainSpace ws) {a : Nat} (ha : a ∈ [1, 2]) (names : List (List Char))
    (h : ∀ name ∈ names, name ∈ presetTable.listed a) : ∃ ops : List OpId,
      List.Forall₂ (fun (n : List Char × Nat) op => presetTable.lookupWithArity ws n.1 n.2 = .ok op) (names.map (·, a)) ops ∧
      (∀ op, op ∈ ops ↔ op.arity = a ∧ op.id ∈ presetTable.opsWithArity a ∧ presetTable.metas.name a op.id ∈ names) ∧
      ops.map (fun op => presetTable.metas.name a op.id) = names := by
  induction names with
  | nil => exact ⟨[], .nil, by simp, rfl⟩
  | cons name names ih =>
    obtain ⟨ops, h1, h2, h3⟩ := ih (fun x hx => h x (by simp [hx]))
    have hn := h name (by simp)
    unfold OpTable.listed at hn
    obtain ⟨i, hi, rfl⟩ := List.mem_map.mp hn
    refine ⟨⟨a, i⟩ :: ops, .cons (id_found hws ha hi) h1, ?_, by simp [h3]⟩
    intro op
    rw [List.mem_cons, h2, List.mem_cons]
    constructor
    · rintro (rfl | ⟨g1, g2, g3⟩)
      · exact ⟨rfl, hi, .inl rfl⟩
      · exact ⟨g1, g2, .inr g3⟩
    · rintro ⟨g1, g2, g3 | g3⟩
      · left
        have e1 := id_found hws ha g2
        rw [g3, id_found hws ha hi] at e1
        cases op
        cases g1
        exact (Except.ok.inj e1).symm
      · exact .inr ⟨g1, g2, g3⟩

theorem forall₂_fun {α β : Type} {g : α → β → Prop} (hg : ∀ a b c, g a b → g a c → b = c) {l : List α} {x y : List β}
    (h1 : List.Forall₂ g l x) (h2 : List.Forall₂ g l y) : x = y := by
  induction h1 generalizing y with
  | nil => cases h2; rfl
  | cons h _ ih => cases h2 with | cons h' t => rw [hg _ _ _ h h', ih t]

/-- C88: whatever is done on the forms, of the operators that the page lists none is chosen twice, and the session accepts the choice exactly if
one is chosen; its operators are then exactly those ticked. -/
theorem C88_operators {ws : Char → Bool} (hws : PlainSpace ws) (text : Csv K) (hasHeaders : Bool) {es : List (FEvent K)} {f : Form K}
    (hf : (Form.loaded text hasHeaders).run presetTable es = some f) {q : WebRequest K} (h1 : q.unary = f.unary)
    (h2 : q.binary = f.binary) (h3 : q.ternary = f.ternary) :
    ((∃ ops, q.Operators presetTable ws ops) ↔ f.unary ≠ [] ∨ f.binary ≠ []) ∧
    ∀ ops, q.Operators presetTable ws ops → ∀ op : OpId, op ∈ ops ↔
      (op.arity = 1 ∧ op.id ∈ presetTable.opsWithArity 1 ∧ presetTable.metas.name 1 op.id ∈ f.unary) ∨
      (op.arity = 2 ∧ op.id ∈ presetTable.opsWithArity 2 ∧ presetTable.metas.name 2 op.id ∈ f.binary) := by
  have hg := (Form.GoodOps.loaded text hasHeaders).run hf
  obtain ⟨ops1, a1, a2, a3⟩ := list_found hws (a := 1) (by simp) f.unary hg.listed1
  obtain ⟨ops2, b1, b2, b3⟩ := list_found hws (a := 2) (by simp) f.binary hg.listed2
  have hall : List.Forall₂ (fun (n : List Char × Nat) op => presetTable.lookupWithArity ws n.1 n.2 = .ok op)
      (q.unary.map (·, 1) ++ q.binary.map (·, 2) ++ q.ternary.map (·, 3)) (ops1 ++ ops2) := by
    rw [h1, h2, h3, hg.none3, List.map_nil, List.append_nil]
    exact List.rel_append a1 b1
  have n1 : ops1.Nodup := List.Nodup.of_map _ (a3 ▸ hg.once1)
  have n2 : ops2.Nodup := List.Nodup.of_map _ (b3 ▸ hg.once2)
  have uniq : ∀ ops, q.Operators presetTable ws ops → ops = ops1 ++ ops2 := fun ops h =>
    forall₂_fun (fun a b c h h' => by rw [h] at h'; exact Except.ok.inj h') h.2.1 hall
  refine ⟨⟨?_, ?_⟩, ?_⟩
  · rintro ⟨ops, h, -⟩
    by_contra hx
    rw [not_or, not_not, not_not] at hx
    exact h ⟨by rw [h1, hx.1], by rw [h2, hx.2], by rw [h3, hg.none3]⟩
  · intro hx
    refine ⟨ops1 ++ ops2, ?_, hall, ?_, ?_⟩
    · rw [h1, h2]
      rintro ⟨e1, e2, -⟩
      exact hx.elim (fun h => h e1) (fun h => h e2)
    · intro op hop
      rcases List.mem_append.mp hop with h | h
      · have := ((a2 op).mp h).1; omega
      · have := ((b2 op).mp h).1; omega
    · rw [List.nodup_append]
      refine ⟨n1, n2, ?_⟩
      rintro x hx y hy rfl
      have := ((a2 x).mp hx).1
      have := ((b2 x).mp hy).1
      omega
  · intro ops h op
    rw [uniq ops h, List.mem_append, a2, b2]

/-- C88: a click on an operator changes that one and no other; a second click undoes it. -/
theorem C88_toggle {f f' : Form K} {name : List Char} :
    (f.on S (.unary name) = some f' → (∀ x, x ∈ f'.unary ↔ (x ≠ name ∧ x ∈ f.unary) ∨ (x = name ∧ name ∉ f.unary)) ∧
      f'.binary = f.binary ∧ f'.data = f.data) ∧
    (f.on S (.binary name) = some f' → (∀ x, x ∈ f'.binary ↔ (x ≠ name ∧ x ∈ f.binary) ∨ (x = name ∧ name ∉ f.binary)) ∧
      f'.unary = f.unary ∧ f'.data = f.data) ∧
    ∀ c, f.on S (.feature c) = some f' →
      (∀ x, x ∈ f'.data.opts.xColumns.getD [] ↔
        (x ≠ c ∧ x ∈ f.data.opts.xColumns.getD []) ∨ (x = c ∧ c ∉ f.data.opts.xColumns.getD [])) ∧
      f'.unary = f.unary ∧ f'.binary = f.binary ∧ f'.target = f.target ∧ f'.data.opts.weightsColumn = f.data.opts.weightsColumn := by
  refine ⟨fun h => ?_, fun h => ?_, fun c h => ?_⟩
  · simp only [Form.on] at h
    split at h
    · cases h; exact ⟨toggleInList_mem _ _, rfl, rfl⟩
    · cases h
  · simp only [Form.on] at h
    split at h
    · cases h; exact ⟨toggleInList_mem _ _, rfl, rfl⟩
    · cases h
  · simp only [Form.on] at h
    split at h
    · cases h
      refine ⟨fun x => ?_, rfl, rfl, rfl, rfl⟩
      show x ∈ List.mergeSort _ _ ↔ _
      rw [List.mem_mergeSort]
      exact toggleInList_mem _ _ _
    · cases h

/-! ## What is sent -/

theorem suits_jsColumn {c : Option Nat} (h : ∀ i, c = some i → i < 2 ^ 32) : Suits .column (jsColumn c) := by
  cases c with
  | none => exact .noColumn
  | some i => exact .column (h i rfl)

theorem read_jsColumn {c : Option Nat} (h : ∀ i, c = some i → i < 2 ^ 32) :
    optField (natField wasmUsizeMax) (jsColumn c) = some c := by
  cases c with
  | none => rfl
  | some i =>
    have : natField wasmUsizeMax (.num (.fin (i : ℚ))) = some i := natField_eq.mpr ⟨rfl, by have := h i rfl; unfold wasmUsizeMax; omega⟩
    show ((natField wasmUsizeMax (.num (.fin (i : ℚ)))).map some) = _
    rw [this]; rfl

theorem suits_jsColumns {c : Option (List Nat)} (h : ∀ x, c = some x → ∀ i ∈ x, i < 2 ^ 32) : Suits .columns (jsColumns c) := by
  cases c with
  | none => exact .noColumns
  | some x => exact .columns (h x rfl)

theorem read_jsColumns {c : Option (List Nat)} (h : ∀ x, c = some x → ∀ i ∈ x, i < 2 ^ 32) :
    optField (listField (natField wasmUsizeMax)) (jsColumns c) = some c := by
  cases c with
  | none => rfl
  | some x =>
    have : listField (natField wasmUsizeMax) (.arr (x.map fun n : Nat => .num (.fin (n : ℚ)))) = some x := by
      unfold listField
      simp only
      exact mapM_natField.mpr ⟨rfl, fun n hm => by have := h x rfl n hm; unfold wasmUsizeMax; omega⟩
    show ((listField (natField wasmUsizeMax) (.arr (x.map fun n : Nat => .num (.fin (n : ℚ))))).map some) = _
    rw [this]; rfl

/-- C88: the columns that were chosen are those of the request, and options that could be read can still be read. -/
theorem C88_sent {c : WebColumns} {o : JsObj} (ho : AllSuit o) (hy : ∀ i, c.yColumn = some i → i < 2 ^ 32)
    (hw : ∀ i, c.weightsColumn = some i → i < 2 ^ 32) (hx : ∀ x, c.xColumns = some x → ∀ i ∈ x, i < 2 ^ 32) :
    AllSuit (patchOptions (columnsPatch c) o) ∧ effective (patchOptions (columnsPatch c) o) = patchOptions (columnsPatch c) o ∧
    (patchOptions (columnsPatch c) o).columns = { c with hasHeaders := o.columns.hasHeaders } := by
  have hX := suits_jsColumns hx
  have hR := read_jsColumns hx
  have l : ∀ name, name ≠ "y_column" → name ≠ "weights_column" → name ≠ "x_columns" →
      (patchOptions (columnsPatch c) o).lookup name = o.lookup name := by
    intro name h1 h2 h3
    unfold patchOptions columnsPatch
    simp only [List.cons_append, List.nil_append, List.lookup_cons, beq_false_of_ne h1, beq_false_of_ne h2, beq_false_of_ne h3]
  have l1 : (patchOptions (columnsPatch c) o).lookup "y_column" = some (jsColumn c.yColumn) := rfl
  have l2 : (patchOptions (columnsPatch c) o).lookup "weights_column" = some (jsColumn c.weightsColumn) := rfl
  have l3 : (patchOptions (columnsPatch c) o).lookup "x_columns" = some (jsColumns c.xColumns) := rfl
  have hs : AllSuit (patchOptions (columnsPatch c) o) := by
    intro name ty hm v hv
    by_cases h1 : name = "y_column"
    · subst h1
      have ht : ty = .column := by simpa [webFields] using hm
      rw [l1] at hv; cases hv
      exact ht ▸ suits_jsColumn hy
    by_cases h2 : name = "weights_column"
    · subst h2
      have ht : ty = .column := by simpa [webFields] using hm
      rw [l2] at hv; cases hv
      exact ht ▸ suits_jsColumn hw
    by_cases h3 : name = "x_columns"
    · subst h3
      have ht : ty = .columns := by simpa [webFields] using hm
      rw [l3] at hv; cases hv
      exact ht ▸ hX
    rw [l name h1 h2 h3] at hv
    exact ho name ty hm v hv
  refine ⟨hs, ?_, ?_⟩
  · unfold effective
    rw [if_pos ((C86_readable _).mpr hs)]
  · unfold JsObj.columns JsObj.flag JsObj.read
    rw [l1, l2, l3, l "has_headers" (by decide) (by decide) (by decide)]
    simp only [read_jsColumn hy, read_jsColumn hw, hR, Option.getD_some]

/-- A text all lines of which have `n` cells has `n` columns. -/
theorem hasColumns_of {t : Csv K} (h : ∀ r ∈ t, r.length = n) : HasColumns n t := by
  intro hd p hp
  unfold pageParse at hp
  simp only at hp
  split at hp
  · cases hp
  · next r hr =>
    cases hp
    simp only [hr, Option.getD_some]
    have hm := List.mem_of_mem_head? hr
    obtain ⟨hm, -⟩ := List.mem_filter.mp hm
    obtain ⟨l, hl, rfl⟩ := List.mem_map.mp hm
    rw [List.length_map]
    refine h l ?_
    unfold dataLines at hl
    split at hl
    · exact List.mem_of_mem_drop hl
    · exact hl

end

namespace FormDemo
open PageDemo

/-- A table with three columns. -/
def three : Csv ℚ := [[name "a", name "b", name "c"], [cell 1, cell 2, cell 3], [cell 4, cell 5, cell 6]]

/-- A table with five columns. -/
def five : Csv ℚ := [[name "a", name "b", name "c", name "d", name "e"], [cell 1, cell 2, cell 3, cell 4, cell 5]]

theorem three_columns : HasColumns 3 three := hasColumns_of (by decide)
theorem five_columns : HasColumns 5 five := hasColumns_of (by decide)

/-- A history: the table is shown, its first column becomes the target, the sine is added and addition is removed. -/
def history : List (FEvent ℚ) := [.parse, .target 0, .unary "sin".toList, .binary "add".toList]

theorem history_keeps : ∀ e ∈ history, e.KeepsWidth 3 := by
  intro e he
  unfold history at he
  simp only [List.mem_cons, List.not_mem_nil, or_false] at he
  rcases he with rfl | rfl | rfl | rfl <;> exact trivial

/-- What of a form can be compared. -/
def shown (f : Form ℚ) : Option (List Nat) × Option Nat × Option Nat × List (List Char) × List (List Char) :=
  (f.data.opts.xColumns, f.data.opts.yColumn, f.data.opts.weightsColumn, f.unary, f.binary)

theorem history_result : ((Form.loaded three true).run presetTable history).map shown =
    some (some [1], some 0, none, ["cos".toList, "sin".toList], ["sub".toList, "mul".toList, "div".toList]) := rfl

/-- The hypotheses of C88_columns, C88_accepted and C88_ticked are met, and the choice is accepted. -/
example : ∃ f, (Form.loaded three true).run presetTable history = some f ∧ GoodColumns 3 f.data.opts ∧ f.ticked 1 = true ∧
    f.ticked 2 = false ∧ ∃ nCols yCol, ValidRequest [[.fin 1, .fin 2, .fin 3], [.fin 4, .fin 5, .fin (6 : ℚ)]] f.data.opts nCols yCol := by
  obtain ⟨f, hf, hs⟩ := Option.map_eq_some_iff.mp history_result
  have hx : f.data.opts.xColumns = some [1] := congrArg Prod.fst hs
  have ht := fun c => C88_ticked (S := presetTable) (n := 3) (by decide) three_columns true (es := []) (es' := history.tail) history_keeps rfl
    (by decide +kernel) hf c
  refine ⟨f, hf, C88_columns (by decide) three_columns true history_keeps hf, (ht 1).mpr ?_, ?_, ?_⟩
  · unfold WantsColumn; rw [hx]; simp
  · rw [Bool.eq_false_iff]
    intro h
    have := (ht 2).mp h
    unfold WantsColumn at this
    rw [hx] at this
    simp at this
  · refine (C88_accepted (by decide) three_columns true history_keeps hf (by simp) (by simp)).mpr ?_
    rw [hx]; simp

/-- The hypotheses of C88_operators are met. -/
example : PlainSpace Char.isWhitespace := by
  intro c h
  simp only [Char.isWhitespace, Bool.or_eq_true, decide_eq_true_eq] at h
  rcases h with ((rfl | rfl) | rfl) | rfl <;> decide

/-- The hypotheses of C88_trapped are met: to choose another target does not help. -/
example : ∃ f, (Form.loaded five true).run presetTable ([.parse, .setText three, .parse] ++ [.target 0]) = some f ∧
    (∃ x, f.data.opts.xColumns = some x ∧ 3 ∈ x ∧ f.ticked 3 = false) := by
  have h : (((Form.loaded five true).run presetTable ([.parse, .setText three, .parse] ++ [.target 0])).map shown).isSome = true := by
    decide +kernel
  obtain ⟨f, hf⟩ := Option.isSome_iff_exists.mp (by simpa using h)
  refine ⟨f, hf, (C88_trapped (m := 5) (n := 3) (by decide) (by decide) five_columns three_columns true (by decide +kernel)
    (by decide +kernel) (fun e he => ?_) hf).1⟩
  cases List.mem_singleton.mp he
  exact trivial

/-- The hypotheses of C88_unticked are met. -/
example : ∃ f, (Form.loaded three true).run presetTable [.ensure] = some f ∧ f.nCols = 3 ∧ ∀ c, f.ticked c = false := by
  obtain ⟨f, h1, h2, h3, -⟩ := C88_unticked (S := presetTable) three_columns true (by decide +kernel)
  exact ⟨f, h1, h2, h3⟩

/-- The hypotheses of C88_sent are met. -/
example : (patchOptions (columnsPatch ⟨true, some [0, 2], some 1, none⟩) []).columns = ⟨true, some [0, 2], some 1, none⟩ :=
  (C88_sent (o := []) (fun _ _ _ _ h => by cases h) (by intro i h; cases h; decide) (by intro i h; cases h)
    (by intro x h; cases h; decide)).2.2

end FormDemo
end SR
