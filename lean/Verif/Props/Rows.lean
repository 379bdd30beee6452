import Verif.Proofs.RowsData
import Verif.Props.Cases
import Verif.Spec.Binary64
/-
C95: without mini-batches the search sees the data only through the losses and the loss gradients of expressions; so in exact arithmetic
it depends only on how much each row weighs: the order of the rows does not matter, a row that occurs n times may be replaced by one of
weight n, and rows may be split.
-/
namespace SR
variable {K : Type} [Field K] [LinearOrder K] [IsStrictOrderedRing K] [E : Env K]
variable {o : SOptions K} {d d' : Dataset K} {ops : List OpId} {N : Nat}

/-! ## In any arithmetic: the search depends on the data only through losses and loss gradients -/

/-- C95, step-wise search: for two data sets with the same number of features and the same baseline on which every expression has the
same loss and the same loss gradient - whatever the number of rows -, the same options and random numbers give the same search at every
point: the same members, hall of fame, best member, statistics and evaluation counts. -/
theorem C95_stepwise (Q : SearchSetting o d ops N) (W' : d'.WF) (hn' : 0 < d'.x.cols) (V : SameVerdicts o d d')
    (seeds : Nat → Rng (Fl K)) (g : Rng (Fl K)) (k : Nat) :
    Option.Rel (fun r r' => r'.1 = r.1 ∧ r.2.Twin r'.2) ((Engine.new o d seeds g).bind fun e => e.step o d k)
      ((Engine.new o d' seeds g).bind fun e => e.step o d' k) :=
  stepwise_paired ⟨V, Q, W', hn'⟩ seeds g k

section
omit [IsStrictOrderedRing K] E

omit [LinearOrder K] in
theorem PopState.Twin.symm {p p' : PopState K} (h : p.Twin p') : p'.Twin p := ⟨h.pop.symm, h.rng.symm, h.counters.symm⟩

omit [Field K] [LinearOrder K] in
theorem forall₂_symm {α β : Type} {R : α → β → Prop} {S : β → α → Prop} (h : ∀ a b, R a b → S b a) {l : List α} {m : List β}
    (hl : List.Forall₂ R l m) : List.Forall₂ S m l := by
  induction hl with
  | nil => exact .nil
  | cons h1 _ ih => exact .cons (h _ _ h1) ih

omit [LinearOrder K] in
theorem Shared.Twin.symm {s s' : Shared K} (h : s.Twin s') : s'.Twin s :=
  ⟨h.counters.symm, h.stats.symm, h.hall.symm,
    forall₂_symm (fun _ _ h => by cases h with | none => exact .none | some h => exact .some h.symm) h.pops,
    h.bestSub.symm, h.best.symm, h.totalEvals.symm⟩

omit [LinearOrder K] in
theorem Par.Twin.symm {p p' : Par K} (h : p.Twin p') : p'.Twin p :=
  ⟨h.shared.symm, h.orderRng.symm, h.pc.symm, h.iter.symm, h.order.symm, h.nextTask.symm, h.inFlight.symm,
    forall₂_symm (fun _ _ h => ⟨h.popIdx.symm, h.cur.symm, h.stats.symm, h.ps.symm⟩) h.pending⟩
end

/-- C95, search with workers: both searches start, and whatever one of them can do with any number of workers the other can do too, in
the same order of events and with the same results. -/
theorem C95_parallel (Q : SearchSetting o d ops N) (W' : d'.WF) (hn' : 0 < d'.x.cols) (V : SameVerdicts o d d')
    (seeds : Nat → Rng (Fl K)) (g : Rng (Fl K)) :
    ∃ p p', Par.new o d seeds g = some p ∧ Par.new o d' seeds g = some p' ∧ p.Twin p' ∧ ∀ nw tr,
      (∀ q, ParRun o d nw p tr q → ∃ q', ParRun o d' nw p' tr q' ∧ q.Twin q') ∧
      (∀ q', ParRun o d' nw p' tr q' → ∃ q, ParRun o d nw p tr q ∧ q.Twin q') := by
  have P : SearchPair o d d' ops N := ⟨V, Q, W', hn'⟩
  obtain ⟨p, p', h1, h2, h3, h4⟩ := parallel_paired P seeds g
  obtain ⟨r, r', g1, g2, g3, g4⟩ := parallel_paired P.symm seeds g
  rw [h1] at g2
  rw [h2] at g1
  simp only [Option.some.injEq] at g1 g2
  subst g1 g2
  refine ⟨p, p', h1, h2, h3, fun nw tr => ⟨fun q hq => h4 nw tr q hq, fun q' hq => ?_⟩⟩
  obtain ⟨q, a, b⟩ := g4 nw tr q' hq
  exact ⟨q, a, b.symm⟩

/-! ## In exact arithmetic: only the weight of each row counts -/

/-- C95: in exact arithmetic every expression has the same loss and the same loss gradient on data sets whose rows weigh the same. -/
theorem C95_verdicts (hx : E.RT = Rounding.exact K) (S : d.SameRows d') (W : d.WF) (W' : d'.WF) (hn : 0 < d.x.cols)
    (hb : d'.baseline = d.baseline) : SameVerdicts o d d' := SameRows.verdicts hx S W W' hn hb

omit [IsStrictOrderedRing K] in
theorem SearchSetting.retag (Q : SearchSetting o d ops N) {t : Dataset K} (hx : t.x = d.x) (hy : t.y = d.y) (hw : t.weights = d.weights) :
    SearchSetting o t ops N :=
  { Q with evol := { Q.evol with
      data := ⟨by rw [hx, hy]; exact Q.evol.data.y, by rw [hx, hw]; exact Q.evol.data.w⟩
      rows := by rw [hx]; exact Q.evol.rows
      nf_pos := by rw [hx]; exact Q.evol.nf_pos
      nf_le := by rw [hx]; exact Q.evol.nf_le } }

/-- C95, step-wise search in exact arithmetic: reordering the rows, merging equal rows into one that carries their weights together, and
splitting rows change nothing. -/
theorem C95_rows_stepwise (hx : E.RT = Rounding.exact K) (Q : SearchSetting o d ops N) (S : d.SameRows d') (W' : d'.WF)
    (seeds : Nat → Rng (Fl K)) (g : Rng (Fl K)) (k : Nat) :
    Option.Rel (fun r r' => r'.1 = r.1 ∧ r.2.Twin r'.2)
      ((tagged o d).bind fun t => (Engine.new o t seeds g).bind fun e => e.step o t k)
      ((tagged o d').bind fun t => (Engine.new o t seeds g).bind fun e => e.step o t k) := by
  obtain ⟨t, t', h1, h2, h3, h4, h5, h6, h7, h8, h9⟩ := SameRows.tagged (o := o) hx S Q.evol.data W' Q.evol.rows
    (by have := Q.evol.nf_le; unfold u16Max; omega)
  rw [h1, h2]
  simp only [Option.bind_some]
  exact C95_stepwise (Q.retag h4 h5 h6) ⟨by rw [h7, h8]; exact W'.y, by rw [h7, h9]; exact W'.w⟩
    (by rw [h7]; exact SameRows.pos S Q.evol.rows) h3 seeds g k

/-- C95, search with workers in exact arithmetic. -/
theorem C95_rows_parallel (hx : E.RT = Rounding.exact K) (Q : SearchSetting o d ops N) (S : d.SameRows d') (W' : d'.WF)
    (seeds : Nat → Rng (Fl K)) (g : Rng (Fl K)) :
    ∃ t t' p p', tagged o d = some t ∧ tagged o d' = some t' ∧ Par.new o t seeds g = some p ∧ Par.new o t' seeds g = some p' ∧ p.Twin p' ∧
      ∀ nw tr, (∀ q, ParRun o t nw p tr q → ∃ q', ParRun o t' nw p' tr q' ∧ q.Twin q') ∧
        (∀ q', ParRun o t' nw p' tr q' → ∃ q, ParRun o t nw p tr q ∧ q.Twin q') := by
  obtain ⟨t, t', h1, h2, h3, h4, h5, h6, h7, h8, h9⟩ := SameRows.tagged (o := o) hx S Q.evol.data W' Q.evol.rows
    (by have := Q.evol.nf_le; unfold u16Max; omega)
  obtain ⟨p, p', a, b, c, e⟩ := C95_parallel (Q.retag h4 h5 h6) ⟨by rw [h7, h8]; exact W'.y, by rw [h7, h9]; exact W'.w⟩
    (by rw [h7]; exact SameRows.pos S Q.evol.rows) h3 seeds g
  exact ⟨t, t', p, p', h1, h2, a, b, c, e⟩

section
omit [IsStrictOrderedRing K] E

/-- Reordering rows: if the rows of the second data set with their weights are those of the first in another order, every row weighs the
same. -/
theorem C95_reordered (hrows : d'.x.rows = d.x.rows) (hpos : ∀ r < d.x.cols, ∃ w, d.rowWeight r = .fin w ∧ 0 < w)
    (h : ((List.range d'.x.cols).map fun r => (d'.row r, d'.rowWeight r)).Perm
      ((List.range d.x.cols).map fun r => (d.row r, d.rowWeight r))) : d.SameRows d' := by
  refine ⟨hrows, hpos, ?_, ?_⟩
  · intro r hr
    have : (d'.row r, d'.rowWeight r) ∈ (List.range d.x.cols).map fun r => (d.row r, d.rowWeight r) :=
      h.subset (List.mem_map.mpr ⟨r, List.mem_range.mpr hr, rfl⟩)
    obtain ⟨s, hs, he⟩ := List.mem_map.mp this
    obtain ⟨w, h1, h2⟩ := hpos s (List.mem_range.mp hs)
    simp only [Prod.mk.injEq] at he
    exact ⟨w, by rw [← he.2]; exact h1, h2⟩
  · intro k
    have e : ∀ d : Dataset K, d.mass k = ((((List.range d.x.cols).map fun r => (d.row r, d.rowWeight r)).filter
        fun p => decide (p.1 = k)).map fun p => p.2.value).sum := by
      intro d
      unfold Dataset.mass
      rw [List.filter_map, List.map_map]
      rfl
    rw [e, e]
    exact ((h.filter _).map _).sum_eq

end

/-! ## The exceptions -/

/-- C95, the exception: in `f64` the loss depends on the order of the rows. Three rows with the errors 2^53, 1 and 1 have a smaller mean
absolute error in this order than in the opposite order. -/
theorem C95_order_matters_rounded (lib : LossLib ℚ) :
    ∃ l l' : ℚ, (LossKind.mean .abs).loss binary64 lib [.fin 9007199254740992, .fin 1, .fin 1] [.fin 0, .fin 0, .fin 0] none = some (.fin l) ∧
      (LossKind.mean .abs).loss binary64 lib [.fin 1, .fin 1, .fin 9007199254740992] [.fin 0, .fin 0, .fin 0] none = some (.fin l') ∧ l < l' := by
  have habs : PointLoss.abs.loss binary64 lib = fun a b => (binary64.sub a b).abs := rfl
  simp only [LossKind.loss, habs]
  refine ⟨6004799503160661 / 2, 6004799503160663 / 2, ?_, ?_, ?_⟩ <;> decide +kernel

end SR

namespace SR.Demo
local instance instRows : Env ℚ := env

/-- The rows (1, 2), (2, 4), (2, 4), (1, 2), (2, 4), without weights. -/
def repeated : Dataset ℚ where
  x := ⟨1, 5, fun _ r => if r = 0 ∨ r = 3 then .fin 1 else .fin 2⟩
  y := [.fin 2, .fin 4, .fin 4, .fin 2, .fin 4]
  weights := none
  baseline := none

/-- The rows (2, 4) of weight 3 and (1, 2) of weight 2. -/
def merged : Dataset ℚ where
  x := ⟨1, 2, fun _ r => .fin (2 - r)⟩
  y := [.fin 4, .fin 2]
  weights := some [.fin 3, .fin 2]
  baseline := none

theorem merged_wf : merged.WF := ⟨rfl, by intro w h; cases h; rfl⟩

theorem repeated_merged : repeated.SameRows merged := by
  have e : (List.range 5 = [0, 1, 2, 3, 4]) ∧ List.range 2 = [0, 1] ∧ List.range 1 = [0] := by decide
  refine ⟨rfl, fun r _ => ⟨1, rfl, one_pos⟩, ?_, ?_⟩
  · intro r hr
    have : r = 0 ∨ r = 1 := by have : r < 2 := hr; omega
    rcases this with rfl | rfl
    · exact ⟨3, rfl, by norm_num⟩
    · exact ⟨2, rfl, by norm_num⟩
  · intro k
    have r0 : repeated.row 0 = ([.fin 1], .fin 2) := rfl
    have r1 : repeated.row 1 = ([.fin 2], .fin 4) := rfl
    have r2 : repeated.row 2 = ([.fin 2], .fin 4) := rfl
    have r3 : repeated.row 3 = ([.fin 1], .fin 2) := rfl
    have r4 : repeated.row 4 = ([.fin 2], .fin 4) := rfl
    have m0 : merged.row 0 = ([.fin 2], .fin 4) := by decide +kernel
    have m1 : merged.row 1 = ([.fin 1], .fin 2) := by decide +kernel
    have w0 : ∀ r, (repeated.rowWeight r).value = 1 := fun _ => rfl
    have v0 : (merged.rowWeight 0).value = 3 := rfl
    have v1 : (merged.rowWeight 1).value = 2 := rfl
    have c1 : merged.x.cols = 2 := rfl
    have c2 : repeated.x.cols = 5 := rfl
    unfold Dataset.mass
    rw [c1, c2, e.1, e.2.1]
    by_cases h1 : (([.fin 1], .fin 2) : List (Fl ℚ) × Fl ℚ) = k
    · have h2 : ¬ (([.fin 2], .fin 4) : List (Fl ℚ) × Fl ℚ) = k := by rw [← h1]; decide
      simp [List.filter_cons, r0, r1, r2, r3, r4, m0, m1, h1, h2, w0, v1]
      norm_num
    · by_cases h2 : (([.fin 2], .fin 4) : List (Fl ℚ) × Fl ℚ) = k
      · simp [List.filter_cons, r0, r1, r2, r3, r4, m0, m1, h1, h2, w0, v0]
        norm_num
      · simp [List.filter_cons, r0, r1, r2, r3, r4, m0, m1, h1, h2]

theorem repeated_setting : SearchSetting (runOpts true) repeated opIds 3 :=
  { (runSetting true).search with evol := { (runSetting true).search.evol with
      data := ⟨rfl, by intro w h; cases h⟩
      rows := by decide
      nf_pos := by decide
      nf_le := by decide } }

/-- The hypotheses are met: the search on five rows without weights and the search on two rows of weights 3 and 2 are the same, for all
random numbers and at every point. -/
example (seeds : Nat → Rng (Fl ℚ)) (g : Rng (Fl ℚ)) (k : Nat) :
    Option.Rel (fun r r' => r'.1 = r.1 ∧ r.2.Twin r'.2)
      ((tagged (runOpts true) repeated).bind fun t => (Engine.new (runOpts true) t seeds g).bind fun e => e.step (runOpts true) t k)
      ((tagged (runOpts true) merged).bind fun t => (Engine.new (runOpts true) t seeds g).bind fun e => e.step (runOpts true) t k) :=
  C95_rows_stepwise rfl repeated_setting repeated_merged merged_wf seeds g k

/-- One row `x = 1`, `y = 2`. -/
def one : Dataset ℚ := ⟨⟨1, 1, fun _ _ => .fin 1⟩, [.fin 2], some [.fin 1], none⟩

/-- The same row and a row of weight zero whose feature is not a number. -/
def oneAndNothing : Dataset ℚ := ⟨⟨1, 2, fun _ r => if r = 0 then .fin 1 else .nan⟩, [.fin 2, .fin 0], some [.fin 1, .fin 0], none⟩

/-- C95, why weights must be positive: a row of weight zero is not ignored. The expression `x0 + x0` has loss zero on the first data set
and no loss on the second, which differs by a row of weight zero. -/
theorem _root_.SR.C95_zero_weight_counts :
    exprLoss opts one (.op 0 [.var 0, .var 0]) [] = some (.fin 0) ∧ exprLoss opts oneAndNothing (.op 0 [.var 0, .var 0]) [] = none := by
  constructor
  · have hc : Computable one (.op 0 [.var 0, .var 0]) [] := by
      refine ⟨?_, by intro c h; cases h⟩
      intro o ts hm r hr
      have hr' : r = 0 := by have : r < 1 := hr; omega
      subst hr'
      simp [Tree.subtrees_op] at hm
      obtain ⟨rfl, rfl⟩ := hm
      decide +kernel
    unfold exprLoss
    rw [if_pos hc]
    decide +kernel
  · have hc : ¬ Computable oneAndNothing (.op 0 [.var 0, .var 0]) [] := by
      intro h
      have := h.1 0 [.var 0, .var 0] (by simp [Tree.subtrees_op]) 1 (by decide)
      exact absurd this (by decide +kernel)
    unfold exprLoss
    rw [if_neg hc]

end SR.Demo
