import Verif.Proofs.Rows
import Verif.Proofs.VerdictSearch
/-
Lemmas for C95: losses and loss gradients in exact arithmetic as weighted sums over the rows.
-/
namespace SR
variable {K : Type} [Field K] [LinearOrder K] [IsStrictOrderedRing K]
attribute [local instance] exactMonoid

/-! ## The rows of a data set -/

section
omit [IsStrictOrderedRing K]

/-- The rows with their weights. -/
def Dataset.entries (d : Dataset K) : List ((List (Fl K) × Fl K) × K) :=
  (List.range d.x.cols).map fun r => (d.row r, (d.rowWeight r).value)

theorem entries_total (d : Dataset K) (k : List (Fl K) × Fl K) : total d.entries k = d.mass k := by
  unfold total Dataset.entries Dataset.mass
  rw [List.filter_map, List.map_map]
  rfl

theorem entries_pos {d : Dataset K} (h : ∀ r < d.x.cols, ∃ w, d.rowWeight r = .fin w ∧ 0 < w) : ∀ p ∈ d.entries, 0 < p.2 := by
  intro p hp
  obtain ⟨r, hr, rfl⟩ := List.mem_map.mp hp
  obtain ⟨w, h1, h2⟩ := h r (List.mem_range.mp hr)
  simp only [h1]
  exact h2

theorem y_rows {d : Dataset K} (W : d.WF) : d.y = (List.range d.x.cols).map fun r => (d.row r).2 := by
  apply List.ext_getElem
  · simp [W.y]
  · intro i h1 h2
    simp [Dataset.row, List.getD_eq_getElem?_getD, List.getElem?_eq_getElem h1]

theorem weights_rows {d : Dataset K} (W : d.WF) (h : ∀ r < d.x.cols, ∃ w, d.rowWeight r = .fin w ∧ 0 < w) {w : List (Fl K)}
    (hw : d.weights = some w) : w = (List.range d.x.cols).map fun r => .fin (d.rowWeight r).value := by
  have hl := W.w w hw
  apply List.ext_getElem
  · simp [hl]
  · intro i h1 h2
    obtain ⟨v, hv, -⟩ := h i (by omega)
    have : d.rowWeight i = w[i] := by
      simp [Dataset.rowWeight, hw, List.getD_eq_getElem?_getD, List.getElem?_eq_getElem h1]
    simp only [List.getElem_map, List.getElem_range]
    rw [← this, hv]
    rfl

theorem weightless {d : Dataset K} (hw : d.weights = none) (r : Nat) : (d.rowWeight r).value = 1 := by
  simp [Dataset.rowWeight, hw, Fl.value]

/-- The whole weight. -/
def Dataset.weight (d : Dataset K) : K := (d.entries.map Prod.snd).sum

end

theorem dataWeight_pos {d : Dataset K} (hn : 0 < d.x.cols) (h : ∀ r < d.x.cols, ∃ w, d.rowWeight r = .fin w ∧ 0 < w) : 0 < d.weight := by
  unfold Dataset.weight
  refine List.sum_pos _ ?_ ?_
  · intro x hx
    obtain ⟨p, hp, rfl⟩ := List.mem_map.mp hx
    exact entries_pos h p hp
  · simp [Dataset.entries]; omega

theorem sum_fin (l : List K) : (l.map Fl.fin).sum = Fl.fin l.sum := by
  induction l with
  | nil => rfl
  | cons x l ih => rw [List.map_cons, List.sum_cons, List.sum_cons, ih]; rfl

theorem weight_wsum (d : Dataset K) : wsum d.entries (fun _ => .fin 1) = .fin d.weight := by
  unfold wsum Dataset.weight
  rw [← sum_fin, List.map_map]
  congr 1
  apply List.map_congr_left
  intro p _
  simp [act_fin]

section
variable {d d' : Dataset K} (S : d.SameRows d')
include S

theorem SameRows.wsum (f : List (Fl K) × Fl K → Fl K) : wsum d'.entries f = wsum d.entries f :=
  wsum_total f _ _ _ (Nat.le_refl _) (entries_pos S.positive) (entries_pos S.positive')
    (fun k => by rw [entries_total, entries_total, S.mass])

theorem SameRows.weight : d'.weight = d.weight := by
  have := SameRows.wsum S fun _ => .fin 1
  rw [weight_wsum, weight_wsum] at this
  simpa using this

theorem SameRows.row {k : List (Fl K) × Fl K} : (∃ r < d'.x.cols, d'.row r = k) ↔ ∃ r < d.x.cols, d.row r = k := by
  have h1 := total_pos (entries_pos S.positive) (k := k)
  have h2 := total_pos (entries_pos S.positive') (k := k)
  rw [entries_total] at h1 h2
  rw [S.mass, h1] at h2
  have key : ∀ d : Dataset K, (∃ p ∈ d.entries, p.1 = k) ↔ ∃ r < d.x.cols, d.row r = k := by
    intro d
    simp [Dataset.entries]
  rw [← key, ← key, ← h2]

theorem SameRows.all (P : List (Fl K) × Fl K → Prop) : (∀ r < d'.x.cols, P (d'.row r)) ↔ ∀ r < d.x.cols, P (d.row r) := by
  constructor
  · intro h r hr
    obtain ⟨r', hr', he⟩ := (SameRows.row S).mpr ⟨r, hr, rfl⟩
    rw [← he]; exact h r' hr'
  · intro h r hr
    obtain ⟨r', hr', he⟩ := (SameRows.row S).mp ⟨r, hr, rfl⟩
    rw [← he]; exact h r' hr'

theorem SameRows.pos (h : 0 < d.x.cols) : 0 < d'.x.cols := by
  obtain ⟨r, hr, -⟩ := (SameRows.row S).mpr ⟨0, h, rfl⟩
  omega

end

/-! ## Losses -/

section
variable {d : Dataset K} (W : d.WF) (hn : 0 < d.x.cols) (hw : ∀ r < d.x.cols, ∃ w, d.rowWeight r = .fin w ∧ 0 < w)
include W hn hw

theorem zipRows {α : Type} (f : Fl K → Fl K → α) (p : List (Fl K) × Fl K → Fl K) :
    List.zipWith f ((List.range d.x.cols).map fun r => p (d.row r)) d.y
      = (List.range d.x.cols).map fun r => f (p (d.row r)) (d.row r).2 := by
  conv_lhs => rw [y_rows W]
  rw [List.zipWith_map, List.zipWith_self]

theorem ofNat_weight (h : d.weights = none) : (Rounding.exact K).ofNat d.y.length = .fin d.weight := by
  unfold Rounding.ofNat Dataset.weight Dataset.entries
  rw [List.map_map]
  have : ((List.range d.x.cols).map (Prod.snd ∘ fun r => (d.row r, (d.rowWeight r).value))) = List.replicate d.x.cols (1 : K) := by
    rw [List.eq_replicate_iff]
    refine ⟨by simp, ?_⟩
    intro b hb
    obtain ⟨r, -, rfl⟩ := List.mem_map.mp hb
    exact weightless h r
  rw [this, W.y]
  simp [Rounding.exact]

theorem sum_weights {w : List (Fl K)} (h : d.weights = some w) : (Rounding.exact K).sum w = .fin d.weight := by
  unfold Rounding.sum
  rw [exact_foldl, weights_rows W hw h, ← sum_fin_map]
where
  sum_fin_map : Fl.fin d.weight = ((List.range d.x.cols).map fun r => Fl.fin (d.rowWeight r).value).sum := by
    unfold Dataset.weight Dataset.entries
    rw [List.map_map, ← sum_fin, List.map_map]
    rfl

theorem meanLoss_rows (pl : Fl K → Fl K → Fl K) (p : List (Fl K) × Fl K → Fl K) :
    meanLoss (Rounding.exact K) pl ((List.range d.x.cols).map fun r => p (d.row r)) d.y d.weights
      = some ((Rounding.exact K).div (wsum d.entries fun k => pl (p k) k.2) (.fin d.weight)) := by
  have hpos := dataWeight_pos hn hw
  cases h : d.weights with
  | none =>
    simp only [meanLoss]
    rw [if_neg (by simp [W.y]), if_neg (by simp [List.isEmpty_iff, ← List.length_eq_zero_iff, W.y]; omega), ofNat_weight W hn hw h,
      zipRows W hn hw]
    congr 2
    unfold Rounding.sum wsum Dataset.entries
    rw [exact_foldl, List.map_map]
    congr 1
    apply List.map_congr_left
    intro r _
    simp only [Function.comp_apply, weightless h, act_one]
  | some w =>
    have hl := W.w w h
    have hfe : (Fl.fin d.weight : Fl K).feq (.fin 0) = false := by
      simp only [Fl.feq, Fl.le, Bool.and_eq_false_iff, decide_eq_false_iff_not]
      exact .inl (not_le.mpr hpos)
    simp only [meanLoss]
    rw [if_neg (by simp [W.y, hl]), sum_weights W hn hw h, hfe, if_neg (by simp), zipRows W hn hw]
    congr 2
    unfold Rounding.sum wsum Dataset.entries
    rw [exact_foldl, List.map_map]
    congr 1
    conv_lhs => rw [weights_rows W hw h]
    rw [List.zipWith_map, List.zipWith_self]
    rfl

/-- The gradient of the loss along the derivatives `q` of the predictions. -/
theorem meanDloss_rows (pd : Fl K → Fl K → Fl K) (p q : List (Fl K) × Fl K → Fl K) :
    (List.zipWith (Rounding.exact K).mul
      ((meanDloss (Rounding.exact K) pd ((List.range d.x.cols).map fun r => p (d.row r)) d.y d.weights).getD [])
      ((List.range d.x.cols).map fun r => q (d.row r))).foldl (Rounding.exact K).add (.fin 0)
      = wsum d.entries fun k => (Rounding.exact K).mul ((Rounding.exact K).mul ((Rounding.exact K).div (.fin 1) (.fin d.weight))
          (pd (p k) k.2)) (q k) := by
  have hpos := dataWeight_pos hn hw
  rw [exact_foldl]
  cases h : d.weights with
  | none =>
    simp only [meanDloss]
    rw [if_neg (by simp [W.y]), if_neg (by simp [List.isEmpty_iff, ← List.length_eq_zero_iff, W.y]; omega), ofNat_weight W hn hw h,
      zipRows W hn hw, Option.getD_some, List.map_map, List.zipWith_map, List.zipWith_self]
    unfold wsum Dataset.entries
    rw [List.map_map]
    congr 1
    apply List.map_congr_left
    intro r _
    simp only [Function.comp_apply, weightless h, act_one]
  | some w =>
    have hl := W.w w h
    have hfe : (Fl.fin d.weight : Fl K).feq (.fin 0) = false := by
      simp only [Fl.feq, Fl.le, Bool.and_eq_false_iff, decide_eq_false_iff_not]
      exact .inl (not_le.mpr hpos)
    simp only [meanDloss]
    rw [if_neg (by simp [W.y, hl]), sum_weights W hn hw h, hfe, if_neg (by simp), zipRows W hn hw, Option.getD_some]
    unfold wsum Dataset.entries
    conv_lhs => rw [weights_rows W hw h]
    rw [List.zipWith_map, List.zipWith_self, List.zipWith_map, List.zipWith_self, List.map_map]
    congr 1
    apply List.map_congr_left
    intro r hr
    obtain ⟨v, hv, hvp⟩ := hw r (List.mem_range.mp hr)
    simp only [Function.comp_apply, hv, Fl.value]
    show (Rounding.exact K).mul ((Rounding.exact K).mul (act v _) _) _ = _
    rw [act_mul hvp, act_mul hvp]


theorem loss_rows (lib : LossLib K) (l : LossKind K) (p : List (Fl K) × Fl K → Fl K) :
    l.loss (Rounding.exact K) lib ((List.range d.x.cols).map fun r => p (d.row r)) d.y d.weights
      = some (match l with
        | .mean l => (Rounding.exact K).div (wsum d.entries fun k => l.loss (Rounding.exact K) lib (p k) k.2) (.fin d.weight)
        | .rmse => lib.sqrt ((Rounding.exact K).div (wsum d.entries fun k => PointLoss.squared.loss (Rounding.exact K) lib (p k) k.2)
            (.fin d.weight))) := by
  cases l with
  | mean l => exact meanLoss_rows W hn hw _ _
  | rmse =>
    simp only [LossKind.loss]
    rw [meanLoss_rows W hn hw]
    rfl

/-- The coefficient of a row in the gradient. -/
def slopeCoeff (lib : LossLib K) (l : LossKind K) (weight : K) (m : Fl K) (p : List (Fl K) × Fl K → Fl K) (k : List (Fl K) × Fl K) : Fl K :=
  match l with
  | .mean l => (Rounding.exact K).mul ((Rounding.exact K).div (.fin 1) (.fin weight)) (l.dloss (Rounding.exact K) lib (p k) k.2)
  | .rmse =>
    if (lib.sqrt m).feq (.fin 0) || !(lib.sqrt m).isFinite then .fin 0
    else (Rounding.exact K).mul ((Rounding.exact K).div ((Rounding.exact K).div (.fin 1) (.fin weight)) (lib.sqrt m))
      ((Rounding.exact K).sub (p k) k.2)

theorem dloss_rows (lib : LossLib K) (l : LossKind K) (p q : List (Fl K) × Fl K → Fl K) :
    (List.zipWith (Rounding.exact K).mul
      ((l.dloss (Rounding.exact K) lib ((List.range d.x.cols).map fun r => p (d.row r)) d.y d.weights).getD [])
      ((List.range d.x.cols).map fun r => q (d.row r))).foldl (Rounding.exact K).add (.fin 0)
      = wsum d.entries fun k => (Rounding.exact K).mul (slopeCoeff lib l d.weight
          ((Rounding.exact K).div (wsum d.entries fun k => PointLoss.squared.loss (Rounding.exact K) lib (p k) k.2) (.fin d.weight)) p k)
          (q k) := by
  cases l with
  | mean l => exact meanDloss_rows W hn hw _ _ _
  | rmse =>
    have hpos := dataWeight_pos hn hw
    simp only [LossKind.dloss, slopeCoeff]
    rw [meanLoss_rows W hn hw]
    simp only [Option.bind_eq_bind, Option.bind_some]
    generalize hm : lib.sqrt ((Rounding.exact K).div (wsum d.entries fun k => PointLoss.squared.loss (Rounding.exact K) lib (p k) k.2)
      (.fin d.weight)) = m
    rw [exact_foldl]
    by_cases hz : (m.feq (.fin 0) || !m.isFinite) = true
    · simp only [hz, if_true, Option.getD_some]
      unfold wsum Dataset.entries
      conv_lhs => rw [y_rows W]
      rw [List.map_map, List.zipWith_map, List.zipWith_self, List.map_map]
      congr 1
      apply List.map_congr_left
      intro r hr
      obtain ⟨v, hv, hvp⟩ := hw r (List.mem_range.mp hr)
      simp only [Function.comp_apply, hv, Fl.value]
      exact (act_zero _ hvp).symm
    · simp only [hz, Bool.false_eq_true, if_false]
      cases h : d.weights with
      | none =>
        simp only
        rw [ofNat_weight W hn hw h, zipRows W hn hw (fun a b => (Rounding.exact K).mul _ ((Rounding.exact K).sub a b)), Option.getD_some,
          List.zipWith_map, List.zipWith_self]
        unfold wsum Dataset.entries
        rw [List.map_map]
        congr 1
        apply List.map_congr_left
        intro r _
        simp only [Function.comp_apply, weightless h, act_one]
      | some w =>
        have hfe : (Fl.fin d.weight : Fl K).feq (.fin 0) = false := by
          simp only [Fl.feq, Fl.le, Bool.and_eq_false_iff, decide_eq_false_iff_not]
          exact .inl (not_le.mpr hpos)
        simp only
        rw [sum_weights W hn hw h, hfe, if_neg (by simp), zipRows W hn hw, Option.getD_some]
        conv_lhs => rw [weights_rows W hw h]
        rw [List.zipWith_map, List.zipWith_self, List.zipWith_map, List.zipWith_self]
        unfold wsum Dataset.entries
        rw [List.map_map]
        congr 1
        apply List.map_congr_left
        intro r hr
        obtain ⟨v, hv, hvp⟩ := hw r (List.mem_range.mp hr)
        simp only [Function.comp_apply, hv, Fl.value]
        have hf : m.isFinite = true := by
          cases hmf : m.isFinite with
          | true => rfl
          | false => simp [hmf] at hz
        have hx0 : ∃ x, m = .fin x ∧ x ≠ 0 := by
          cases m with
          | fin x =>
            refine ⟨x, rfl, fun h0 => hz ?_⟩
            simp [h0, Fl.feq, Fl.le]
          | _ => simp [Fl.isFinite] at hf
        obtain ⟨x, rfl, hx⟩ := hx0
        have hs : (Rounding.exact K).div ((Rounding.exact K).div (.fin 1) (.fin d.weight)) (.fin x) = .fin (1 / d.weight / x) := by
          simp only [Rounding.div, if_neg hpos.ne', if_neg hx, Rounding.exact]
        rw [hs, mul_act, act_mul hvp, act_mul hvp]

end

/-! ## Expressions -/

section
variable [E : Env K]

/-- The value of a tree on a row. -/
def rowVal (t : Tree) (consts : List (Fl K)) (k : List (Fl K) × Fl K) : Fl K :=
  t.eval E.ops (fun f => k.1.getD f .nan) (constAt consts)

/-- The derivative of a tree on a row. -/
def rowSlope (t : Tree) (consts : List (Fl K)) (c : Nat) (k : List (Fl K) × Fl K) : Fl K :=
  t.derivSkip E.ops (fun f => k.1.getD f .nan) (constAt consts) noSeed (oneHot c)

omit [IsStrictOrderedRing K] in
theorem dual_congr_feat {T : Type} [Scalar T] (chain : (Nat → T) → List (Bool × T) → T) {ops : OpSet T} {f1 f2 const sv sc : Nat → T} {nf nc D : Nat} {t : Tree}
    (ht : t.WF ops D nf nc) (h : ∀ f < nf, f1 f = f2 f) : t.dualWith chain ops f1 const sv sc = t.dualWith chain ops f2 const sv sc := by
  induction t using Tree.ind with
  | hv f => simp only [Tree.WF, Tree.all_var] at ht; simp [Tree.dualWith, h f ht]
  | hc c => simp [Tree.dualWith]
  | ho o ts ih =>
    simp only [Tree.WF, Tree.all_op] at ht
    have : ts.map (Tree.dualWith chain ops f1 const sv sc) = ts.map (Tree.dualWith chain ops f2 const sv sc) :=
      List.map_congr_left fun u hu => ih u hu (ht.2 u hu)
    have e : ∀ f, Tree.dualWith chain ops f const sv sc (.op o ts)
        = (fun ps : List (T × (Bool × T)) => (ops.eval ps.length o (ps.map Prod.fst), false,
       chain (ops.partial_ ps.length o (ps.map Prod.fst)) (ps.map Prod.snd))) (ts.map (Tree.dualWith chain ops f const sv sc)) := by
      intro f; simp only [Tree.dualWith, Tree.fold_op]
    rw [e, e, this]

omit [IsStrictOrderedRing K] in
theorem row_getD (d : Dataset K) {f : Nat} (hf : f < d.x.rows) (r : Nat) : (d.row r).1.getD f .nan = d.x.at' f r := by
  simp [Dataset.row, List.getD_eq_getElem?_getD, hf]

omit [IsStrictOrderedRing K] in
theorem rowVal_row {d : Dataset K} {t : Tree} {consts : List (Fl K)} (ht : t.WF E.ops E.D d.x.rows consts.length) (r : Nat) :
    t.eval E.ops (fun f => d.x.at' f r) (constAt consts) = rowVal t consts (d.row r) := by
  have := dual_congr_feat chainSkip (const := constAt consts) (sv := noSeed) (sc := noSeed) ht
    (f1 := fun f => d.x.at' f r) (f2 := fun f => (d.row r).1.getD f .nan) fun f hf => (row_getD d hf r).symm
  rw [Tree.dualWith_eq, Tree.dualWith_eq] at this
  exact congrArg Prod.fst this

omit [IsStrictOrderedRing K] in
theorem rowSlope_row {d : Dataset K} {t : Tree} {consts : List (Fl K)} (ht : t.WF E.ops E.D d.x.rows consts.length) (c r : Nat) :
    t.derivSkip E.ops (fun f => d.x.at' f r) (constAt consts) noSeed (oneHot c) = rowSlope t consts c (d.row r) := by
  have := dual_congr_feat chainSkip (const := constAt consts) (sv := noSeed) (sc := oneHot c) ht
    (f1 := fun f => d.x.at' f r) (f2 := fun f => (d.row r).1.getD f .nan) fun f hf => (row_getD d hf r).symm
  rw [Tree.dualWith_eq, Tree.dualWith_eq] at this
  exact congrArg (fun x => x.2.2) this

omit [IsStrictOrderedRing K] in
theorem predictions_rows {d : Dataset K} {t : Tree} {consts : List (Fl K)} (ht : t.WF E.ops E.D d.x.rows consts.length) :
    predictions d t consts = (List.range d.x.cols).map fun r => rowVal t consts (d.row r) :=
  List.map_congr_left fun r _ => rowVal_row ht r

omit [IsStrictOrderedRing K] E in
theorem subtrees_wf {T : Type} {ops : OpSet T} {D nf nc : Nat} {t s : Tree} (ht : t.WF ops D nf nc) (hs : s ∈ t.subtrees) :
    s.WF ops D nf nc := by
  induction t using Tree.ind with
  | hv f => simp at hs; rw [hs]; exact ht
  | hc c => simp at hs; rw [hs]; exact ht
  | ho o ts ih =>
    rw [Tree.subtrees_op] at hs
    rcases List.mem_append.mp hs with hs | hs
    · obtain ⟨l, hl, hsl⟩ := List.mem_flatten.mp hs
      obtain ⟨u, hu, rfl⟩ := List.mem_map.mp hl
      simp only [Tree.WF, Tree.all_op] at ht
      exact ih u hu (ht.2 u hu) hsl
    · simp at hs; rw [hs]; exact ht

variable {o : SOptions K} {d d' : Dataset K}

theorem computable_rows (S : d.SameRows d') {t : Tree} {consts : List (Fl K)} (ht : t.WF E.ops E.D d.x.rows consts.length) :
    Computable d' t consts ↔ Computable d t consts := by
  unfold Computable
  refine and_congr_left fun _ => ?_
  unfold AllOpsFinite
  refine forall_congr' fun op => forall_congr' fun ts => forall_congr' fun hm => ?_
  have hs := subtrees_wf ht hm
  have hs' : Tree.WF E.ops E.D d'.x.rows consts.length (.op op ts) := by rw [S.rows]; exact hs
  simp only [rowVal_row hs, rowVal_row hs']
  exact SameRows.all S fun k => Scalar.isFinite (rowVal (Tree.op op ts) consts k) = true

theorem loss_same (hx : E.RT = Rounding.exact K) (S : d.SameRows d') (W : d.WF) (W' : d'.WF) (hn : 0 < d.x.cols) {t : Tree}
    {consts : List (Fl K)} (ht : t.WF E.ops E.D d.x.rows consts.length) :
    o.loss.loss E.RT E.lossLib (predictions d' t consts) d'.y d'.weights
      = o.loss.loss E.RT E.lossLib (predictions d t consts) d.y d.weights := by
  have ht' : t.WF E.ops E.D d'.x.rows consts.length := by rw [S.rows]; exact ht
  rw [predictions_rows ht, predictions_rows ht', hx]
  have h1 := loss_rows W hn S.positive E.lossLib o.loss (rowVal t consts)
  have h2 := loss_rows W' (SameRows.pos S hn) S.positive' E.lossLib o.loss (rowVal t consts)
  rw [h1, h2]
  cases o.loss <;> simp only [SameRows.wsum S, SameRows.weight S]

theorem SameRows.verdicts (hx : E.RT = Rounding.exact K) (S : d.SameRows d') (W : d.WF) (W' : d'.WF) (hn : 0 < d.x.cols)
    (hb : d'.baseline = d.baseline) : SameVerdicts o d d' := by
  have hloss : ∀ (t : Tree) (consts : List (Fl K)), t.WF E.ops E.D d.x.rows consts.length →
      exprLoss o d' t consts = exprLoss o d t consts := by
    intro t consts ht
    unfold exprLoss
    rw [loss_same hx S W W' hn ht]
    by_cases hc : Computable d t consts
    · rw [if_pos hc, if_pos ((computable_rows S ht).mpr hc)]
    · rw [if_neg hc, if_neg fun h => hc ((computable_rows S ht).mp h)]
  refine ⟨S.rows, hb, hloss, fun t consts ht => ?_⟩
  have ht' : t.WF E.ops E.D d'.x.rows consts.length := by rw [S.rows]; exact ht
  unfold exprSlope
  rw [hloss t consts ht]
  have hall : (predictions d' t consts).all Fl.isFinite = (predictions d t consts).all Fl.isFinite := by
    rw [Bool.eq_iff_iff, List.all_eq_true, List.all_eq_true, predictions_rows ht, predictions_rows ht']
    have := SameRows.all S fun k => (rowVal t consts k).isFinite = true
    constructor
    · intro h x hxm
      obtain ⟨r, hr, rfl⟩ := List.mem_map.mp hxm
      refine this.mp (fun r' hr' => ?_) r (List.mem_range.mp hr)
      exact h _ (List.mem_map.mpr ⟨r', List.mem_range.mpr hr', rfl⟩)
    · intro h x hxm
      obtain ⟨r, hr, rfl⟩ := List.mem_map.mp hxm
      refine this.mpr (fun r' hr' => ?_) r (List.mem_range.mp hr)
      exact h _ (List.mem_map.mpr ⟨r', List.mem_range.mpr hr', rfl⟩)
  have hsl : lossSlope o d' t consts = lossSlope o d t consts := by
    funext c
    unfold lossSlope
    simp only [rowSlope_row ht, rowSlope_row ht']
    rw [predictions_rows ht, predictions_rows ht', hx, dloss_rows W hn S.positive, dloss_rows W' (SameRows.pos S hn) S.positive',
      SameRows.wsum S, SameRows.weight S, SameRows.wsum S]
  rw [hall, hsl]

/-- The data sets the two searches work on. -/
theorem SameRows.tagged (hx : E.RT = Rounding.exact K) (S : d.SameRows d') (W : d.WF) (W' : d'.WF) (hn : 0 < d.x.cols)
    (hf : d.x.rows ≤ u16Max) : ∃ t t', tagged o d = some t ∧ tagged o d' = some t' ∧ SameVerdicts o t t' ∧
      t.x = d.x ∧ t.y = d.y ∧ t.weights = d.weights ∧ t'.x = d'.x ∧ t'.y = d'.y ∧ t'.weights = d'.weights := by
  obtain ⟨t, l, h1, h2, h3, h4, h5, h6⟩ := C65_search_data o d W hn hf
  obtain ⟨t', l', g1, g2, g3, g4, g5, g6⟩ := C65_search_data o d' W' (SameRows.pos S hn) (by rw [S.rows]; exact hf)
  have hz : Tree.WF E.ops E.D d.x.rows (zeroExpr : PostfixExpr (Fl K)).consts.length (.const 0) := by
    simp [Tree.WF, zeroExpr]
  have hll := loss_same (o := o) hx S W W' hn hz
  rw [zero_predictions, zero_predictions, h5, g5] at hll
  simp only [Option.some.injEq] at hll
  subst hll
  refine ⟨t, t', h1, g1, ?_, h2, h3, h4, g2, g3, g4⟩
  have hrow : ∀ r, t.row r = d.row r := by intro r; simp only [Dataset.row, h2, h3]
  have hrow' : ∀ r, t'.row r = d'.row r := by intro r; simp only [Dataset.row, g2, g3]
  have hwt : ∀ r, t.rowWeight r = d.rowWeight r := by intro r; simp only [Dataset.rowWeight, h4]
  have hwt' : ∀ r, t'.rowWeight r = d'.rowWeight r := by intro r; simp only [Dataset.rowWeight, g4]
  refine SameRows.verdicts hx ⟨by rw [h2, g2]; exact S.rows, ?_, ?_, ?_⟩ ⟨by rw [h2, h3]; exact W.y, by rw [h2, h4]; exact W.w⟩
    ⟨by rw [g2, g3]; exact W'.y, by rw [g2, g4]; exact W'.w⟩ (by rw [h2]; exact hn) (by rw [h6, g6])
  · intro r hr; rw [hwt]; exact S.positive r (by rw [← h2]; exact hr)
  · intro r hr; rw [hwt']; exact S.positive' r (by rw [← g2]; exact hr)
  · intro k
    have := S.mass k
    unfold Dataset.mass at this ⊢
    simp only [hrow, hrow', hwt, hwt', h2, g2]
    exact this

end
end SR
