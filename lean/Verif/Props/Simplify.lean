import Verif.Proofs.CombineVal
import Verif.Props.Utils
import Verif.Model.Builtin
/-
Properties C13 (constant folding), C14 (operator combination), C15 (simplification is structural).
-/
namespace SR
variable {T : Type}

/-! ## C13 -/

/-- C13: constant folding of a well-formed expression never panics; the result is well-formed, has the
same value on every input for arbitrary scalars and operators, every constant it adds is finite, old
constants are untouched, and the flag says exactly whether the expression changed. -/
theorem C13_fold_exact [Scalar T] (ops : OpSet T) (D nf : Nat) (opts : EvalOptions) (t : Tree)
    (consts : List T) (hwf : t.WF ops D nf consts.length) :
    ∃ (t' : Tree) (new : List T) (changed : Bool),
      simplifyTree ops D opts ⟨t.toPostfix, consts⟩ = some (⟨t'.toPostfix, consts ++ new⟩, changed) ∧
      t'.WF ops D nf (consts ++ new).length ∧
      (∀ feat, t'.eval ops feat (constAt (consts ++ new)) = t.eval ops feat (constAt consts)) ∧
      (∀ v ∈ new, Scalar.isFinite v = true) ∧
      (changed = true ↔ (⟨t'.toPostfix, consts ++ new⟩ : PostfixExpr T) ≠ ⟨t.toPostfix, consts⟩) := by
  obtain ⟨t', cs, ch, fr, e, h1, h2, h3⟩ := simplifyTree_run ops D opts t consts
    (hwf.mono (fun _ _ => trivial) (fun _ h => h) (fun _ _ h => h))
  refine ⟨t', cs, ch, e, ?_, h2.eval, h1, ?_⟩
  · rw [Tree.WF, Tree.all_iff] at hwf ⊢
    exact ⟨fun f hf => hwf.1 f (h2.feats f hf), h2.idx, fun p hp => hwf.2.2 p (h2.opN p hp)⟩
  · rcases h3 with ⟨rfl, rfl, rfl⟩ | ⟨rfl, hne, hne'⟩
    · simp
    · simp only [true_iff, ne_eq, PostfixExpr.mk.injEq, not_and]
      intro h; exact absurd (toPostfix_injective h) hne'

/-- C13, observed through the evaluator: on every matrix, evaluating the folded expression gives the
same flag as evaluating the original, and the same output whenever the output is meaningful. -/
theorem C13_fold_same_evaluation [Scalar T] (ops : OpSet T) (hash : List PNode → UInt64) (D : Nat)
    (opts eopts : EvalOptions) (t t' : Tree) (X : Mat T) (consts consts' : List T) (changed : Bool)
    (hwf : t.WF ops D X.rows consts.length) (hlim : InLimits X.rows consts.length t)
    (h : simplifyTree ops D opts ⟨t.toPostfix, consts⟩ = some (⟨t'.toPostfix, consts'⟩, changed))
    (hlim' : InLimits X.rows consts'.length t') (hrows : 0 < X.cols)
    (hroot : ∀ c, t = .const c → Scalar.isFinite (constAt consts c) = true) :
    ∃ out out' flag, evalTreeArray ops hash D ⟨t.toPostfix, consts⟩ X eopts = some (out, flag) ∧
      evalTreeArray ops hash D ⟨t'.toPostfix, consts'⟩ X eopts = some (out', flag) ∧
      (flag = true ∨ eopts.earlyExit = false → out' = out) := by
  obtain ⟨t2, cs, ch, fr, e, h1, h2, h3⟩ := simplifyTree_run ops D opts t consts
    (hwf.mono (fun _ _ => trivial) (fun _ h => h) (fun _ _ h => h))
  rw [h] at e
  simp only [Option.some.injEq, Prod.mk.injEq, PostfixExpr.mk.injEq] at e
  obtain ⟨⟨e1, rfl⟩, rfl⟩ := e
  have e1 := toPostfix_injective e1
  subst e1
  have hwf' : t'.WF ops D X.rows (consts ++ cs).length := by
    rw [Tree.WF, Tree.all_iff] at hwf ⊢
    exact ⟨fun f hf => hwf.1 f (h2.feats f hf), h2.idx, fun p hp => hwf.2.2 p (h2.opN p hp)⟩
  obtain ⟨out, flag, a1, a2, a3⟩ := C03_eval_correct ops hash D t X consts eopts hwf hlim
  obtain ⟨out', flag', b1, b2, b3⟩ := C03_eval_correct ops hash D t' X (consts ++ cs) eopts hwf' hlim'
  obtain ⟨o1, f1, c1, c2, c3⟩ := C04_flag ops hash D t X consts eopts hwf hlim hrows
  obtain ⟨o2, f2, d1, d2, d3⟩ := C04_flag ops hash D t' X (consts ++ cs) eopts hwf' hlim' hrows
  rw [a1] at c1; rw [b1] at d1
  simp only [Option.some.injEq, Prod.mk.injEq] at c1 d1
  obtain ⟨rfl, rfl⟩ := c1
  obtain ⟨rfl, rfl⟩ := d1
  have hflag : flag' = flag := by
    cases hcf : eopts.checkFinite with
    | false => rw [c2 hcf, d2 hcf]
    | true =>
      have hiff : (AllOpsFinite ops X (consts ++ cs) t' ∧ ConstRootFinite (consts ++ cs) t') ↔
          (AllOpsFinite ops X consts t ∧ ConstRootFinite consts t) := by
        have hfin : AllOpsFinite ops X (consts ++ cs) t' ↔ AllOpsFinite ops X consts t := by
          have := fun r => h2.fin (fun f => X.at' f r)
          simp only [OpsFin] at this
          constructor
          · intro hh o ts hm r hr
            exact (this r).mp (fun o ts hm => hh o ts hm r hr) o ts hm
          · intro hh o ts hm r hr
            exact (this r).mpr (fun o ts hm => hh o ts hm r hr) o ts hm
        constructor
        · rintro ⟨x, y⟩; exact ⟨hfin.mp x, hroot⟩
        · rintro ⟨x, y⟩
          refine ⟨hfin.mpr x, ?_⟩
          rintro c rfl
          have hev := h2.eval (fun f => X.at' f 0)
          simp only [Tree.eval_const] at hev
          rw [hev]
          cases t with
          | var f =>
            rcases h3 with ⟨h3, _⟩ | ⟨_, _, h3⟩
            · simp at h3
            · -- a variable is never folded
              have := h2.opN
              rw [simplifyTree] at h
              simp [foldStep, FoldState.keep] at h
          | const d => simpa using hroot d rfl
          | op o ts => exact x o ts (by simp) 0 hrows
      have := d3 hcf
      have h4 := c3 hcf
      rw [hiff] at this
      rw [Bool.eq_iff_iff, this, h4]
  subst hflag
  refine ⟨out, out', flag', a1, b1, ?_⟩
  intro hh
  apply List.ext_getElem?
  intro r
  rcases Nat.lt_or_ge r X.cols with hr | hr
  · rw [a3 hh r hr, b3 hh r hr, h2.eval]
  · rw [List.getElem?_eq_none (by omega), List.getElem?_eq_none (by omega)]

/-- Non-vacuity: `x0 ∘ (c0 ∘ c1)` folds to one fresh constant. -/
example : (Tree.op 0 [.var 0, .op 0 [.const 0, .const 1]]).WF
      (⟨fun _ _ v => v.sum, fun _ _ _ _ => 0, fun _ _ => true⟩ : OpSet Nat) 2 1 2 ∧
    @simplifyTree Nat natScalar ⟨fun _ _ v => v.sum, fun _ _ _ _ => 0, fun _ _ => true⟩ 2 ⟨true, true⟩
      ⟨(Tree.op 0 [.var 0, .op 0 [.const 0, .const 1]]).toPostfix, [3, 4]⟩
      = some (⟨(Tree.op 0 [.var 0, .const 2]).toPostfix, [3, 4, 7]⟩, true) := by
  refine ⟨by simp [Tree.WF], by simp; rfl⟩

/-! ## C15 -/

/-- C15: simplifying a well-formed expression with at most 65535 nodes never panics, for every operator
set, scalar type and assignment of operators to `+`, `*`, `-`: the result is well-formed over the same
features with all its constants used, is no larger and no deeper, and uses only features and operators
that already occurred. -/
theorem C15_simplify_shape [SubScalar T] (ops : OpSet T) (cfg : CombineCfg) (D nf : Nat)
    (opts : EvalOptions) (t : Tree) (consts : List T) (hwf : t.WF ops D nf consts.length)
    (hsize : t.size ≤ u16Max) :
    ∃ (t' : Tree) (consts' : List T) (changed : Bool),
      simplifyInPlace ops cfg D opts ⟨t.toPostfix, consts⟩ = some (⟨t'.toPostfix, consts'⟩, changed) ∧
      t'.WF ops D nf consts'.length ∧ t'.size ≤ t.size ∧ t'.depth ≤ t.depth ∧
      (∀ f ∈ t'.features, f ∈ t.features) ∧ (∀ p ∈ t'.opNodes, p ∈ t.opNodes) ∧
      NumberedFrom 0 t'.constIdxs consts'.length := by
  obtain ⟨t1, cs, ch1, fr, e1, _, h2, _⟩ := simplifyTree_run ops D opts t consts
    (hwf.mono (fun _ _ => trivial) (fun _ h => h) (fun _ _ h => h))
  have hw := Tree.all_iff.mp hwf
  have hall1 : t1.All (fun _ => True) (· < (consts ++ cs).length) (fun _ a => 1 ≤ a ∧ a ≤ D) := by
    rw [Tree.all_iff]
    exact ⟨fun _ _ => trivial, h2.idx, fun p hp => ⟨(hw.2.2 p (h2.opN p hp)).1,
      (hw.2.2 p (h2.opN p hp)).2.1⟩⟩
  obtain ⟨t2, cs2, ch2, e2, _, a1, a2, a3, a4, a5⟩ := combineOperators_shape cfg D t1 (consts ++ cs) hall1
  have hlenle : ∀ u : Tree, u.constIdxs.length ≤ u.size := by
    intro u
    induction u using Tree.ind with
    | hv f => simp
    | hc c => simp
    | ho o ts ih =>
      rw [Tree.constIdxs_op, Tree.size_op, List.length_flatten, List.map_map]
      have : (ts.map (List.length ∘ Tree.constIdxs)).sum ≤ (ts.map Tree.size).sum := by
        clear * - ih
        induction ts with
        | nil => simp
        | cons u us ih2 =>
          have h1 := ih u (by simp)
          have h2 := ih2 fun v hv => ih v (by simp [hv])
          simp only [List.map_cons, List.sum_cons, Function.comp_apply]
          omega
      omega
  obtain ⟨ρ, cs3, ch3, e3, _, hnum⟩ := C12_compress_correct t2 cs2 a4
    ⟨t2.constIdxs, by
      have := hlenle t2
      have := h2.size
      omega, fun _ h => h⟩
  refine ⟨t2.mapConst ρ, cs3, ch1 || ch2 || ch3, ?_, ?_, ?_, ?_, ?_, ?_, hnum⟩
  · simp only [simplifyInPlace, e1, e2, e3]
  · rw [Tree.WF, Tree.all_iff, Tree.features_mapConst, Tree.opNodes_mapConst]
    refine ⟨fun f hf => hw.1 f (h2.feats f (a3 f hf)), ?_, fun p hp => hw.2.2 p (h2.opN p (a5 p hp))⟩
    have hr := (numberedFrom_iff _ 0 cs3.length).mp hnum
    intro c hc
    have : c ∈ firstUses (t2.mapConst ρ).constIdxs := (mem_firstUses _ _).mpr hc
    have hr' : firstUses (t2.mapConst ρ).constIdxs = List.range cs3.length := by
      simpa [firstUses] using hr
    rw [hr'] at this; simpa using this
  · rw [Tree.size_mapConst]; have := h2.size; omega
  · rw [Tree.depth_mapConst]; have := h2.depth; omega
  · rw [Tree.features_mapConst]; exact fun f hf => h2.feats f (a3 f hf)
  · rw [Tree.opNodes_mapConst]; exact fun p hp => h2.opN p (a5 p hp)

/-! ## C14 -/

/-- The full claim: in exact arithmetic, simplification keeps the value of every well-formed
expression, for every operator set. -/
def C14Full : Prop :=
  ∀ (T : Type) (_ : CommRing T) (_ : SubScalar T) (ops : OpSet T) (cfg : CombineCfg) (D nf : Nat)
    (opts : EvalOptions) (t t' : Tree) (consts consts' : List T) (changed : Bool),
    Exact ops cfg → t.WF ops D nf consts.length → t.size ≤ u16Max →
    simplifyInPlace ops cfg D opts ⟨t.toPostfix, consts⟩ = some (⟨t'.toPostfix, consts'⟩, changed) →
    ∀ feat, t'.eval ops feat (constAt consts') = t.eval ops feat (constAt consts)

/-- C14: the claim holds for every expression in which the id of the subtraction operator
is used only with arity 2.  Missing: expressions where an operator of another arity has that id, for
which the claim is false (`C14_full_false`). -/
theorem C14_simplify_exact [CommRing T] [SubScalar T] (ops : OpSet T) (cfg : CombineCfg)
    (D nf : Nat) (opts : EvalOptions) (t t' : Tree) (consts consts' : List T) (changed : Bool)
    (hex : Exact ops cfg) (hwf : t.WF ops D nf consts.length) (hsize : t.size ≤ u16Max)
    (hsub : ∀ o a, (o, a) ∈ t.opNodes → cfg.sub = some o → a = 2)
    (h : simplifyInPlace ops cfg D opts ⟨t.toPostfix, consts⟩
      = some (⟨t'.toPostfix, consts'⟩, changed)) (feat : Nat → T) :
    t'.eval ops feat (constAt consts') = t.eval ops feat (constAt consts) := by
  obtain ⟨t1, cs, ch1, fr, e1, _, h2, _⟩ := simplifyTree_run ops D opts t consts
    (hwf.mono (fun _ _ => trivial) (fun _ h => h) (fun _ _ h => h))
  have hw := Tree.all_iff.mp hwf
  have hall1 : t1.All (fun _ => True) (· < (consts ++ cs).length) (fun _ a => 1 ≤ a ∧ a ≤ D) := by
    rw [Tree.all_iff]
    exact ⟨fun _ _ => trivial, h2.idx, fun p hp => ⟨(hw.2.2 p (h2.opN p hp)).1,
      (hw.2.2 p (h2.opN p hp)).2.1⟩⟩
  obtain ⟨t2, cs2, ch2, e2, _, a1, a2, a3, a4, a5⟩ := combineOperators_shape cfg D t1 (consts ++ cs) hall1
  have hv := combineOperators_val hex D t1 (consts ++ cs) hall1
    (fun p hp hs => hsub p.1 p.2 (h2.opN p hp) hs) t2 cs2 ch2 e2
  simp only [simplifyInPlace, e1, e2] at h
  split at h
  · simp at h
  · next e3 c3 hc =>
    simp only [Option.some.injEq, Prod.mk.injEq] at h
    obtain ⟨rfl, _⟩ := h
    have hlen : (firstUses t2.constIdxs).length ≤ u16Max := by
      have h1 := firstUses_length_le t2.constIdxs
      have h3 : ∀ u : Tree, u.constIdxs.length ≤ u.size := by
        intro u
        rw [← constIdxs_toPostfix, ← length_toPostfix]
        exact List.length_filterMap_le _ _
      have := h3 t2
      have := h2.size
      omega
    have hc' := compressConstants_eq t2 cs2 a4 hlen
    obtain ⟨ρ, cs3, ch3, e4, hev, _⟩ := C12_compress_correct t2 cs2 a4
      ⟨firstUses t2.constIdxs, hlen, fun c hc => (mem_firstUses _ _).mpr hc⟩
    rw [hc] at e4
    simp only [Option.some.injEq, Prod.mk.injEq, PostfixExpr.mk.injEq] at e4
    obtain ⟨⟨e5, rfl⟩, _⟩ := e4
    rw [toPostfix_injective e5, hev ops feat, hv feat, h2.eval feat]

/-- The reals as scalars; everything is finite. -/
noncomputable instance realSub : SubScalar ℝ where
  zero := 0
  one := 1
  nan := 0
  add := (· + ·)
  mul := (· * ·)
  sub := (· - ·)
  isFinite _ := true
  isZero x := by classical exact decide (x = 0)

/-- `+`, `*`, `-` in the preset operator set: ids 0, 5, 7. -/
def presetCfg : CombineCfg := ⟨some 0, some 5, some 7⟩

theorem presetExact : Exact realOps presetCfg where
  add _ _ := rfl
  mul _ _ := rfl
  sub _ _ := rfl
  addOp o h x y := by
    simp only [presetCfg, Option.some.injEq] at h; subst h
    simp [realOps, binTable, Bin.eval]
  mulOp o h x y := by
    simp only [presetCfg, Option.some.injEq] at h; subst h
    simp [realOps, binTable, Bin.eval]
  subOp o h x y := by
    simp only [presetCfg, Option.some.injEq] at h; subst h
    simp [realOps, binTable, Bin.eval]

/-- `c0 - atanh(x0)` in the preset operator set (`-` has binary id 7, `atanh` unary id 7). -/
def badExpr : Tree := .op 7 [.const 0, .op 7 [.var 0]]

theorem badExpr_simplify (opts : EvalOptions) :
    simplifyInPlace realOps presetCfg 3 opts ⟨badExpr.toPostfix, [1]⟩
      = some (⟨(Tree.op 7 [.const 0, .var 0]).toPostfix, [1 + 1]⟩, true) := by
  simp [simplifyInPlace, simplifyTree, badExpr, foldStep, FoldState.keep, combineOperators,
    parsePostfix, parseLoop, parseStep, combineNode, combineKids, combineTop, presetCfg,
    combineSubLeft, combineSubRight, isConstA, isOpA, subRewrite, appendConst, Scalar.isFinite, emitPostfix, emitKids,
    compressConstants, compressStep, u16Max, Scalar.add]

/-- C14: the full claim is false.  With the preset operators over the reals, `1 - atanh(x0)` simplifies
to `2 - x0`. -/
theorem C14_full_false : ¬ C14Full := by
  intro h
  have := h ℝ inferInstance realSub realOps presetCfg 3 1 ⟨true, true⟩ badExpr
    (Tree.op 7 [.const 0, .var 0]) [1] [1 + 1] true presetExact
    (by simp [badExpr, Tree.WF, realOps, unTable, binTable]) (by simp [badExpr, u16Max])
    (badExpr_simplify _) (fun _ => 0)
  simp [badExpr, realOps, binTable, unTable, Bin.eval, Un.eval, constAt] at this

/-- Non-vacuity of `C14_simplify_exact`: `c0 - (x0 - c1)` over the reals becomes
`(c0 + c1) - x0`. -/
example : Exact realOps presetCfg ∧
    (Tree.op 7 [.const 0, .op 7 [.var 0, .const 1]]).WF realOps 3 1 2 ∧
    (∀ o a, (o, a) ∈ (Tree.op 7 [.const 0, .op 7 [.var 0, .const 1]]).opNodes →
      presetCfg.sub = some o → a = 2) ∧
    simplifyInPlace realOps presetCfg 3 ⟨true, true⟩
      ⟨(Tree.op 7 [.const 0, .op 7 [.var 0, .const 1]]).toPostfix, [5, 3]⟩
      = some (⟨(Tree.op 7 [.const 0, .var 0]).toPostfix, [5 + 3]⟩, true) := by
  refine ⟨presetExact, by simp [Tree.WF, realOps, binTable], by simp, ?_⟩
  simp [simplifyInPlace, simplifyTree, foldStep, FoldState.keep, combineOperators,
    parsePostfix, parseLoop, parseStep, combineNode, combineKids, combineTop, presetCfg,
    combineSubLeft, combineSubRight, isConstA, isOpA, subRewrite, appendConst, Scalar.isFinite, emitPostfix, emitKids,
    compressConstants, compressStep, u16Max, Scalar.add]

end SR
