import Verif.Proofs.DerivCorrect
/-
Top-level correctness of `eval_diff_tree_array`.
-/
namespace SR
variable {T : Type} [Scalar T]

/-- Invariant of derivative contexts: both scratch buffers are well shaped. -/
def DContext.ScratchWF (ctx : DContext T) : Prop := ctx.val.WF ∧ ctx.der.WF

theorem Buf.ensure_shape (b : Buf T) (r c : Nat) (hb : b.WF) :
    (b.ensure r c).nrows = r ∧ (b.ensure r c).ncols = c ∧ (b.ensure r c).data.length = r * c := by
  unfold Buf.ensure
  split
  · simp [Buf.zeros]
  · next h =>
    have h1 : b.nrows = r := Decidable.byContradiction fun x => h (Or.inl x)
    have h2 : b.ncols = c := Decidable.byContradiction fun x => h (Or.inr x)
    refine ⟨h1, h2, ?_⟩
    rw [← h1, ← h2]; exact hb

/-- The cache is coherent with an expression: either a recompilation is triggered or the stored plan
is the expression's plan. -/
def DContext.Coherent (hash : List PNode → UInt64) (D : Nat) (ctx : DContext T) (e : PostfixExpr T)
    (X : Mat T) : Prop :=
  ctx.needsRecompile hash e X = true ∨
    ctx.plan = compilePlan hash D e.nodes X.rows e.consts.length

theorem DContext.setup_ok {hash : List PNode → UInt64} {D : Nat} {ctx : DContext T}
    {e : PostfixExpr T} {X : Mat T} (m : Nat) {plan : EvalPlan}
    (hp : compilePlan hash D e.nodes X.rows e.consts.length = some plan)
    (hplan : ctx.Coherent hash D e X) (hwf : ctx.ScratchWF) :
    ∃ ctx1, ctx.setup hash D e X m = some (plan, ctx1) ∧ ctx1.plan = some plan ∧
      ctx1.nRows = ctx.nRows ∧
      (ctx1.val.nrows = plan.nSlots ∧ ctx1.val.ncols = ctx.nRows ∧
        ctx1.val.data.length = plan.nSlots * ctx.nRows) ∧
      (ctx1.der.nrows = plan.nSlots ∧ ctx1.der.ncols = m ∧
        ctx1.der.data.length = plan.nSlots * m) ∧
      (ctx.needsRecompile hash e X = true →
        ctx1.planNodesLen = e.nodes.length ∧ ctx1.planNConsts = e.consts.length ∧
        ctx1.planNFeatures = X.rows) ∧
      (ctx.needsRecompile hash e X = false →
        ctx1.planNodesLen = ctx.planNodesLen ∧ ctx1.planNConsts = ctx.planNConsts ∧
        ctx1.planNFeatures = ctx.planNFeatures) := by
  unfold DContext.setup
  rcases Bool.eq_false_or_eq_true (ctx.needsRecompile hash e X) with hn | hn
  · rw [if_pos hn, hp]
    exact ⟨_, rfl, rfl, rfl, Buf.ensure_shape _ _ _ hwf.1, Buf.ensure_shape _ _ _ hwf.2,
      fun _ => ⟨rfl, rfl, rfl⟩, fun h => by rw [hn] at h; simp at h⟩
  · rw [if_neg (by simp [hn])]
    rcases hplan with h | h
    · rw [hn] at h; simp at h
    · rw [hp] at h
      rw [h]
      exact ⟨_, rfl, h, rfl, Buf.ensure_shape _ _ _ hwf.1, Buf.ensure_shape _ _ _ hwf.2,
        fun h => (by rw [hn] at h; simp at h), fun _ => ⟨rfl, rfl, rfl⟩⟩

/-- The flag the directional-derivative evaluator should return. -/
def dflagSpec (ops : OpSet T) (X : Mat T) (consts : List T) (dir : Nat) (opts : EvalOptions)
    (t : Tree) : Bool :=
  !opts.checkFinite || (t.subtrees.all (nodeDFin ops X consts dir) && rootFin consts t)

theorem all_or_left (b : Bool) (l : List Tree) (f : Tree → Bool) (hl : l ≠ []) :
    l.all (fun s => b || f s) = (b || l.all f) := by
  cases b <;> simp

theorem evalDiffTreeArray_correct [ZeroLaws T] (ops : OpSet T) (hash : List PNode → UInt64) {D : Nat}
    {t : Tree} (X : Mat T) (e : PostfixExpr T) (dir : Nat) (opts : EvalOptions) (ctx : DContext T)
    (hnodes : e.nodes = t.toPostfix) (hwf : t.WF ops D X.rows e.consts.length)
    (hnf : X.rows ≤ u16Max) (hnc : e.consts.length ≤ u16Max) (hops : t.numOps ≤ u16Max)
    (hdir : dir < X.rows) (hrows : ctx.nRows = X.cols) (hscr : ctx.ScratchWF)
    (hcoh : ctx.Coherent hash D e X) :
    ∃ ctx', evalDiffTreeArray ops hash D e X dir ctx opts
      = some (if opts.earlyExit && !dflagSpec ops X e.consts dir opts t then
            List.replicate X.cols Scalar.nan
          else (List.range X.cols).map fun r => rowEval ops X e.consts r t,
        if opts.earlyExit && !dflagSpec ops X e.consts dir opts t then
            List.replicate X.cols Scalar.nan
          else (List.range X.cols).map fun r => rowDeriv ops X e.consts dir r t,
        dflagSpec ops X e.consts dir opts t, ctx') ∧
      ctx'.ScratchWF ∧ ctx'.nRows = X.cols ∧
      ctx'.plan = compilePlan hash D e.nodes X.rows e.consts.length ∧ ctx'.plan.isSome ∧
      (ctx.needsRecompile hash e X = true →
        ctx'.planNodesLen = e.nodes.length ∧ ctx'.planNConsts = e.consts.length ∧
        ctx'.planNFeatures = X.rows) ∧
      (ctx.needsRecompile hash e X = false →
        ctx'.planNodesLen = ctx.planNodesLen ∧ ctx'.planNConsts = ctx.planNConsts ∧
        ctx'.planNFeatures = ctx.planNFeatures) := by
  obtain ⟨plan, hplan, _⟩ :=
    compilePlan_of_lawful (diffLawful ops X e.consts dir opts 0) hash hwf hnf hnc hops
  obtain ⟨plan', hplan', _, _, _, hrv, hrc, hexec⟩ :=
    compilePlan_of_lawful (diffLawful ops X e.consts dir opts plan.nSlots) hash hwf hnf hnc hops
  rw [hplan] at hplan'
  simp only [Option.some.injEq] at hplan'
  subst hplan'
  rw [← hnodes] at hplan
  have hargs := compilePlan_args hplan
  obtain ⟨ctx1, hset, hpl1, hnr1, ⟨hv1, hv2, hv3⟩, ⟨hd1, hd2, hd3⟩, hl1, hl2⟩ :=
    DContext.setup_ok X.cols hplan hcoh hscr
  rw [hrows] at hv2 hv3 hnr1
  simp only [evalDiffTreeArray]
  rw [if_pos ⟨hdir, hrows⟩, hrows, hset]
  simp only
  have hx := hexec (ctx1.val.data, ctx1.der.data) (Nat.le_refl _) ⟨hv3, hd3⟩
  obtain ⟨hok, hden⟩ := diff_den ops X e.consts dir opts plan.nSlots t
  rw [show (pairMachine SrcRef.slice X.cols X.cols plan.nSlots (diffAVar X dir)
    (diffAConst e.consts) (diffKern ops X opts) opts.earlyExit).early = opts.earlyExit from rfl] at hx
  have hne : t.subtrees ≠ [] := by
    intro h
    have := length_subtrees t
    rw [h] at this
    have := Tree.size_pos t
    simp at *; omega
  rw [all_or_left _ _ _ hne] at hok
  have hwfs : ∀ s : List T × List T, s.1.length = plan.nSlots * X.cols ∧ s.2.length = plan.nSlots * X.cols →
      (({ ctx1 with val := { ctx1.val with data := s.1 }, der := { ctx1.der with data := s.2 } } :
        DContext T)).ScratchWF := by
    intro s hs
    refine ⟨?_, ?_⟩
    · change s.1.length = ctx1.val.nrows * ctx1.val.ncols
      rw [hv1, hv2]; exact hs.1
    · change s.2.length = ctx1.der.nrows * ctx1.der.ncols
      rw [hd1, hd2]; exact hs.2
  by_cases hex : (opts.earlyExit && !(diffLawful ops X e.consts dir opts plan.nSlots).okAll t) = true
  · rw [if_pos hex] at hx
    obtain ⟨s', hg, he⟩ := hx
    rw [diffLoop_run ops X e.consts dir opts hargs true ⟨hv3, hd3⟩ _ he]
    simp only [Bool.and_eq_true, Bool.not_eq_true'] at hex
    rw [hok] at hex
    have hflag : dflagSpec ops X e.consts dir opts t = false := by
      have h2 := hex.2
      simp only [Bool.or_eq_false_iff, Bool.not_eq_false'] at h2
      simp [dflagSpec, h2.1, h2.2]
    refine ⟨_, by simp [hflag, hex.1], hwfs s' hg, hnr1, by rw [hplan]; exact hpl1,
      by simp [hpl1], hl1, hl2⟩
  · rw [if_neg hex] at hx
    obtain ⟨s', hg, he, hroot⟩ := hx
    rw [diffLoop_run ops X e.consts dir opts hargs true ⟨hv3, hd3⟩ _ he]
    have hden' : (diffLawful ops X e.consts dir opts plan.nSlots).den t = idealD ops X e.consts dir t := by
      apply hden
      simp only [Bool.and_eq_true, Bool.not_eq_true', not_and, Bool.not_eq_false] at hex
      rcases Bool.eq_false_or_eq_true opts.earlyExit with h | h
      · exact Or.inl (hex h)
      · exact Or.inr h
    rw [hden'] at hroot
    simp only
    refine ⟨{ ctx1 with val := { ctx1.val with data := s'.1 }, der := { ctx1.der with data := s'.2 } },
      ?_, hwfs s' hg, hnr1, by rw [hplan]; exact hpl1, by simp [hpl1], hl1, hl2⟩
    cases hrt : plan.root with
    | var f =>
      have ht := (hrv f).mp hrt
      subst ht
      have hf : f < X.rows := by simpa [Tree.WF] using hwf
      have hfl : dflagSpec ops X e.consts dir opts (.var f) = true := by
        simp [dflagSpec, nodeDFin, rootFin]
      have hok' : (diffLawful ops X e.consts dir opts plan.nSlots).okAll (.var f) = true := by simp
      simp only [hfl, hok', Bool.not_true, Bool.and_false, Bool.false_eq_true, ↓reduceIte,
        Mat.data_slice X f hf, Option.map_some]
      simp [rowEval, rowDeriv, oneHot, replicate_range]
    | const c =>
      have ht := (hrc c).mp hrt
      subst ht
      have hc' : c < e.consts.length := by simpa [Tree.WF] using hwf
      have hget : e.consts[c]? = some (constAt e.consts c) := by simp [constAt, hc']
      have hfl : dflagSpec ops X e.consts dir opts (.const c)
          = (!opts.checkFinite || Scalar.isFinite (constAt e.consts c)) := by
        simp [dflagSpec, nodeDFin, rootFin]
      have hok' : (diffLawful ops X e.consts dir opts plan.nSlots).okAll (.const c) = true := by simp
      simp only [hget, hok', hfl]
      rcases Bool.eq_false_or_eq_true opts.checkFinite with h1 | h1 <;>
      rcases Bool.eq_false_or_eq_true opts.earlyExit with h2 | h2 <;>
      rcases Bool.eq_false_or_eq_true (Scalar.isFinite (constAt e.consts c)) with h3 | h3 <;>
        simp [h1, h2, h3, replicate_range, rowEval, rowDeriv, noSeed]
    | slot k =>
      rw [hrt] at hroot
      simp only [Machine.srcVal, pairMachine, Option.bind_eq_some_iff, Option.map_eq_some_iff] at hroot
      obtain ⟨v, hv, d, hd, hvd⟩ := hroot
      have hop : rootFin e.consts t = true ∧ idealD ops X e.consts dir t
          = (.slice ((List.range X.cols).map fun r => rowEval ops X e.consts r t),
             .slice ((List.range X.cols).map fun r => rowDeriv ops X e.consts dir r t)) := by
        cases t with
        | var f => exact absurd ((hrv f).mpr rfl) (by rw [hrt]; simp)
        | const f => exact absurd ((hrc f).mpr rfl) (by rw [hrt]; simp)
        | op o ts => exact ⟨rfl, rfl⟩
      have hfl : dflagSpec ops X e.consts dir opts t
          = (diffLawful ops X e.consts dir opts plan.nSlots).okAll t := by
        rw [hok]; simp [dflagSpec, hop.1]
      rw [hop.2] at hvd
      simp only [Prod.mk.injEq, SrcRef.slice.injEq] at hvd
      simp only [hv, hd, Option.bind_some, Option.map_some, hfl]
      rw [if_neg hex, if_neg hex, hvd.1, hvd.2]

end SR
