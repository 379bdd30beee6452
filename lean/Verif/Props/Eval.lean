import Verif.Proofs.EvalCorrect
import Verif.Spec.Plan
import Mathlib.Data.Fintype.Pigeonhole
/-
Properties C03-C06: compilation and evaluation of expressions.
-/
namespace SR
variable {T : Type} [Scalar T]

/-! ## C03 -/

/-- The limits the code imposes through `u16` indices: feature and constant counts fit, and there are
at most 65535 operator nodes (a sufficient condition for the register counter not to overflow). -/
def InLimits (nf nc : Nat) (t : Tree) : Prop := nf ≤ u16Max ∧ nc ≤ u16Max ∧ t.numOps ≤ u16Max

/-- C03: evaluating a well-formed expression never panics, and unless the evaluation was abandoned
(flag false under early exit) the output at every row is the recursive meaning of the tree on that
row.  `T`, the operators, the data and the options are arbitrary. -/
theorem C03_eval_correct (ops : OpSet T) (hash : List PNode → UInt64) (D : Nat) (t : Tree)
    (X : Mat T) (consts : List T) (opts : EvalOptions)
    (hwf : t.WF ops D X.rows consts.length) (hlim : InLimits X.rows consts.length t) :
    ∃ out flag, evalTreeArray ops hash D ⟨t.toPostfix, consts⟩ X opts = some (out, flag) ∧
      out.length = X.cols ∧
      (flag = true ∨ opts.earlyExit = false → ∀ r, r < X.cols →
        out[r]? = some (t.eval ops (fun f => X.at' f r) (constAt consts))) := by
  obtain ⟨out, ctx, h, _, _, _, _, _, _, ho⟩ := evalTreeArrayInto_correct ops hash X
    ⟨t.toPostfix, consts⟩ opts (EvalContext.new X.cols) (List.replicate X.cols Scalar.zero) rfl hwf
    hlim.1 hlim.2.1 hlim.2.2 (by simp) rfl (by simp [EvalContext.ScratchWF, EvalContext.new])
    (Or.inl rfl)
  refine ⟨out, _, by simp [evalTreeArray, h]; rfl, ?_, ?_⟩
  · rw [ho]; split <;> simp [colSpec]
  · intro hf r hr
    rw [ho, if_neg (by rcases hf with hf | hf <;> simp [hf])]
    simp [colSpec, hr, rowEval]

/-- C03, buffer-reusing entry point: the result is the same from every context with the right row count
that holds no plan yet, whatever its (well-shaped) scratch buffer contains, and does not depend on the
previous contents of the caller's output buffer. -/
theorem C03_eval_into_correct (ops : OpSet T) (hash : List PNode → UInt64) (D : Nat) (t : Tree)
    (X : Mat T) (consts : List T) (opts : EvalOptions) (ctx : EvalContext T) (out : List T)
    (hwf : t.WF ops D X.rows consts.length) (hlim : InLimits X.rows consts.length t)
    (hout : out.length = X.cols) (hctx : ctx.nRows = X.cols) (hplan : ctx.plan = none)
    (hscr : ∀ b, ctx.scratch = some b → b.data.length = b.nrows * b.ncols) :
    ∃ out' flag ctx', evalTreeArrayInto ops hash D out ⟨t.toPostfix, consts⟩ X ctx opts
        = some (out', flag, ctx') ∧
      (flag = true ∨ opts.earlyExit = false → out' =
        (List.range X.cols).map fun r => t.eval ops (fun f => X.at' f r) (constAt consts)) ∧
      (flag = false ∧ opts.earlyExit = true → out' = out) := by
  obtain ⟨out', ctx', h, _, _, _, _, _, _, ho⟩ := evalTreeArrayInto_correct ops hash X
    ⟨t.toPostfix, consts⟩ opts ctx out rfl hwf
    hlim.1 hlim.2.1 hlim.2.2 hout hctx hscr
    (Or.inl (by simp [EvalContext.needsRecompile, hplan]))
  refine ⟨out', _, ctx', h, ?_, ?_⟩
  · intro hf
    rw [ho, if_neg (by rcases hf with hf | hf <;> simp [hf])]
    rfl
  · rintro ⟨hf, he⟩
    rw [ho, if_pos (by simp [hf, he])]

/-! ## C04 -/

/-- Specification of the flag's meaning: every operator application in the tree gives a finite value on
each of the `n` rows. -/
def AllOpsFinite (ops : OpSet T) (X : Mat T) (consts : List T) (t : Tree) : Prop :=
  ∀ o ts, Tree.op o ts ∈ t.subtrees → ∀ r, r < X.cols →
    Scalar.isFinite (Tree.eval ops (fun f => X.at' f r) (constAt consts) (.op o ts)) = true

/-- A root that is a bare constant is finite. -/
def ConstRootFinite (consts : List T) (t : Tree) : Prop :=
  ∀ c, t = .const c → Scalar.isFinite (constAt consts c) = true

theorem treeFin_iff (ops : OpSet T) (X : Mat T) (consts : List T) (t : Tree) (hpos : 0 < X.cols) :
    treeFin ops X consts X.cols t = true ↔ AllOpsFinite ops X consts t := by
  simp only [treeFin, List.all_eq_true, AllOpsFinite]
  constructor
  · intro h o ts hm r hr
    have := h _ hm
    simp only [nodeFin] at this
    split at this
    · next hc =>
      have e : rowEval ops X consts r (.op o ts) = rowEval ops X consts 0 (.op o ts) := by
        rw [rowEval_op, rowEval_op]
        congr 1
        apply List.map_congr_left
        intro u hu
        have := List.all_eq_true.mp hc u hu
        cases u with
        | const c => simp [rowEval]
        | var f => simp [isConstLeaf] at this
        | op _ _ => simp [isConstLeaf] at this
      change Scalar.isFinite (rowEval ops X consts r (.op o ts)) = true
      rw [e]; exact this
    · simp only [List.all_eq_true, List.mem_range] at this
      exact this r hr
  · intro h s hs
    cases s with
    | var f => rfl
    | const c => rfl
    | op o ts =>
      simp only [nodeFin]
      split
      · exact h o ts hs 0 hpos
      · simp only [List.all_eq_true, List.mem_range]
        exact fun r hr => h o ts hs r hr

theorem rootFin_iff (consts : List T) (t : Tree) :
    rootFin consts t = true ↔ ConstRootFinite consts t := by
  cases t <;> simp [rootFin, ConstRootFinite]

/-- C04: with finite checking, the flag is true exactly when every operator application is finite on
every row and a bare-constant root is finite - whatever `early_exit` is; without finite checking it is
always true. -/
theorem C04_flag (ops : OpSet T) (hash : List PNode → UInt64) (D : Nat) (t : Tree)
    (X : Mat T) (consts : List T) (opts : EvalOptions)
    (hwf : t.WF ops D X.rows consts.length) (hlim : InLimits X.rows consts.length t)
    (hrows : 0 < X.cols) :
    ∃ out flag, evalTreeArray ops hash D ⟨t.toPostfix, consts⟩ X opts = some (out, flag) ∧
      (opts.checkFinite = false → flag = true) ∧
      (opts.checkFinite = true →
        (flag = true ↔ AllOpsFinite ops X consts t ∧ ConstRootFinite consts t)) := by
  obtain ⟨out, ctx, h, _⟩ := evalTreeArrayInto_correct ops hash X
    ⟨t.toPostfix, consts⟩ opts (EvalContext.new X.cols) (List.replicate X.cols Scalar.zero) rfl hwf
    hlim.1 hlim.2.1 hlim.2.2 (by simp) rfl (by simp [EvalContext.ScratchWF, EvalContext.new])
    (Or.inl rfl)
  refine ⟨out, flagSpec ops X consts opts t, by simp [evalTreeArray, h], ?_, ?_⟩
  · intro hc; simp [flagSpec, hc]
  · intro hc
    simp only [flagSpec, hc, Bool.not_true, Bool.false_or, Bool.and_eq_true]
    rw [treeFin_iff ops X consts t hrows, rootFin_iff]

/-- C04: the flag does not depend on `early_exit` (any number of rows, including none), and when it is
true the output does not either. -/
theorem C04_early_exit_irrelevant (ops : OpSet T) (hash : List PNode → UInt64) (D : Nat) (t : Tree)
    (X : Mat T) (consts : List T) (cf e1 e2 : Bool)
    (hwf : t.WF ops D X.rows consts.length) (hlim : InLimits X.rows consts.length t)
    (out1 out2 : List T) (f1 f2 : Bool)
    (h1 : evalTreeArray ops hash D ⟨t.toPostfix, consts⟩ X ⟨cf, e1⟩ = some (out1, f1))
    (h2 : evalTreeArray ops hash D ⟨t.toPostfix, consts⟩ X ⟨cf, e2⟩ = some (out2, f2)) :
    f1 = f2 ∧ (f1 = true → out1 = out2) := by
  have key : ∀ (e : Bool) out f,
      evalTreeArray ops hash D ⟨t.toPostfix, consts⟩ X ⟨cf, e⟩ = some (out, f) →
      f = flagSpec ops X consts ⟨cf, true⟩ t ∧ (f = true → out = colSpec ops X consts t) := by
    intro e out f hh
    obtain ⟨out', ctx, h, _, _, _, _, _, _, ho⟩ := evalTreeArrayInto_correct ops hash X
      ⟨t.toPostfix, consts⟩ ⟨cf, e⟩ (EvalContext.new X.cols) (List.replicate X.cols Scalar.zero) rfl
      hwf hlim.1 hlim.2.1 hlim.2.2 (by simp) rfl
      (by simp [EvalContext.ScratchWF, EvalContext.new]) (Or.inl rfl)
    simp only [evalTreeArray, h, Option.map_some, Option.some.injEq, Prod.mk.injEq] at hh
    refine ⟨hh.2.symm, ?_⟩
    intro hf
    rw [← hh.1, ho, if_neg]
    rw [hh.2]; simp [hf]
  obtain ⟨a1, b1⟩ := key e1 out1 f1 h1
  obtain ⟨a2, b2⟩ := key e2 out2 f2 h2
  refine ⟨a1.trans a2.symm, fun h => ?_⟩
  rw [b1 h, b2 (by rw [a2, ← a1]; exact h)]

/-! ## C05 -/

/-- The symbolic slot machine. -/
def symMachine (N : Nat) : Machine (Nat → Option Tree) Tree Tree where
  N := N
  read s k := s k
  write s d p := fun k => if k = d then some p else s k
  aVar f := some (.var f)
  aConst c := some (.const c)
  kern a o args := if args.length = a then some (.op o args, true) else none
  early := false

def symLawful (N nf nc : Nat) (known : Nat → Nat → Bool) : (symMachine N).Lawful nf nc known where
  Good _ := True
  AGood _ := True
  PGood _ := True
  toA := id
  vA := .var
  cA := .const
  K _ o args := (.op o args, true)
  hvar _ _ := ⟨rfl, trivial⟩
  hconst _ _ := ⟨rfl, trivial⟩
  hkern a o args h _ _ _ := by simp [symMachine, h]
  htoA _ _ := trivial
  hgood _ _ _ _ _ _ := trivial
  hsame s d p _ _ _ := by simp [symMachine]
  hne s d p k _ _ _ h := by simp [symMachine, h]

theorem symLawful_den {N nf nc : Nat} {known : Nat → Nat → Bool} (t : Tree) :
    (symLawful N nf nc known).den t = t ∧ (symLawful N nf nc known).okAll t = true := by
  induction t using Tree.ind with
  | hv f => exact ⟨rfl, by simp⟩
  | hc f => exact ⟨rfl, by simp⟩
  | ho o ts ih =>
    have : ts.map (symLawful N nf nc known).den = ts := by
      conv => rhs; rw [← List.map_id ts]
      exact List.map_congr_left fun t ht => (ih t ht).1
    constructor
    · rw [Machine.Lawful.den_op, this]; rfl
    · rw [Machine.Lawful.okAll_op]
      simp only [Bool.and_eq_true, List.all_eq_true]
      exact ⟨fun t ht => (ih t ht).2, rfl⟩

theorem mapM_length {α β : Type} {f : α → Option β} {l : List α} {l' : List β}
    (h : l.mapM f = some l') : l'.length = l.length := by
  induction l generalizing l' with
  | nil => simp at h; subst h; rfl
  | cons a l ih =>
    simp only [List.mapM_cons, Option.bind_eq_bind, Option.bind_eq_some_iff, Option.pure_def,
      Option.some.injEq] at h
    obtain ⟨b, _, bs, hbs, rfl⟩ := h
    simp [ih hbs]

theorem symRun_of_exec {N : Nat} (is : List Instr) : ∀ (s s' : Nat → Option Tree) (c c' : Bool),
    (symMachine N).exec is s c = some (.done s' c') → symRun N is s = some s' := by
  induction is with
  | nil => intro s s' c c' h; simp [Machine.exec] at h; simp [symRun, h.1]
  | cons i is ih =>
    intro s s' c c' h
    simp only [Machine.exec, Machine.step] at h
    by_cases hd : i.dst < N
    · rw [if_pos (by exact hd)] at h
      have hr : i.args.mapM ((symMachine N).resolve s i.dst) = i.args.mapM (symArg s i.dst) := by
        apply mapM_option_congr
        intro a _
        cases a <;> rfl
      rw [hr] at h
      cases hm : i.args.mapM (symArg s i.dst) with
      | none => rw [hm] at h; simp at h
      | some ts =>
        rw [hm] at h
        simp only [symMachine] at h
        by_cases hl : ts.length = i.arity
        · simp only [hl, ↓reduceIte, Bool.not_true, Bool.and_false, Bool.false_eq_true] at h
          simp only [symRun, hm]
          rw [if_pos ⟨hd, by rw [← mapM_length hm, hl]⟩]
          exact ih _ _ _ _ h
        · simp [hl] at h
    · rw [if_neg (by exact hd)] at h; simp at h

/-- C05: compiling a well-formed expression never panics; the plan uses at most as many registers as
there are operator nodes and exactly one instruction per operator; and executing it symbolically from
an unwritten register file - where reading an unwritten or out-of-range register, reading the register
being written, or writing out of range are errors - succeeds and yields exactly the source tree. -/
theorem C05_plan_safe (ops : OpSet T) (hash : List PNode → UInt64) (D nf nc : Nat) (t : Tree)
    (hwf : t.WF ops D nf nc) (hlim : InLimits nf nc t) :
    ∃ plan, compilePlan hash D t.toPostfix nf nc = some plan ∧
      plan.nSlots ≤ t.numOps ∧ plan.instrs.length = t.numOps ∧
      symPlan plan = some t := by
  obtain ⟨plan, hp, _⟩ := compilePlan_of_lawful (symLawful 0 nf nc ops.known) hash hwf hlim.1
    hlim.2.1 hlim.2.2
  obtain ⟨plan', hp', _, hn, hl, _, _, hex⟩ :=
    compilePlan_of_lawful (symLawful plan.nSlots nf nc ops.known) hash hwf hlim.1 hlim.2.1 hlim.2.2
  rw [hp] at hp'
  simp only [Option.some.injEq] at hp'
  subst hp'
  refine ⟨plan, hp, hn, hl, ?_⟩
  have := hex (fun _ => none) (Nat.le_refl _) trivial
  obtain ⟨hden, hok⟩ := symLawful_den (N := plan.nSlots) (nf := nf) (nc := nc) (known := ops.known) t
  rw [hok, hden] at this
  simp only [Bool.not_true, Bool.and_false, Bool.false_eq_true, ↓reduceIte] at this
  obtain ⟨s', _, he, hr⟩ := this
  simp only [symPlan, symRun_of_exec _ _ _ _ _ he]
  cases hroot : plan.root with
  | var f => rw [hroot] at hr; simpa [Machine.srcVal, symMachine] using hr
  | const f => rw [hroot] at hr; simpa [Machine.srcVal, symMachine] using hr
  | slot k => rw [hroot] at hr; simpa [Machine.srcVal, symMachine] using hr

/-- C05, malformed input: compilation panics on every node list that is not the serialisation of a
well-formed tree (so a plan is never produced for garbage). -/
theorem C05_compile_rejects (hash : List PNode → UInt64) (D nf nc : Nat) (nodes : List PNode)
    (plan : EvalPlan) (h : compilePlan hash D nodes nf nc = some plan) :
    ∃ t : Tree, nodes = t.toPostfix ∧
      Tree.All (· < nf) (· < nc) (fun _ a => 1 ≤ a ∧ a ≤ D) t := by
  unfold compilePlan at h
  split at h
  · cases hr : nodes.foldlM (compileStep D nf nc)
        { stack := [], instrs := [], free := [], next := 0, maxSlot := 0 } with
    | none => simp [hr] at h
    | some cs =>
      -- the compiler's stack has the shape of the tree stack
      have key : ∀ (ns : List PNode) (cs cs' : CompState) (ts : List Tree),
          cs.stack.length = ts.length →
          (∀ t ∈ ts, Tree.All (· < nf) (· < nc) (fun _ a => 1 ≤ a ∧ a ≤ D) t) →
          ns.foldlM (compileStep D nf nc) cs = some cs' →
          ∃ ts', ns.foldlM treeStep ts = some ts' ∧ cs'.stack.length = ts'.length ∧
            ∀ t ∈ ts', Tree.All (· < nf) (· < nc) (fun _ a => 1 ≤ a ∧ a ≤ D) t := by
        intro ns
        induction ns with
        | nil =>
          intro cs cs' ts hl ha h
          simp at h; subst h
          exact ⟨ts, by simp, hl, ha⟩
        | cons n ns ih =>
          intro cs cs' ts hl ha h
          simp only [List.foldlM_cons, Option.bind_eq_bind, Option.bind_eq_some_iff] at h
          obtain ⟨cs1, h1, h2⟩ := h
          cases n with
          | var f =>
            simp only [compileStep] at h1
            split at h1
            · next hf =>
              simp only [Option.some.injEq] at h1
              subst h1
              obtain ⟨ts', e1, e2, e3⟩ := ih _ cs' (.var f :: ts) (by simp [hl]) (by
                intro t ht
                rcases List.mem_cons.mp ht with h | h
                · subst h; simpa using hf
                · exact ha t h) h2
              exact ⟨ts', by simpa [treeStep] using e1, e2, e3⟩
            · simp at h1
          | const f =>
            simp only [compileStep] at h1
            split at h1
            · next hf =>
              simp only [Option.some.injEq] at h1
              subst h1
              obtain ⟨ts', e1, e2, e3⟩ := ih _ cs' (.const f :: ts) (by simp [hl]) (by
                intro t ht
                rcases List.mem_cons.mp ht with h | h
                · subst h; simpa using hf
                · exact ha t h) h2
              exact ⟨ts', by simpa [treeStep] using e1, e2, e3⟩
            · simp at h1
          | op a o =>
            simp only [compileStep] at h1
            split at h1
            · next hA =>
              split at h1
              · next hle =>
                split at h1
                · simp at h1
                · simp only [Option.some.injEq] at h1
                  subst h1
                  obtain ⟨ts', e1, e2, e3⟩ := ih _ cs' (.op o (ts.take a).reverse :: ts.drop a)
                    (by simp [hl]) (by
                    intro t ht
                    rcases List.mem_cons.mp ht with h | h
                    · subst h
                      simp only [Tree.all_op, List.length_reverse, List.length_take,
                        List.mem_reverse]
                      rw [Nat.min_eq_left (by omega)]
                      exact ⟨hA, fun t ht => ha t (List.mem_of_mem_take ht)⟩
                    · exact ha t (List.mem_of_mem_drop h)) h2
                  refine ⟨ts', ?_, e2, e3⟩
                  simp only [List.foldlM_cons, treeStep]
                  rw [if_pos (by omega)]
                  simpa using e1
              · simp at h1
            · simp at h1
      obtain ⟨ts', e1, e2, e3⟩ := key nodes _ cs [] rfl (by simp) hr
      simp only [hr] at h
      split at h
      · next root hroot =>
        rw [hroot] at e2
        obtain ⟨t, rfl⟩ := List.length_eq_one_iff.mp e2.symm
        exact ⟨t, treeRun_singleton.mp e1, e3 t (by simp)⟩
      · simp at h
  · simp at h

/-! ## C06 -/

/-- One evaluation request through a context. -/
structure Job (T : Type) where
  expr : PostfixExpr T
  X : Mat T
  opts : EvalOptions
  out : List T

/-- A job the API accepts: a well-formed expression within limits and buffers of the right length. -/
def Job.OK (ops : OpSet T) (D nRows : Nat) (j : Job T) : Prop :=
  j.X.cols = nRows ∧ j.out.length = nRows ∧
  ∃ t : Tree, j.expr.nodes = t.toPostfix ∧ t.WF ops D j.X.rows j.expr.consts.length ∧
    InLimits j.X.rows j.expr.consts.length t

/-- Run a history of jobs through one context, collecting the results. -/
def runHistory (ops : OpSet T) (hash : List PNode → UInt64) (D : Nat) :
    EvalContext T → List (Job T) → List (Option (List T × Bool))
  | _, [] => []
  | ctx, j :: js =>
    match evalTreeArrayInto ops hash D j.out j.expr j.X ctx j.opts with
    | none => none :: runHistory ops hash D ctx js
    | some (out, flag, ctx') => some (out, flag) :: runHistory ops hash D ctx' js

/-- The result of a job in a fresh context. -/
def runFresh (ops : OpSet T) (hash : List PNode → UInt64) (D : Nat) (j : Job T) :
    Option (List T × Bool) :=
  (evalTreeArrayInto ops hash D j.out j.expr j.X (EvalContext.new j.X.cols) j.opts).map
    fun r => (r.1, r.2.1)

/-- C06: if the node hash has no collision among the expressions of the history (of equal
length), every evaluation through the shared context gives exactly the result of a fresh context.
Missing for the full property: the no-collision hypothesis; `C06_collision_counterexample` shows the
property is false of the code without it. -/
theorem C06_context_reuse (ops : OpSet T) (hash : List PNode → UInt64) (D nRows : Nat)
    (jobs : List (Job T)) (hok : ∀ j ∈ jobs, j.OK ops D nRows)
    (hinj : ∀ a ∈ jobs, ∀ b ∈ jobs, a.expr.nodes.length = b.expr.nodes.length →
      hash a.expr.nodes = hash b.expr.nodes → a.expr.nodes = b.expr.nodes) :
    runHistory ops hash D (EvalContext.new nRows) jobs = jobs.map (runFresh ops hash D) := by
  -- invariant: the context holds either no plan or the plan of a job of the history
  have main : ∀ (rest : List (Job T)) (ctx : EvalContext T), (∀ j ∈ rest, j ∈ jobs) →
      ctx.nRows = nRows → ctx.ScratchWF →
      (ctx.plan = none ∨ ∃ j ∈ jobs, ctx.plan.isSome ∧
        ctx.plan = compilePlan hash D j.expr.nodes ctx.planNFeatures ctx.planNConsts ∧
        ctx.planNodesLen = j.expr.nodes.length) →
      runHistory ops hash D ctx rest = rest.map (runFresh ops hash D) := by
    intro rest
    induction rest with
    | nil => intro ctx _ _ _ _; simp [runHistory]
    | cons j rest ih =>
      intro ctx hsub hrow hscr hplan
      obtain ⟨hc, ho, t, hn, hwf, hlim⟩ := hok j (hsub j (by simp))
      -- fresh result
      obtain ⟨o1, c1, e1, _, _, _, _, _, _, ho1⟩ := evalTreeArrayInto_correct ops hash j.X j.expr
        j.opts (EvalContext.new j.X.cols) j.out hn hwf hlim.1 hlim.2.1 hlim.2.2 (by omega) rfl
        (by simp [EvalContext.ScratchWF, EvalContext.new]) (Or.inl rfl)
      -- shared result
      have hpl : ctx.needsRecompile hash j.expr j.X = true ∨
          ctx.plan = compilePlan hash D j.expr.nodes j.X.rows j.expr.consts.length := by
        rcases Bool.eq_false_or_eq_true (ctx.needsRecompile hash j.expr j.X) with h | h
        · exact Or.inl h
        · right
          unfold EvalContext.needsRecompile at h
          rcases hplan with hp | ⟨j', hj', hsome, hp, hlen⟩
          · simp [hp] at h
          · obtain ⟨p, hpp⟩ := Option.isSome_iff_exists.mp hsome
            simp only [hpp] at h
            split at h
            · simp at h
            · next hne =>
              have h1 : ctx.planNodesLen = j.expr.nodes.length :=
                Decidable.byContradiction fun h => hne (Or.inl h)
              have h2 : ctx.planNConsts = j.expr.consts.length :=
                Decidable.byContradiction fun h => hne (Or.inr (Or.inl h))
              have h3 : ctx.planNFeatures = j.X.rows :=
                Decidable.byContradiction fun h => hne (Or.inr (Or.inr h))
              have hhash : p.hash = hash j'.expr.nodes := by
                rw [hpp] at hp
                unfold compilePlan at hp
                split at hp
                · split at hp
                  · simp at hp
                  · split at hp
                    · simp only [Option.some.injEq] at hp; rw [hp]
                    · simp at hp
                · simp at hp
              have hh : hash j'.expr.nodes = hash j.expr.nodes := by
                rw [← hhash]; simpa using h
              have := hinj j' hj' j (hsub j (by simp)) (by omega) hh
              rw [hp, this, h2, h3]
      obtain ⟨o2, c2, e2, hs2, hr2, hp2, hsome2, hl2, hl2', ho2⟩ :=
        evalTreeArrayInto_correct ops hash j.X j.expr
        j.opts ctx j.out hn hwf hlim.1 hlim.2.1 hlim.2.2 (by omega) (by omega) hscr hpl
      simp only [runHistory, e2, List.map_cons]
      have hlens : c2.planNodesLen = j.expr.nodes.length ∧ c2.planNConsts = j.expr.consts.length ∧
          c2.planNFeatures = j.X.rows := by
        rcases Bool.eq_false_or_eq_true (ctx.needsRecompile hash j.expr j.X) with h | h
        · exact hl2 h
        · have h' := h
          unfold EvalContext.needsRecompile at h'
          obtain ⟨a, b, c⟩ := hl2' h
          split at h'
          · simp at h'
          · split at h'
            · simp at h'
            · next hne =>
              refine ⟨a.trans ?_, b.trans ?_, c.trans ?_⟩
              · exact Decidable.byContradiction fun h => hne (Or.inl h)
              · exact Decidable.byContradiction fun h => hne (Or.inr (Or.inl h))
              · exact Decidable.byContradiction fun h => hne (Or.inr (Or.inr h))
      rw [ih c2 (fun x hx => hsub x (by simp [hx])) (by omega) hs2
        (Or.inr ⟨j, hsub j (by simp), hsome2, by rw [hp2, hlens.2.1, hlens.2.2], hlens.1⟩)]
      congr 1
      simp only [runFresh, e1, Option.map_some, ho1, ho2]
  exact main jobs (EvalContext.new nRows) (fun _ h => h) rfl
    (by simp [EvalContext.ScratchWF, EvalContext.new]) (Or.inl rfl)

/-! ### Counterexample: hash collisions give stale plans -/

/-- A toy scalar instance: natural numbers, everything finite. -/
@[reducible] def natScalar : Scalar Nat where
  zero := 0
  one := 1
  nan := 0
  add := (· + ·)
  mul := (· * ·)
  isFinite _ := true
  isZero n := n == 0

/-- Two unary operators: `x ↦ 2x` (id 0) and `x ↦ 2x + 1` (id 1). -/
def natOps : OpSet Nat where
  eval _ o args := 2 * args.headD 0 + o
  partial_ _ _ _ _ := 2
  known a o := a == 1 && o < 2

/-- The chain of `n` unary operators spelling the binary digits of `k`. -/
def chain : Nat → Nat → Tree
  | 0, _ => .var 0
  | n + 1, k => .op (k % 2) [chain n (k / 2)]

theorem chain_wf (n k : Nat) : (chain n k).WF natOps 1 1 0 := by
  induction n generalizing k with
  | zero => simp [chain, Tree.WF]
  | succ n ih =>
    simp only [chain, Tree.WF, Tree.all_op, List.length_singleton, List.mem_singleton, forall_eq]
    refine ⟨⟨by omega, by omega, ?_⟩, ih _⟩
    simp [natOps]; omega

theorem chain_numOps (n k : Nat) : (chain n k).numOps = n := by
  induction n generalizing k with
  | zero => simp [chain, Tree.numOps]
  | succ n ih =>
    have := ih (k / 2)
    simp only [Tree.numOps] at this
    simp [chain, Tree.numOps, this]; omega

theorem chain_size (n k : Nat) : (chain n k).toPostfix.length = n + 1 := by
  rw [length_toPostfix]
  induction n generalizing k with
  | zero => simp [chain]
  | succ n ih => simp [chain, ih]; omega

theorem chain_eval (n k : Nat) (c : Nat → Nat) (h : k < 2 ^ n) :
    (chain n k).eval natOps (fun _ => 0) c = k := by
  induction n generalizing k with
  | zero => simp [chain] at *; omega
  | succ n ih =>
    have := ih (k / 2) (by rw [Nat.pow_succ] at h; omega)
    simp only [chain, Tree.eval_op, List.length_singleton, List.map_cons, List.map_nil, natOps,
      List.headD_cons] at this ⊢
    rw [this]; omega

/-- One-row data matrix with the single feature 0. -/
def zeroMat : Mat Nat := ⟨1, 1, fun _ _ => 0⟩

/-- C06 (violation): for *every* 64-bit node hash there are two well-formed expressions such that
evaluating the first and then the second through one context returns, for the second, a value that
differs from the one a fresh context returns: the context reuses the first expression's plan. -/
theorem C06_collision_counterexample (hash : List PNode → UInt64) :
    ∃ j1 j2 : Job Nat, j1.OK natOps 1 1 ∧ j2.OK natOps 1 1 ∧
      @runHistory Nat natScalar natOps hash 1 (EvalContext.new 1) [j1, j2]
        ≠ [j1, j2].map (@runFresh Nat natScalar natOps hash 1) := by
  letI := natScalar
  -- pigeonhole
  obtain ⟨a, b, hab, hh⟩ := Fintype.exists_ne_map_eq_of_card_lt
    (fun k : Fin (2 ^ 65) => (hash (chain 65 k.val).toPostfix).toFin)
    (by rw [Fintype.card_fin, Fintype.card_fin]; decide)
  have hh' : hash (chain 65 a.val).toPostfix = hash (chain 65 b.val).toPostfix := by
    have : (hash (chain 65 a.val).toPostfix).toBitVec = (hash (chain 65 b.val).toPostfix).toBitVec := by
      apply BitVec.eq_of_toFin_eq; exact hh
    exact UInt64.toBitVec_inj.mp this
  let job : Fin (2 ^ 65) → Job Nat := fun k =>
    ⟨⟨(chain 65 k.val).toPostfix, []⟩, zeroMat, ⟨true, true⟩, [0]⟩
  have hlim : ∀ k : Fin (2 ^ 65), InLimits 1 0 (chain 65 k.val) := by
    intro k; refine ⟨by decide, by decide, ?_⟩; rw [chain_numOps]; decide
  have hOK : ∀ k, (job k).OK natOps 1 1 := fun k =>
    ⟨rfl, rfl, chain 65 k.val, rfl, chain_wf 65 k.val, hlim k⟩
  refine ⟨job a, job b, hOK a, hOK b, ?_⟩
  have hcol : ∀ k : Fin (2 ^ 65), colSpec natOps zeroMat [] (chain 65 k.val) = [k.val] := by
    intro k
    have := chain_eval 65 k.val (constAt []) k.isLt
    simp [colSpec, zeroMat, rowEval, this]
  have hflag : ∀ k : Fin (2 ^ 65),
      flagSpec natOps zeroMat [] ⟨true, true⟩ (chain 65 k.val) = true := by
    intro k
    have h1 : ∀ s, nodeFin natOps zeroMat [] 1 s = true := by
      intro s
      cases s with
      | var f => rfl
      | const c => rfl
      | op o ts =>
        simp only [nodeFin]
        split
        · rfl
        · simp only [List.all_eq_true]; intro _ _; rfl
    have h2 : rootFin ([] : List Nat) (chain 65 k.val) = true := by simp [chain, rootFin]
    simp only [flagSpec, treeFin, h2, Bool.and_true, Bool.not_true, Bool.false_or,
      List.all_eq_true]
    exact fun s _ => h1 s
  -- first evaluation
  obtain ⟨o1, c1, e1, hs1, hr1, hp1, hsome1, hl1, _, ho1⟩ := evalTreeArrayInto_correct natOps hash
    zeroMat (job a).expr ⟨true, true⟩ (EvalContext.new 1) [0] (t := chain 65 a.val) (D := 1) rfl
    (chain_wf 65 a.val) (hlim a).1 (hlim a).2.1 (hlim a).2.2 rfl rfl
    (by simp [EvalContext.ScratchWF, EvalContext.new]) (Or.inl rfl)
  obtain ⟨hL1, hL2, hL3⟩ := hl1 rfl
  obtain ⟨p1, hp1'⟩ := Option.isSome_iff_exists.mp hsome1
  -- the plan of `b`
  obtain ⟨o2, c2, e2, _, _, hp2, hsome2, _, _, ho2⟩ := evalTreeArrayInto_correct natOps hash
    zeroMat (job b).expr ⟨true, true⟩ (EvalContext.new 1) [0] (t := chain 65 b.val) (D := 1) rfl
    (chain_wf 65 b.val) (hlim b).1 (hlim b).2.1 (hlim b).2.2 rfl rfl
    (by simp [EvalContext.ScratchWF, EvalContext.new]) (Or.inl rfl)
  -- no recompilation happens for `b` in the context left by `a`
  have hhash1 : p1.hash = hash (job a).expr.nodes := by
    rw [hp1'] at hp1
    have hp := hp1.symm
    unfold compilePlan at hp
    split at hp
    · split at hp
      · simp at hp
      · split at hp
        · simp only [Option.some.injEq] at hp; rw [← hp]
        · simp at hp
    · simp at hp
  have hno : c1.needsRecompile hash (job b).expr zeroMat = false := by
    unfold EvalContext.needsRecompile
    rw [hp1']
    have hlen : (job a).expr.nodes.length = (job b).expr.nodes.length := by
      change (chain 65 a.val).toPostfix.length = (chain 65 b.val).toPostfix.length
      rw [chain_size, chain_size]
    have e0 : (job b).expr.consts.length = (job a).expr.consts.length := rfl
    simp only
    rw [if_neg (by rw [hL1, hL2, hL3, hlen, e0]; simp)]
    rw [hhash1]
    simp only [bne_eq_false_iff_eq]
    exact hh'
  -- so the second evaluation is that of `a`
  have hsame : evalTreeArrayInto natOps hash 1 [0] (job b).expr zeroMat c1 ⟨true, true⟩
      = evalTreeArrayInto natOps hash 1 [0] (job a).expr zeroMat c1 ⟨true, true⟩ := by
    have hno' : c1.needsRecompile hash (job a).expr zeroMat = false := by
      unfold EvalContext.needsRecompile
      rw [hp1']
      simp only
      rw [if_neg (by rw [hL1, hL2, hL3]; simp), hhash1]
      simp
    have hc : (job b).expr.consts = (job a).expr.consts := rfl
    generalize (job a).expr = ea at hno' hc ⊢
    generalize (job b).expr = eb at hno hc ⊢
    simp only [evalTreeArrayInto, EvalContext.setup, hno, hno', hc, Bool.false_eq_true, if_false]
  obtain ⟨o3, c3, e3, _, _, _, _, _, _, ho3⟩ := evalTreeArrayInto_correct natOps hash
    zeroMat (job a).expr ⟨true, true⟩ c1 [0] (t := chain 65 a.val) (D := 1) rfl
    (chain_wf 65 a.val) (hlim a).1 (hlim a).2.1 (hlim a).2.2 rfl hr1 hs1 (Or.inr hp1)
  intro heq
  have e1' : evalTreeArrayInto natOps hash 1 (job a).out (job a).expr (job a).X (EvalContext.new 1)
      (job a).opts = _ := e1
  have e3' : evalTreeArrayInto natOps hash 1 (job b).out (job b).expr (job b).X c1
      (job b).opts = _ := hsame.trans e3
  have e2' : evalTreeArrayInto natOps hash 1 (job b).out (job b).expr (job b).X
      (EvalContext.new (job b).X.cols) (job b).opts = _ := e2
  simp only [runHistory, e1', e3', List.map_cons, List.map_nil, runFresh, e2', Option.map_some,
    List.cons.injEq, Option.some.injEq, Prod.mk.injEq, and_true] at heq
  have h23 := heq.2.1
  rw [ho3, ho2] at h23
  change (if (true && !flagSpec natOps zeroMat [] ⟨true, true⟩ (chain 65 a.val)) = true then [0]
      else colSpec natOps zeroMat [] (chain 65 a.val))
    = (if (true && !flagSpec natOps zeroMat [] ⟨true, true⟩ (chain 65 b.val)) = true then [0]
      else colSpec natOps zeroMat [] (chain 65 b.val)) at h23
  rw [hflag a, hflag b, hcol a, hcol b] at h23
  simp only [Bool.not_true, Bool.and_false, Bool.false_eq_true, ↓reduceIte, List.cons.injEq,
    and_true] at h23
  exact hab (Fin.ext h23)

/-! ### Non-vacuity -/

/-- `2*(2*x0 + 1)` over the toy scalars is well-formed and within limits; its evaluation on the
one-row matrix is the recursive value 2. -/
example : (chain 2 2).WF natOps 1 1 0 ∧ InLimits 1 0 (chain 2 2) ∧
    @evalTreeArray Nat natScalar natOps (fun _ => 0) 1 ⟨(chain 2 2).toPostfix, []⟩ zeroMat
      ⟨true, true⟩ = some ([2], true) := by
  refine ⟨chain_wf 2 2, ⟨by decide, by decide, by rw [chain_numOps]; decide⟩, by decide⟩

/-- A history with two different expressions meets the hypotheses of `C06_context_reuse` for
a hash that separates them. -/
example : ∃ (hash : List PNode → UInt64) (jobs : List (Job Nat)), jobs.length = 2 ∧
    (∀ j ∈ jobs, j.OK natOps 1 1) ∧
    (∀ a ∈ jobs, ∀ b ∈ jobs, a.expr.nodes.length = b.expr.nodes.length →
      hash a.expr.nodes = hash b.expr.nodes → a.expr.nodes = b.expr.nodes) := by
  refine ⟨fun _ => 0, [⟨⟨(chain 1 1).toPostfix, []⟩, zeroMat, ⟨true, true⟩, [0]⟩,
    ⟨⟨(chain 2 1).toPostfix, []⟩, zeroMat, ⟨true, true⟩, [0]⟩], rfl, ?_, by decide⟩
  intro j hj
  simp only [List.mem_cons, List.not_mem_nil, or_false] at hj
  rcases hj with rfl | rfl
  · exact ⟨rfl, rfl, chain 1 1, rfl, chain_wf 1 1, by decide, by decide, by decide⟩
  · exact ⟨rfl, rfl, chain 2 1, rfl, chain_wf 2 1, by decide, by decide, by decide⟩

end SR
