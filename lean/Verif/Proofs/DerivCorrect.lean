import Verif.Proofs.DerivKernel
/-
Correctness of the derivative evaluators with respect to the chain rule.
-/
namespace SR

/-! ### generic lemmas about slot machines -/

namespace Machine.Lawful
variable {S P A : Type} {M : Machine S P A} {nf nc : Nat} {known : Nat → Nat → Bool}
  (L : M.Lawful nf nc known)

/-- If the kernels agree with an ideal semantics as long as no kernel failed, so does the
denotation. -/
theorem den_ideal (ideal : Tree → A) (okN : Tree → Bool)
    (hv : ∀ f, L.vA f = ideal (.var f)) (hc : ∀ c, L.cA c = ideal (.const c))
    (hokv : ∀ f, okN (.var f) = true) (hokc : ∀ c, okN (.const c) = true)
    (hop : ∀ o ts, (L.K ts.length o (ts.map ideal)).2 = okN (.op o ts) ∧
      ((okN (.op o ts) = true ∨ M.early = false) →
        L.toA (L.K ts.length o (ts.map ideal)).1 = ideal (.op o ts))) (t : Tree) :
    (L.okAll t = t.subtrees.all okN) ∧
      ((L.okAll t = true ∨ M.early = false) → L.den t = ideal t) := by
  induction t using Tree.ind with
  | hv f => simp [hv, hokv]
  | hc f => simp [hc, hokc]
  | ho o ts ih =>
    have hall : ts.all L.okAll = ts.all (fun t => t.subtrees.all okN) := by
      rw [Bool.eq_iff_iff]
      simp only [List.all_eq_true]
      constructor
      · intro h t ht x hx
        have := h t ht
        rw [(ih t ht).1] at this
        exact List.all_eq_true.mp this x hx
      · intro h t ht
        rw [(ih t ht).1, List.all_eq_true]; exact h t ht
    have hsub : (Tree.op o ts).subtrees.all okN
        = (ts.all (fun t => t.subtrees.all okN) && okN (.op o ts)) := by
      have : (ts.map Tree.subtrees).flatten.all okN = ts.all (fun t => t.subtrees.all okN) := by
        clear ih hall
        induction ts with
        | nil => simp
        | cons t ts ih => simp only [List.map_cons, List.flatten_cons, List.all_append, ih]; simp
      rw [Tree.subtrees_op, List.all_append, this]; simp
    have hden : (ts.all L.okAll = true ∨ M.early = false) → ts.map L.den = ts.map ideal := by
      intro h
      apply List.map_congr_left
      intro t ht
      apply (ih t ht).2
      rcases h with h | h
      · exact Or.inl (List.all_eq_true.mp h t ht)
      · exact Or.inr h
    have hok : L.okAll (.op o ts) = (Tree.op o ts).subtrees.all okN := by
      rw [okAll_op, hsub, ← hall]
      rcases Bool.eq_false_or_eq_true (ts.all L.okAll) with h | h
      · rw [hden (Or.inl h), (hop o ts).1]
      · simp [h]
    refine ⟨hok, fun h => ?_⟩
    have hch : ts.all L.okAll = true ∨ M.early = false := by
      rcases h with h | h
      · left; rw [okAll_op] at h; simp only [Bool.and_eq_true] at h; exact h.1
      · exact Or.inr h
    rw [den_op, hden hch]
    apply (hop o ts).2
    rcases h with h | h
    · left; rw [hok, hsub] at h; simp only [Bool.and_eq_true] at h; exact h.2
    · exact Or.inr h

end Machine.Lawful

/-- The instruction loop of an implementation simulates the machine. -/
theorem instrLoop_of_exec {S P A : Type} {M : Machine S P A} {nf nc : Nat}
    {known : Nat → Nat → Bool} (L : M.Lawful nf nc known)
    (stepI : S → Instr → Option (S × Bool))
    (hstep : ∀ s i, L.Good s → i.dst < M.N → i.args ≠ [] → stepI s i = M.step s i)
    (hres : ∀ s d a x, L.Good s → M.resolve s d a = some x → L.AGood x)
    (hk : ∀ a o args p ok, args ≠ [] → (∀ x ∈ args, L.AGood x) → M.kern a o args = some (p, ok) →
      L.PGood p)
    (is : List Instr) (hne : ∀ i ∈ is, i.args ≠ []) : ∀ (s : S) (c : Bool), L.Good s →
      ∀ r, M.exec is s c = some r → instrLoop M.early stepI is s c = some r := by
  induction is with
  | nil => intro s c _ r h; simpa [instrLoop, Machine.exec] using h
  | cons i is ih =>
    intro s c hs r h
    have hdN : i.dst < M.N := by
      refine Decidable.byContradiction fun hc => ?_
      simp only [Machine.exec, Machine.step] at h
      rw [if_neg (by exact hc)] at h
      simp at h
    simp only [instrLoop]
    rw [hstep s i hs hdN (hne i (by simp))]
    simp only [Machine.exec] at h
    cases hst : M.step s i with
    | none => simp [hst] at h
    | some q =>
      obtain ⟨s', ok⟩ := q
      simp only [hst] at h ⊢
      by_cases he : (M.early && !ok) = true
      · rw [if_pos he] at h ⊢; exact h
      · rw [if_neg he] at h ⊢
        refine ih (fun j hj => hne j (by simp [hj])) _ _ ?_ _ h
        simp only [Machine.step] at hst
        rw [if_pos hdN] at hst
        split at hst
        · simp at hst
        · next args hargs =>
          split at hst
          · simp at hst
          · next p ok' hker =>
            simp only [Option.some.injEq, Prod.mk.injEq] at hst
            rw [← hst.1]
            have hmem : ∀ (l : List Src) args, l.mapM (M.resolve s i.dst) = some args →
                (∀ x ∈ args, L.AGood x) ∧ (l ≠ [] → args ≠ []) := by
              intro l
              induction l with
              | nil =>
                intro args hh
                simp only [List.mapM_nil, Option.pure_def, Option.some.injEq] at hh
                subst hh; simp
              | cons a l ihl =>
                intro args hh
                simp only [List.mapM_cons, Option.bind_eq_bind, Option.bind_eq_some_iff,
                  Option.pure_def, Option.some.injEq] at hh
                obtain ⟨b, hb, bs, hbs, rfl⟩ := hh
                refine ⟨?_, by simp⟩
                intro x hx
                rcases List.mem_cons.mp hx with hx | hx
                · subst hx; exact hres s _ _ _ hs hb
                · exact (ihl _ hbs).1 x hx
            obtain ⟨m1, m2⟩ := hmem _ _ hargs
            exact L.hgood s _ _ hs hdN (hk _ _ _ _ _ (m2 (hne i (by simp))) m1 hker)

/-! ### compiled instructions have arguments -/

theorem compileStep_args {D nf nc : Nat} {st st' : CompState} {node : PNode}
    (h : compileStep D nf nc st node = some st') (hi : ∀ i ∈ st.instrs, i.args ≠ []) :
    ∀ i ∈ st'.instrs, i.args ≠ [] := by
  cases node with
  | var f =>
    simp only [compileStep] at h
    split at h
    · simp only [Option.some.injEq] at h; subst h; exact hi
    · simp at h
  | const f =>
    simp only [compileStep] at h
    split at h
    · simp only [Option.some.injEq] at h; subst h; exact hi
    · simp at h
  | op a o =>
    simp only [compileStep] at h
    split at h
    · next ha =>
      split at h
      · next hl =>
        split at h
        · simp at h
        · simp only [Option.some.injEq] at h
          subst h
          intro i hmem
          rcases List.mem_append.mp hmem with hm | hm
          · exact hi i hm
          · simp only [List.mem_singleton] at hm
            subst hm
            intro hnil
            have := congrArg List.length hnil
            simp only [List.length_reverse, List.length_take, List.length_nil] at this; omega
      · simp at h
    · simp at h

theorem compilePlan_args {hash : List PNode → UInt64} {D nf nc : Nat} {nodes : List PNode}
    {plan : EvalPlan} (h : compilePlan hash D nodes nf nc = some plan) :
    ∀ i ∈ plan.instrs, i.args ≠ [] := by
  have key : ∀ (nodes : List PNode) (st st' : CompState),
      nodes.foldlM (compileStep D nf nc) st = some st' → (∀ i ∈ st.instrs, i.args ≠ []) →
      ∀ i ∈ st'.instrs, i.args ≠ [] := by
    intro nodes
    induction nodes with
    | nil =>
      intro st st' h hi
      simp only [List.foldlM_nil, Option.pure_def, Option.some.injEq] at h
      subst h; exact hi
    | cons x xs ih =>
      intro st st' h hi
      simp only [List.foldlM_cons, Option.bind_eq_bind, Option.bind_eq_some_iff] at h
      obtain ⟨st1, h1, h2⟩ := h
      exact ih _ _ h2 (compileStep_args h1 hi)
  unfold compilePlan at h
  split at h
  · split at h
    · simp at h
    · next st hst =>
      split at h
      · simp only [Option.some.injEq] at h
        subst h
        exact key _ _ _ hst (by simp)
      · simp at h
  · simp at h

variable {T : Type} [Scalar T]

/-! ### machines with a value and a derivative buffer -/

/-- Slot machine with two flat buffers (strides `n` and `m`). -/
def pairMachine {B : Type} (mk : List T → B) (n m N : Nat) (aVar aConst : Nat → Option (SrcRef T × B))
    (kern : Nat → Nat → List (SrcRef T × B) → Option ((List T × List T) × Bool)) (early : Bool) :
    Machine (List T × List T) (List T × List T) (SrcRef T × B) where
  N := N
  read s k := (slice? s.1 (k * n) n).bind fun v => (slice? s.2 (k * m) m).map fun d => (.slice v, mk d)
  write s d p := (writeSlot n s.1 d p.1, writeSlot m s.2 d p.2)
  aVar := aVar
  aConst := aConst
  kern := kern
  early := early

def pairLawful {B : Type} (mk : List T → B) (n m N : Nat)
    (aVar aConst : Nat → Option (SrcRef T × B))
    (kern : Nat → Nat → List (SrcRef T × B) → Option ((List T × List T) × Bool)) (early : Bool)
    (nf nc : Nat) (known : Nat → Nat → Bool)
    (BGood : SrcRef T × B → Prop) (hB : ∀ v d, v.length = n → d.length = m → BGood (.slice v, mk d))
    (vA cA : Nat → SrcRef T × B)
    (K : Nat → Nat → List (SrcRef T × B) → (List T × List T) × Bool)
    (hvar : ∀ f, f < nf → aVar f = some (vA f) ∧ BGood (vA f))
    (hconst : ∀ f, f < nc → aConst f = some (cA f) ∧ BGood (cA f))
    (hkern : ∀ a o args, args.length = a → 1 ≤ a → known a o = true → (∀ x ∈ args, BGood x) →
      kern a o args = some (K a o args) ∧
        ((K a o args).1.1.length = n ∧ (K a o args).1.2.length = m)) :
    (pairMachine mk n m N aVar aConst kern early).Lawful nf nc known where
  Good s := s.1.length = N * n ∧ s.2.length = N * m
  AGood := BGood
  PGood p := p.1.length = n ∧ p.2.length = m
  toA p := (.slice p.1, mk p.2)
  vA := vA
  cA := cA
  K := K
  hvar := hvar
  hconst := hconst
  hkern := hkern
  htoA p hp := hB _ _ hp.1 hp.2
  hgood s d p hs hd hp := ⟨writeSlot_length hs.1 hd hp.1, writeSlot_length hs.2 hd hp.2⟩
  hsame s d p hs hd hp := by
    simp only [pairMachine]
    rw [writeSlot_same hs.1 hd hp.1, writeSlot_same hs.2 hd hp.2]; rfl
  hne s d p k hs hd hp hk := by
    simp only [pairMachine]
    rw [writeSlot_ne hs.1 hd hp.1 hk, writeSlot_ne hs.2 hd hp.2 hk]

/-! ### the directional derivative -/

section Diff
variable [ZeroLaws T] (ops : OpSet T) (X : Mat T) (consts : List T) (dir : Nat) (opts : EvalOptions)

def diffAVar (f : Nat) : Option (SrcRef T × SrcRef T) :=
  (slice? X.data (f * X.cols) X.cols).map fun v =>
    (.slice v, .const (if f = dir then Scalar.one else Scalar.zero))

def diffAConst (c : Nat) : Option (SrcRef T × SrcRef T) :=
  consts[c]?.map fun v => (.const v, .const Scalar.zero)

def diffKern (a o : Nat) (args : List (SrcRef T × SrcRef T)) :
    Option ((List T × List T) × Bool) :=
  if ops.known a o then
    (diffNary (ops.eval a o) (ops.partial_ a o) X.cols (args.map Prod.fst) (args.map Prod.snd)
      opts).map fun r => ((r.1, r.2.1), r.2.2)
  else none

def diffK (a o : Nat) (args : List (SrcRef T × SrcRef T)) : (List T × List T) × Bool :=
  let ok := !opts.checkFinite ||
    dfinOf (ops.eval a o) (ops.partial_ a o) X.cols (args.map Prod.fst) (args.map Prod.snd)
  ((if opts.earlyExit && !ok then List.replicate X.cols Scalar.nan
      else colOf (ops.eval a o) X.cols (args.map Prod.fst),
    if opts.earlyExit && !ok then List.replicate X.cols Scalar.nan
      else derCol (ops.partial_ a o) X.cols (args.map Prod.fst) (args.map Prod.snd)), ok)

def DGood (n : Nat) (x : SrcRef T × SrcRef T) : Prop := x.1.Good n ∧ x.2.Good n ∧ Compat x.1 x.2

theorem diffKern_eq {a o : Nat} {args : List (SrcRef T × SrcRef T)} (hne : args ≠ [])
    (hk : ops.known a o = true) (h : ∀ x ∈ args, DGood X.cols x) :
    diffKern ops X opts a o args = some (diffK ops X opts a o args) := by
  rw [diffKern, if_pos hk, diffNary_eq _ _ hne h]; rfl

omit [ZeroLaws T] in
theorem diffK_length (a o : Nat) (args : List (SrcRef T × SrcRef T)) :
    (diffK ops X opts a o args).1.1.length = X.cols ∧
      (diffK ops X opts a o args).1.2.length = X.cols := by
  simp only [diffK]
  constructor <;> split <;> simp [colOf_length, derCol_length]

def diffLawful (N : Nat) : (pairMachine SrcRef.slice X.cols X.cols N (diffAVar X dir)
    (diffAConst consts) (diffKern ops X opts) opts.earlyExit).Lawful X.rows consts.length ops.known :=
  pairLawful SrcRef.slice X.cols X.cols N (diffAVar X dir)
    (diffAConst consts) (diffKern ops X opts) opts.earlyExit X.rows consts.length ops.known
    (DGood X.cols) (fun v d hv hd => ⟨hv, hd, by simp [Compat, SrcRef.isConst]⟩)
    (fun f => (.slice ((List.range X.cols).map (X.at' f)), .const (oneHot dir f)))
    (fun c => (.const (constAt consts c), .const Scalar.zero))
    (diffK ops X opts)
    (fun f hf => ⟨by simp [diffAVar, Mat.data_slice X f hf, oneHot],
      by simp [DGood, SrcRef.Good, Compat, SrcRef.isConst]⟩)
    (fun c hc => ⟨by simp [diffAConst, constAt, hc],
      by simp [DGood, SrcRef.Good, Compat, SrcRef.isConst]⟩)
    (fun a o args hl ha hk hg => ⟨diffKern_eq ops X opts
      (by intro h; subst h; simp at hl; omega) hk hg, diffK_length ops X opts a o args⟩)

/-- Chain-rule derivative of a tree at row `r`, in feature direction `dir`. -/
def rowDeriv (r : Nat) (t : Tree) : T :=
  t.deriv ops (fun f => X.at' f r) (constAt consts) (oneHot dir) noSeed

omit [ZeroLaws T] in
theorem rowDeriv_op (r o ts) : rowDeriv ops X consts dir r (.op o ts)
    = chainSum (ops.partial_ ts.length o (ts.map (rowEval ops X consts r)))
        (ts.map (rowDeriv ops X consts dir r)) := by
  simp [rowDeriv]; rfl

def idealD (t : Tree) : SrcRef T × SrcRef T :=
  match t with
  | .var f => (.slice ((List.range X.cols).map (X.at' f)), .const (oneHot dir f))
  | .const c => (.const (constAt consts c), .const Scalar.zero)
  | t => (.slice ((List.range X.cols).map fun r => rowEval ops X consts r t),
      .slice ((List.range X.cols).map fun r => rowDeriv ops X consts dir r t))

omit [ZeroLaws T] in
theorem idealD_val {r : Nat} (hr : r < X.cols) (t : Tree) :
    (idealD ops X consts dir t).1.val r = rowEval ops X consts r t ∧
    (idealD ops X consts dir t).2.val r = rowDeriv ops X consts dir r t := by
  cases t with
  | var f => simp [idealD, SrcRef.val, hr, rowEval, rowDeriv]
  | const c => simp [idealD, SrcRef.val, rowEval, rowDeriv, noSeed]
  | op o ts => simp [idealD, SrcRef.val, hr]

/-- Node flag of the derivative evaluator: every row's value is finite; for operators of arity at
least three also every row's derivative. -/
def nodeDFin : Tree → Bool
  | .op o ts => ((List.range X.cols).all fun r => Scalar.isFinite (rowEval ops X consts r (.op o ts))) &&
      (decide (ts.length ≤ 2) ||
        (List.range X.cols).all fun r => Scalar.isFinite (rowDeriv ops X consts dir r (.op o ts)))
  | _ => true

omit [ZeroLaws T] in
theorem colOf_idealD (o : Nat) (ts : List Tree) :
    colOf (ops.eval ts.length o) X.cols ((ts.map (idealD ops X consts dir)).map Prod.fst)
      = (List.range X.cols).map fun r => rowEval ops X consts r (.op o ts) := by
  unfold colOf
  apply List.map_congr_left
  intro r hr
  rw [rowEval_op, List.map_map, List.map_map]
  congr 1
  exact List.map_congr_left fun t _ => (idealD_val ops X consts dir (by simpa using hr) t).1

omit [ZeroLaws T] in
theorem derCol_idealD (o : Nat) (ts : List Tree) :
    derCol (ops.partial_ ts.length o) X.cols ((ts.map (idealD ops X consts dir)).map Prod.fst)
      ((ts.map (idealD ops X consts dir)).map Prod.snd)
      = (List.range X.cols).map fun r => rowDeriv ops X consts dir r (.op o ts) := by
  unfold derCol
  apply List.map_congr_left
  intro r hr
  rw [rowDeriv_op]
  simp only [List.map_map]
  congr 2
  · exact List.map_congr_left fun t _ => (idealD_val ops X consts dir (by simpa using hr) t).1
  · exact funext fun t => (idealD_val ops X consts dir (by simpa using hr) t).2

theorem diff_den (N : Nat) (t : Tree) :
    (diffLawful ops X consts dir opts N).okAll t
        = t.subtrees.all (fun s => !opts.checkFinite || nodeDFin ops X consts dir s) ∧
    (((diffLawful ops X consts dir opts N).okAll t = true ∨ opts.earlyExit = false) →
      (diffLawful ops X consts dir opts N).den t = idealD ops X consts dir t) := by
  apply (diffLawful ops X consts dir opts N).den_ideal
  · intro f; rfl
  · intro c; rfl
  · intro f; simp [nodeDFin]
  · intro f; simp [nodeDFin]
  · intro o ts
    have hok : ((diffLawful ops X consts dir opts N).K ts.length o
        (ts.map (idealD ops X consts dir))).2
        = (!opts.checkFinite || nodeDFin ops X consts dir (.op o ts)) := by
      change (!opts.checkFinite || dfinOf _ _ _ _ _) = _
      rw [dfinOf, colOf_idealD, derCol_idealD]
      simp [nodeDFin, allFinite, List.all_map, Function.comp_def]
    refine ⟨hok, fun h => ?_⟩
    have hK : ((diffLawful ops X consts dir opts N).K ts.length o
        (ts.map (idealD ops X consts dir))).1
        = ((List.range X.cols).map (fun r => rowEval ops X consts r (.op o ts)),
           (List.range X.cols).map (fun r => rowDeriv ops X consts dir r (.op o ts))) := by
      rw [← hok] at h
      rw [← colOf_idealD ops X consts dir, ← derCol_idealD]
      change (diffK ops X opts _ _ _).1 = _
      change (diffK ops X opts _ _ _).2 = true ∨ _ at h
      revert h
      simp only [diffK]
      intro h
      rw [if_neg, if_neg]
      · rcases h with h | h
        · rw [h]; simp
        · have : opts.earlyExit = false := h
          simp [this]
      · rcases h with h | h
        · rw [h]; simp
        · have : opts.earlyExit = false := h
          simp [this]
    rw [hK]
    rfl

omit [ZeroLaws T] in
theorem diffInstr_eq {N : Nat} {s : List T × List T} (hs : s.1.length = N * X.cols ∧ s.2.length = N * X.cols)
    (i : Instr) (hd : i.dst < N) :
    diffInstr ops X.data consts X.cols dir opts s i
      = (pairMachine SrcRef.slice X.cols X.cols N (diffAVar X dir)
    (diffAConst consts) (diffKern ops X opts) opts.earlyExit).step s i := by
  have hle1 := slot_le (n := X.cols) hd hs.1
  have hle2 := slot_le (n := X.cols) hd hs.2
  simp only [diffInstr, Machine.step]
  rw [if_pos ⟨hle1, hle2⟩, if_pos (by exact hd)]
  have hres : ∀ a ∈ i.args, ((resolveValSrc a X.data X.cols consts i.dst
      (s.1.take (i.dst * X.cols)) (s.1.drop (i.dst * X.cols + X.cols))).bind fun v =>
      (resolveDerSrc a dir i.dst (s.2.take (i.dst * X.cols)) (s.2.drop (i.dst * X.cols + X.cols))
        X.cols).map fun d => (v, d))
      = (pairMachine SrcRef.slice X.cols X.cols N (diffAVar X dir)
    (diffAConst consts) (diffKern ops X opts) opts.earlyExit).resolve s i.dst a := by
    intro a _
    cases a with
    | var f =>
      simp only [resolveValSrc, resolveDerSrc, Machine.resolve, pairMachine, diffAVar]
      cases slice? X.data (f * X.cols) X.cols <;> rfl
    | const c =>
      simp only [resolveValSrc, resolveDerSrc, Machine.resolve, pairMachine, diffAConst]
      cases consts[c]? <;> rfl
    | slot k =>
      simp only [resolveValSrc, resolveDerSrc, Machine.resolve, pairMachine]
      rcases Nat.lt_trichotomy k i.dst with h | h | h
      · rw [if_pos h, if_pos h, if_neg (by omega), slice?_before h (by omega), slice?_before h (by omega)]
        cases slice? s.1 (k * X.cols) X.cols <;> cases slice? s.2 (k * X.cols) X.cols <;> rfl
      · subst h; simp
      · rw [if_neg (by omega), if_pos h, if_neg (by omega), if_pos h, if_neg (by omega),
          slice?_after h hle1, slice?_after h hle2]
        cases slice? s.1 (k * X.cols) X.cols <;> cases slice? s.2 (k * X.cols) X.cols <;> rfl
  rw [mapM_option_congr hres]
  cases (i.args.mapM ((pairMachine SrcRef.slice X.cols X.cols N (diffAVar X dir)
    (diffAConst consts) (diffKern ops X opts) opts.earlyExit).resolve s i.dst)) with
  | none => rfl
  | some args =>
    simp only [pairMachine, diffKern]
    by_cases hk : ops.known i.arity i.op = true
    · simp only [hk, ↓reduceIte]
      cases diffNary (ops.eval i.arity i.op) (ops.partial_ i.arity i.op) X.cols
        (args.map Prod.fst) (args.map Prod.snd) opts with
      | none => rfl
      | some r => rfl
    · simp [hk]

theorem diffLoop_run {N : Nat} {is : List Instr} (hne : ∀ i ∈ is, i.args ≠ [])
    {s : List T × List T} (c : Bool) (hs : s.1.length = N * X.cols ∧ s.2.length = N * X.cols) (r)
    (h : (pairMachine SrcRef.slice X.cols X.cols N (diffAVar X dir)
    (diffAConst consts) (diffKern ops X opts) opts.earlyExit).exec is s c = some r) :
    instrLoop opts.earlyExit (diffInstr ops X.data consts X.cols dir opts) is s c = some r := by
  refine instrLoop_of_exec (diffLawful ops X consts dir opts N) _ ?_ ?_ ?_ is hne s c hs r h
  · intro s i hs hd _
    exact diffInstr_eq ops X consts dir opts hs i hd
  · intro s d a x hs hx
    cases a with
    | var f =>
      simp only [Machine.resolve, pairMachine, diffAVar, Option.map_eq_some_iff] at hx
      obtain ⟨v, hv, rfl⟩ := hx
      exact ⟨slice?_length hv, trivial, by simp [Compat, SrcRef.isConst]⟩
    | const c =>
      simp only [Machine.resolve, pairMachine, diffAConst, Option.map_eq_some_iff] at hx
      obtain ⟨v, hv, rfl⟩ := hx
      exact ⟨trivial, trivial, by simp [Compat, SrcRef.isConst]⟩
    | slot k =>
      simp only [Machine.resolve, pairMachine] at hx
      split at hx
      · simp at hx
      · simp only [Option.bind_eq_some_iff, Option.map_eq_some_iff] at hx
        obtain ⟨v, hv, d, hd, rfl⟩ := hx
        exact ⟨slice?_length hv, slice?_length hd, by simp [Compat, SrcRef.isConst]⟩
  · intro a o args p ok hne hg hk
    change diffKern ops X opts a o args = some (p, ok) at hk
    by_cases hkn : ops.known a o = true
    · rw [diffKern_eq ops X opts hne hkn hg] at hk
      simp only [Option.some.injEq] at hk
      have := diffK_length ops X opts a o args
      rw [hk] at this
      exact this
    · simp [diffKern, hkn] at hk

end Diff

end SR
