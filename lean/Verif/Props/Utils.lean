import Verif.Proofs.Utils
import Verif.Props.Eval
/-
Properties C11 (constants access), C12 (constant compression), C16 (algebraic composition).
-/
namespace SR
variable {T : Type}

/-! ## C11 -/

/-- C11: writing back what was read is the identity. -/
theorem C11_get_set (e : PostfixExpr T) :
    setScalarConstants e (getScalarConstants e).1 (getScalarConstants e).2 = some e := by
  have := setConstsLoop_range e.consts 0 e.consts rfl (by omega)
  simp only [Nat.sub_zero, List.take_zero, List.drop_zero, List.nil_append] at this
  simp [setScalarConstants, getScalarConstants, List.range_eq_range', this]

/-- C11: writing any vector of the right length succeeds, changes no node, and reading returns that
vector. -/
theorem C11_set_get (e : PostfixExpr T) (v : List T) (h : v.length = e.consts.length) :
    ∃ e', setScalarConstants e v (getScalarConstants e).2 = some e' ∧
      e'.nodes = e.nodes ∧ (getScalarConstants e').1 = v ∧
      (getScalarConstants e').2 = (getScalarConstants e).2 := by
  have := setConstsLoop_range v 0 e.consts h.symm (by omega)
  simp only [Nat.sub_zero, List.take_zero, List.drop_zero, List.nil_append] at this
  refine ⟨⟨e.nodes, v⟩, ?_, rfl, rfl, by simp [getScalarConstants, h]⟩
  simp [setScalarConstants, getScalarConstants, List.range_eq_range', ← h, this]

/-- C11: a vector of the wrong length panics. -/
theorem C11_wrong_length (e : PostfixExpr T) (v : List T) (h : v.length ≠ e.consts.length) :
    setScalarConstants e v (getScalarConstants e).2 = none := by
  simp [setScalarConstants, getScalarConstants, h]

/-- C11: evaluation after the write uses exactly the new values. -/
theorem C11_eval_after_set [Scalar T] (ops : OpSet T) (hash : List PNode → UInt64) (D : Nat) (t : Tree)
    (X : Mat T) (consts v : List T) (opts : EvalOptions) (hv : v.length = consts.length)
    (hwf : t.WF ops D X.rows consts.length) (hlim : InLimits X.rows consts.length t) :
    ∃ e' out flag, setScalarConstants ⟨t.toPostfix, consts⟩ v (List.range consts.length) = some e' ∧
      evalTreeArray ops hash D e' X opts = some (out, flag) ∧
      (flag = true ∨ opts.earlyExit = false → ∀ r, r < X.cols →
        out[r]? = some (t.eval ops (fun f => X.at' f r) (constAt v))) := by
  obtain ⟨e', h1, h2, h3, _⟩ := C11_set_get (T := T) ⟨t.toPostfix, consts⟩ v hv
  obtain ⟨out, flag, h4, _, h5⟩ := C03_eval_correct ops hash D t X v opts (by rw [hv]; exact hwf)
    (by rw [hv]; exact hlim)
  refine ⟨e', out, flag, h1, ?_, h5⟩
  obtain ⟨n, c⟩ := e'
  simp only [getScalarConstants] at h2 h3
  rw [h2, h3]; exact h4

/-! ## C12 -/

/-- Constants occur in order of first use and all are used: reading the leaves left to right, each
constant is either an already seen index or the next fresh one, ending at `n`. -/
def NumberedFrom : Nat → List Nat → Nat → Prop
  | k, [], n => k = n
  | k, c :: cs, n => (c < k ∧ NumberedFrom k cs n) ∨ (c = k ∧ NumberedFrom (k + 1) cs n)

theorem numberedFrom_iff (cs : List Nat) : ∀ (k n : Nat),
    NumberedFrom k cs n ↔ cs.foldl addNew (List.range k) = List.range n := by
  induction cs with
  | nil =>
    intro k n
    simp only [NumberedFrom, List.foldl_nil]
    constructor
    · rintro rfl; rfl
    · intro h; simpa using congrArg List.length h
  | cons c cs ih =>
    intro k n
    simp only [NumberedFrom, List.foldl_cons]
    rw [ih, ih]
    rcases Nat.lt_trichotomy c k with h | h | h
    · have : addNew (List.range k) c = List.range k := by simp [addNew, h]
      rw [this]
      constructor
      · rintro (⟨_, h2⟩ | ⟨h1, _⟩)
        · exact h2
        · omega
      · exact fun h2 => Or.inl ⟨h, h2⟩
    · subst h
      have : addNew (List.range c) c = List.range (c + 1) := by simp [addNew, List.range_succ]
      rw [this]
      constructor
      · rintro (⟨h1, _⟩ | ⟨_, h2⟩)
        · omega
        · exact h2
      · exact fun h2 => Or.inr ⟨rfl, h2⟩
    · constructor
      · rintro (⟨h1, _⟩ | ⟨h1, _⟩) <;> omega
      · intro h2
        exfalso
        have e : addNew (List.range k) c = List.range k ++ [c] := by
          simp [addNew]; omega
        rw [e] at h2
        obtain ⟨w, hw⟩ := foldl_addNew_prefix cs (List.range k ++ [c])
        rw [hw] at h2
        have h3 := congrArg (fun l => l[k]?) h2
        simp only [List.append_assoc, List.length_range, Nat.le_refl, List.getElem?_append_right,
          Nat.sub_self, List.singleton_append, List.getElem?_cons_zero] at h3
        have h4 := (List.getElem?_eq_some_iff.mp h3.symm).2
        simp at h4
        omega

/-- C12: on a well-formed expression using at most 65535 distinct constants, compression succeeds; the
result has the same shape, the same value on every input, constants numbered in order of first use with
none unused. -/
theorem C12_compress_correct [Scalar T] (t : Tree) (consts : List T)
    (h1 : ∀ c ∈ t.constIdxs, c < consts.length)
    (h2 : ∃ L : List Nat, L.length ≤ u16Max ∧ ∀ c ∈ t.constIdxs, c ∈ L) :
    ∃ (ρ : Nat → Nat) (consts' : List T) (changed : Bool),
      compressConstants ⟨t.toPostfix, consts⟩ = some (⟨(t.mapConst ρ).toPostfix, consts'⟩, changed) ∧
      (∀ (ops : OpSet T) (feat : Nat → T),
        (t.mapConst ρ).eval ops feat (constAt consts') = t.eval ops feat (constAt consts)) ∧
      NumberedFrom 0 (t.mapConst ρ).constIdxs consts'.length := by
  have hle : (firstUses t.constIdxs).length ≤ u16Max := by
    obtain ⟨L, hL, hsub⟩ := h2
    refine Nat.le_trans ?_ hL
    have : (firstUses t.constIdxs).Subperm L :=
      (firstUses_nodup _).subperm fun c hc => hsub c ((mem_firstUses _ _).mp hc)
    exact this.length_le
  refine ⟨_, _, _, compressConstants_eq t consts h1 hle, ?_, ?_⟩
  · intro ops feat
    apply Tree.eval_mapConst
    intro c hc
    have hm := (mem_firstUses t.constIdxs c).mpr hc
    simp [constAt, List.getElem?_idxOf hm]
  · rw [numberedFrom_iff, Tree.constIdxs_mapConst]
    simpa [firstUses] using firstUses_map_idxOf t.constIdxs

/-- C12: the reported flag is true exactly when the expression changed. -/
theorem C12_changed_iff [Scalar T] (t : Tree) (consts : List T)
    (h1 : ∀ c ∈ t.constIdxs, c < consts.length) (e' : PostfixExpr T) (changed : Bool)
    (h : compressConstants ⟨t.toPostfix, consts⟩ = some (e', changed))
    (h2 : ∃ L : List Nat, L.length ≤ u16Max ∧ ∀ c ∈ t.constIdxs, c ∈ L) :
    changed = true ↔ e' ≠ ⟨t.toPostfix, consts⟩ := by
  have hle : (firstUses t.constIdxs).length ≤ u16Max := by
    obtain ⟨L, hL, hsub⟩ := h2
    refine Nat.le_trans ?_ hL
    have : (firstUses t.constIdxs).Subperm L :=
      (firstUses_nodup _).subperm fun c hc => hsub c ((mem_firstUses _ _).mp hc)
    exact this.length_le
  rw [compressConstants_eq t consts h1 hle] at h
  simp only [Option.some.injEq, Prod.mk.injEq] at h
  obtain ⟨rfl, rfl⟩ := h
  rw [← not_iff_not, not_not, PostfixExpr.mk.injEq]
  simp only [Bool.or_eq_true, List.any_eq_true, bne_iff_ne, ne_eq, not_or, not_exists, not_and,
    not_not]
  constructor
  · rintro ⟨ha, hb⟩
    have hid : t.mapConst (fun c => (firstUses t.constIdxs).idxOf c) = t := by
      have : ∀ u : Tree, (∀ c ∈ u.constIdxs, c ∈ t.constIdxs) →
          u.mapConst (fun c => (firstUses t.constIdxs).idxOf c) = u := by
        intro u
        induction u using Tree.ind with
        | hv f => intro _; simp
        | hc c => intro hu; simp [← ha c (hu c (by simp))]
        | ho o ts ih =>
          intro hu
          rw [Tree.mapConst_op]
          congr 1
          conv_rhs => rw [← List.map_id ts]
          apply List.map_congr_left
          intro v hv
          exact ih v hv fun c hc => hu c (by
            rw [Tree.constIdxs_op]; exact List.mem_flatten.mpr ⟨_, List.mem_map_of_mem hv, hc⟩)
      exact this t fun _ h => h
    refine ⟨by rw [hid], ?_⟩
    have hr : firstUses t.constIdxs = List.range consts.length := by
      have := firstUses_map_idxOf t.constIdxs
      rw [hb] at this
      rw [← this]
      congr 1
      conv_lhs => rw [← List.map_id t.constIdxs]
      apply List.map_congr_left
      intro c hc
      exact (ha c hc)
    rw [hr]
    apply List.ext_getElem (by simp)
    intro i hi1 hi2
    simp [constAt, List.getElem?_eq_getElem hi2]
  · rintro ⟨ha, hb⟩
    refine ⟨?_, by have := congrArg List.length hb; simpa using this⟩
    have hid := toPostfix_injective ha
    intro c hc
    have h3 := Tree.constIdxs_mapConst (fun c => (firstUses t.constIdxs).idxOf c) t
    rw [hid] at h3
    obtain ⟨i, hi⟩ := List.mem_iff_getElem?.mp hc
    have h4 := congrArg (fun l => l[i]?) h3
    simp only [List.getElem?_map, hi, Option.map_some, Option.some.injEq] at h4
    exact h4

/-- C12: compression is idempotent: compressing a compressed expression changes nothing and reports no
change. -/
theorem C12_idempotent [Scalar T] (t : Tree) (consts : List T)
    (h1 : ∀ c ∈ t.constIdxs, c < consts.length) (e' : PostfixExpr T) (changed : Bool)
    (h2 : ∃ L : List Nat, L.length ≤ u16Max ∧ ∀ c ∈ t.constIdxs, c ∈ L)
    (h : compressConstants ⟨t.toPostfix, consts⟩ = some (e', changed)) :
    compressConstants e' = some (e', false) := by
  obtain ⟨ρ, consts', ch, h', _, hnum⟩ := C12_compress_correct t consts h1 h2
  rw [h] at h'
  simp only [Option.some.injEq, Prod.mk.injEq] at h'
  obtain ⟨rfl, rfl⟩ := h'
  have hr : firstUses (t.mapConst ρ).constIdxs = List.range consts'.length := by
    have := (numberedFrom_iff _ _ _).mp hnum
    simpa [firstUses] using this
  have hin : ∀ c ∈ (t.mapConst ρ).constIdxs, c < consts'.length := by
    intro c hc
    have := (mem_firstUses _ _).mpr hc
    rw [hr] at this; simpa using this
  have hL : ∃ L : List Nat, L.length ≤ u16Max ∧ ∀ c ∈ (t.mapConst ρ).constIdxs, c ∈ L := by
    obtain ⟨L, hL, hs⟩ := h2
    refine ⟨L.map ρ, by simpa using hL, ?_⟩
    intro c hc
    rw [Tree.constIdxs_mapConst] at hc
    obtain ⟨d, hd, rfl⟩ := List.mem_map.mp hc
    exact List.mem_map_of_mem (hs d hd)
  have hlen : (firstUses (t.mapConst ρ).constIdxs).length ≤ u16Max := by
    obtain ⟨L, hL, hsub⟩ := hL
    refine Nat.le_trans ?_ hL
    have : (firstUses (t.mapConst ρ).constIdxs).Subperm L :=
      (firstUses_nodup _).subperm fun c hc => hsub c ((mem_firstUses _ _).mp hc)
    exact this.length_le
  have e := compressConstants_eq (t.mapConst ρ) consts' hin hlen
  have hfalse : (((t.mapConst ρ).constIdxs.any fun c =>
      c != (firstUses (t.mapConst ρ).constIdxs).idxOf c) ||
      ((firstUses (t.mapConst ρ).constIdxs).length != consts'.length)) = false := by
    rw [hr]
    simp only [List.length_range, bne_self_eq_false, Bool.or_false, List.any_eq_false, bne_iff_ne,
      ne_eq, not_not]
    intro c hc
    have hcl := hin c hc
    have : (List.range consts'.length)[c]'(by simpa using hcl) = c := by simp
    have h5 := (List.nodup_range (n := consts'.length)).idxOf_getElem c (by simpa using hcl)
    rw [this] at h5
    exact h5.symm
  rw [hfalse] at e
  rw [e]
  congr 1
  have hcf := C12_changed_iff (t.mapConst ρ) consts' hin _ _ e hL
  simp only [Bool.false_eq_true, false_iff, not_not] at hcf
  rw [hcf]

/-- Non-vacuity: an expression with a repeated and an unused constant. -/
example : (∀ c ∈ (Tree.op 0 [.const 2, .op 1 [.const 2, .const 0]]).constIdxs, c < [5, 6, 7].length) ∧
    (∃ L : List Nat, L.length ≤ u16Max ∧
      ∀ c ∈ (Tree.op 0 [.const 2, .op 1 [.const 2, .const 0]]).constIdxs, c ∈ L) ∧
    compressConstants (T := Nat) ⟨(Tree.op 0 [.const 2, .op 1 [.const 2, .const 0]]).toPostfix, [5, 6, 7]⟩
      = some (⟨(Tree.op 0 [.const 0, .op 1 [.const 0, .const 1]]).toPostfix, [7, 5]⟩, true) := by
  refine ⟨by simp, ⟨[0, 2], by decide, by simp⟩, by simp; decide⟩

/-! ## C16 -/

/-- The arguments' trees with constants renumbered so that each argument keeps its own. -/
def shiftTrees : List (Tree × List T) → Nat → List Tree
  | [], _ => []
  | (t, cs) :: rest, off => t.mapConst (· + off) :: shiftTrees rest (off + cs.length)

/-- No index exceeds `u16`. -/
def NoOverflow : List (Tree × List T) → Nat → Prop
  | [], _ => True
  | (t, cs) :: rest, off =>
    off ≤ u16Max ∧ (∀ c ∈ t.constIdxs, c + off ≤ u16Max) ∧ NoOverflow rest (off + cs.length)

theorem mapM_shift (off : Nat) (t : Tree) :
    t.toPostfix.mapM (shiftNode off) =
      if ∀ c ∈ t.constIdxs, c + off ≤ u16Max then some (t.mapConst (· + off)).toPostfix else none := by
  split
  · next h =>
    rw [toPostfix_mapConst]
    apply mapM_some_of_forall
    intro n hn
    cases n with
    | var f => rfl
    | op a o => rfl
    | const c =>
      have : c ∈ t.constIdxs := by
        rw [← constIdxs_toPostfix]
        exact List.mem_filterMap.mpr ⟨_, hn, rfl⟩
      simp [shiftNode, PNode.mapConst, h c this]
  · next h =>
    have : ¬ (t.toPostfix.mapM (shiftNode off)).isSome := by
      rw [mapM_isSome_iff]
      intro hh
      apply h
      intro c hc
      rw [← constIdxs_toPostfix] at hc
      obtain ⟨n, hn, he⟩ := List.mem_filterMap.mp hc
      cases n with
      | var f => simp [PNode.constIdx?] at he
      | op a o => simp [PNode.constIdx?] at he
      | const d =>
        simp only [PNode.constIdx?, Option.some.injEq] at he
        subst he
        have := hh _ hn
        simp only [shiftNode] at this
        split at this
        · assumption
        · simp at this
    simpa using this

/-- The first non-empty list of names. -/
def firstNames : List (List String) → List String
  | [] => []
  | n :: ns => if n.isEmpty then firstNames ns else n

open Classical in
theorem applyLoop_eq (args : List (Tree × List T × List String)) : ∀ nodes consts names,
    applyLoop (args.map fun a => ((⟨a.1.toPostfix, a.2.1⟩ : PostfixExpr T), a.2.2))
      (nodes, consts, names) =
    if NoOverflow (args.map fun a => (a.1, a.2.1)) consts.length then
      some (nodes ++ ((shiftTrees (args.map fun a => (a.1, a.2.1)) consts.length).map
          Tree.toPostfix).flatten,
        consts ++ (args.map fun a => a.2.1).flatten,
        if names.isEmpty then firstNames (args.map fun a => a.2.2) else names)
    else none := by
  induction args with
  | nil =>
    intro nodes consts names
    cases names <;> simp [applyLoop, NoOverflow, shiftTrees, firstNames]
  | cons a args ih =>
    obtain ⟨t, cs, nm⟩ := a
    intro nodes consts names
    simp only [List.map_cons, applyLoop, NoOverflow, shiftTrees, mapM_shift]
    by_cases h1 : consts.length ≤ u16Max
    · by_cases h2 : ∀ c ∈ t.constIdxs, c + consts.length ≤ u16Max
      · simp only [h1, if_true, if_pos h2, ih, List.length_append]
        have e : (consts.length ≤ u16Max ∧ (∀ c ∈ t.constIdxs, c + consts.length ≤ u16Max) ∧
            NoOverflow (args.map fun a => (a.1, a.2.1)) (consts.length + cs.length))
            = NoOverflow (args.map fun a => (a.1, a.2.1)) (consts.length + cs.length) := by
          simp only [h1, true_and, eq_iff_iff, and_iff_right_iff_imp]
          exact fun _ => h2
        simp only [true_and, and_iff_right h2] at *
        split
        · simp only [List.flatten_cons, List.append_assoc, Option.some.injEq, Prod.mk.injEq, true_and]
          cases names <;> cases nm <;> simp [firstNames]
        · rfl
      · have hn : ¬ (consts.length ≤ u16Max ∧ (∀ c ∈ t.constIdxs, c + consts.length ≤ u16Max) ∧
            NoOverflow (args.map fun a => (a.1, a.2.1)) (consts.length + cs.length)) :=
          fun h => h2 h.2.1
        simp only [if_neg hn, if_neg h2, if_pos h1]
    · have hn : ¬ (consts.length ≤ u16Max ∧ (∀ c ∈ t.constIdxs, c + consts.length ≤ u16Max) ∧
            NoOverflow (args.map fun a => (a.1, a.2.1)) (consts.length + cs.length)) :=
        fun h => h1 h.1
      simp only [if_neg hn, if_neg h1]

theorem shiftTrees_length (args : List (Tree × List T)) : ∀ off,
    (shiftTrees args off).length = args.length := by
  induction args with
  | nil => intro off; rfl
  | cons a args ih => intro off; simp [shiftTrees, ih]

theorem shiftTrees_eval [Scalar T] (ops : OpSet T) (feat : Nat → T) (args : List (Tree × List T)) :
    ∀ (pre : List T), (∀ a ∈ args, ∀ c ∈ a.1.constIdxs, c < a.2.length) →
    (shiftTrees args pre.length).map
        (Tree.eval ops feat (constAt (pre ++ (args.map Prod.snd).flatten)))
      = args.map fun a => a.1.eval ops feat (constAt a.2) := by
  induction args with
  | nil => intro pre _; rfl
  | cons a args ih =>
    obtain ⟨t, cs⟩ := a
    intro pre h
    simp only [shiftTrees, List.map_cons, List.flatten_cons]
    congr 1
    · apply Tree.eval_mapConst
      intro c hc
      have hc' : c < cs.length := h (t, cs) (by simp) c hc
      simp only [constAt]
      rw [List.getElem?_append_right (by omega), List.getElem?_append_left (by omega)]
      simp
    · have := ih (pre ++ cs) fun a ha => h a (by simp [ha])
      rw [← List.append_assoc]
      rw [← this]
      simp

theorem shiftTrees_wf [Scalar T] (ops : OpSet T) (D nf : Nat) (args : List (Tree × List T)) :
    ∀ (off N : Nat), (∀ a ∈ args, a.1.WF ops D nf a.2.length) →
    off + (args.map fun a => a.2.length).sum ≤ N →
    ∀ u ∈ shiftTrees args off, u.WF ops D nf N := by
  induction args with
  | nil => intro off N _ _ u hu; simp [shiftTrees] at hu
  | cons a args ih =>
    obtain ⟨t, cs⟩ := a
    intro off N h hN u hu
    simp only [List.map_cons, List.sum_cons] at hN
    simp only [shiftTrees, List.mem_cons] at hu
    rcases hu with rfl | hu
    · have hw := h (t, cs) (by simp)
      simp only [Tree.WF, Tree.all_iff, Tree.features_mapConst, Tree.constIdxs_mapConst,
        Tree.opNodes_mapConst] at hw ⊢
      refine ⟨hw.1, ?_, hw.2.2⟩
      intro c hc
      obtain ⟨d, hd, rfl⟩ := List.mem_map.mp hc
      have := hw.2.1 d hd
      simp at this ⊢; omega
    · exact ih (off + cs.length) N (fun a ha => h a (by simp [ha])) (by omega) u hu

/-- C16: applying operator `o` to well-formed expressions.  If it does not panic, the result is a
well-formed expression with root `o` whose value on every input is the operator applied to the
arguments' own values, its constants are the arguments' constants side by side, and its variable names
are the first non-empty ones. -/
theorem C16_apply_correct [Scalar T] (ops : OpSet T) (D nf o : Nat)
    (args : List (Tree × List T × List String)) (e : PostfixExpr T) (names : List String)
    (hwf : ∀ a ∈ args, a.1.WF ops D nf a.2.1.length) (hne : args ≠ [])
    (hk : ops.known args.length o = true)
    (h : applyPostfix D o (args.map fun a => ((⟨a.1.toPostfix, a.2.1⟩ : PostfixExpr T), a.2.2))
      = some (e, names)) :
    ∃ ts : List Tree, e.nodes = (Tree.op o ts).toPostfix ∧ (Tree.op o ts).WF ops D nf e.consts.length ∧
      e.consts = (args.map fun a => a.2.1).flatten ∧
      (∀ feat, (Tree.op o ts).eval ops feat (constAt e.consts)
        = ops.eval args.length o (args.map fun a => a.1.eval ops feat (constAt a.2.1))) ∧
      names = firstNames (args.map fun a => a.2.2) := by
  unfold applyPostfix at h
  split at h
  · next hD =>
    rw [applyLoop_eq] at h
    split at h
    · simp only [List.length_nil, List.nil_append, List.length_map, Option.map_some, List.isEmpty_nil,
        if_true, Option.some.injEq, Prod.mk.injEq] at h
      obtain ⟨rfl, rfl⟩ := h
      have hmm : (List.map (fun a : Tree × List T × List String => a.2.1) args)
          = ((args.map fun a => (a.1, a.2.1)).map Prod.snd) := by simp
      refine ⟨shiftTrees (args.map fun a => (a.1, a.2.1)) 0, ?_, ?_, rfl, ?_, rfl⟩
      · simp [shiftTrees_length]
      · simp only [Tree.WF, Tree.all_op, shiftTrees_length, List.length_map]
        refine ⟨⟨?_, by simpa using hD, hk⟩, ?_⟩
        · exact Nat.pos_of_ne_zero (by simpa using hne)
        · apply shiftTrees_wf
          · intro a ha
            obtain ⟨b, hb, rfl⟩ := List.mem_map.mp ha
            exact hwf b hb
          · simp [List.length_flatten, Function.comp_def]
      · intro feat
        have := shiftTrees_eval ops feat (args.map fun a => (a.1, a.2.1)) [] (by
          intro a ha c hc
          obtain ⟨b, hb, rfl⟩ := List.mem_map.mp ha
          have := hwf b hb
          rw [Tree.WF, Tree.all_iff] at this
          exact this.2.1 c hc)
        simp only [List.length_nil, List.nil_append] at this
        simp only [Tree.eval_op, shiftTrees_length, List.length_map]
        rw [hmm, this]
        simp [Function.comp_def]
    · simp at h
  · simp at h

/-- C16: when it panics.  The call panics exactly when the arity exceeds `D`, or some argument starts
past index 65535, or one of its constants would be renumbered past 65535. -/
theorem C16_apply_panics_iff (D o : Nat) (args : List (Tree × List T × List String)) :
    applyPostfix D o (args.map fun a => ((⟨a.1.toPostfix, a.2.1⟩ : PostfixExpr T), a.2.2)) = none ↔
      D < args.length ∨ ∃ l a r, args = l ++ a :: r ∧
        (u16Max < (l.map fun b => b.2.1.length).sum ∨
          ∃ c ∈ a.1.constIdxs, u16Max < c + (l.map fun b => b.2.1.length).sum) := by
  have key : ∀ (args : List (Tree × List T × List String)) (off : Nat),
      ¬ NoOverflow (args.map fun a => (a.1, a.2.1)) off ↔
      ∃ l a r, args = l ++ a :: r ∧ (u16Max < off + (l.map fun b => b.2.1.length).sum ∨
          ∃ c ∈ a.1.constIdxs, u16Max < c + (off + (l.map fun b => b.2.1.length).sum)) := by
    intro args
    induction args with
    | nil => intro off; simp [NoOverflow]
    | cons a args ih =>
      intro off
      simp only [List.map_cons, NoOverflow]
      constructor
      · intro h
        by_cases h1 : off ≤ u16Max
        · by_cases h2 : ∀ c ∈ a.1.constIdxs, c + off ≤ u16Max
          · have h3 : ¬ NoOverflow (args.map fun a => (a.1, a.2.1)) (off + a.2.1.length) :=
              fun h3 => h ⟨h1, h2, h3⟩
            obtain ⟨l, b, r, rfl, hh⟩ := (ih _).mp h3
            refine ⟨a :: l, b, r, rfl, ?_⟩
            simp only [List.map_cons, List.sum_cons, ← Nat.add_assoc] at hh ⊢
            exact hh
          · push Not at h2
            exact ⟨[], a, args, rfl, Or.inr (by simpa using h2)⟩
        · exact ⟨[], a, args, rfl, Or.inl (by simpa using h1)⟩
      · rintro ⟨l, b, r, he, hh⟩ ⟨h1, h2, h3⟩
        cases l with
        | nil =>
          simp only [List.nil_append, List.cons.injEq] at he
          obtain ⟨rfl, rfl⟩ := he
          simp only [List.map_nil, List.sum_nil, Nat.add_zero] at hh
          rcases hh with hh | ⟨c, hc, hh⟩
          · omega
          · have := h2 c hc; omega
        | cons x l =>
          simp only [List.cons_append, List.cons.injEq] at he
          obtain ⟨rfl, rfl⟩ := he
          refine (ih (off + a.2.1.length)).mpr ⟨l, b, r, rfl, ?_⟩ h3
          simp only [List.map_cons, List.sum_cons, ← Nat.add_assoc] at hh ⊢
          exact hh
  unfold applyPostfix
  rw [applyLoop_eq]
  have k0 := key args 0
  simp only [Nat.zero_add] at k0
  rw [← k0]
  simp only [List.length_map, List.length_nil]
  by_cases hD : args.length ≤ D
  · rw [if_pos hD]
    simp only [Nat.not_lt.mpr hD, false_or]
    split
    · next h => simp [h]
    · next h => simp [h]
  · simp [if_neg hD]; omega

/-- C16: with at most 65535 constants in total (and arity at most `D`) composition never panics. -/
theorem C16_apply_total [Scalar T] (D o : Nat) (args : List (Tree × List T × List String))
    (hD : args.length ≤ D) (hc : ∀ a ∈ args, ∀ c ∈ a.1.constIdxs, c < a.2.1.length)
    (htot : (args.map fun a => a.2.1.length).sum ≤ u16Max) :
    (applyPostfix D o (args.map fun a =>
      ((⟨a.1.toPostfix, a.2.1⟩ : PostfixExpr T), a.2.2))).isSome := by
  rw [Option.isSome_iff_ne_none, ne_eq, C16_apply_panics_iff]
  rintro (h | ⟨l, a, r, rfl, h⟩)
  · omega
  · simp only [List.map_append, List.map_cons, List.sum_append, List.sum_cons] at htot
    rcases h with h | ⟨c, hcc, h⟩
    · omega
    · have := hc a (by simp) c hcc
      omega

/-- Non-vacuity: `(c0 + x0) * c0'`. -/
example : applyPostfix (T := Nat) 2 5
    [(⟨(Tree.op 0 [.const 0, .var 0]).toPostfix, [10]⟩, []), (⟨(Tree.const 0).toPostfix, [20]⟩, ["a"])]
    = some (⟨(Tree.op 5 [.op 0 [.const 0, .var 0], .const 1]).toPostfix, [10, 20]⟩, ["a"]) := by
  simp; decide

end SR
