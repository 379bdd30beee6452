import Verif.Model.OpSetDecl
import Verif.Props.Lookup
import Verif.Props.Utils
import Mathlib.Data.List.Perm.Basic
import Mathlib.Tactic.Ring
/-
C71: an operator set declared with `opset!` / `custom_opset!` is what was declared: each operator is
reachable under exactly one identifier, which carries its metadata and its kernels; expressions built
with the typed constructors mean what they say; the typed selection selects the named operators.
-/
namespace SR
variable {T Tag : Type}

/-! ### Lemmas -/

theorem arm_of_mem {D : OpSetDecl Tag} (hd : (D.blocks.map Prod.fst).Nodup) {b : Nat × List Tag}
    (hb : b ∈ D.blocks) : D.arm b.1 = some b.2 := by
  unfold OpSetDecl.arm
  generalize D.blocks = bs at hd hb
  induction bs with
  | nil => simp at hb
  | cons c bs ih =>
    simp only [List.map_cons, List.nodup_cons] at hd
    rw [List.find?_cons]
    rcases List.mem_cons.mp hb with rfl | hb
    · simp
    · have : c.1 ≠ b.1 := fun h => hd.1 (h ▸ List.mem_map_of_mem hb)
      simp only [beq_eq_false_iff_ne.mpr this]
      exact ih hd.2 hb

theorem arm_mem {D : OpSetDecl Tag} {a : Nat} {l : List Tag} (h : D.arm a = some l) :
    (a, l) ∈ D.blocks := by
  unfold OpSetDecl.arm at h
  rw [Option.map_eq_some_iff] at h
  obtain ⟨b, hb, rfl⟩ := h
  have h1 := List.mem_of_find?_eq_some hb
  have h2 := List.find?_some hb
  simp only [beq_iff_eq] at h2
  rw [← h2]
  exact h1

theorem zipIdx_find (l : List Tag) (k id : Nat) :
    ((l.zipIdx k).find? fun p => id == p.2).map Prod.fst = if k ≤ id then l[id - k]? else none := by
  induction l generalizing k with
  | nil => simp
  | cons t l ih =>
    rw [List.zipIdx_cons, List.find?_cons]
    by_cases h : id = k
    · subst h; simp
    · simp only [beq_eq_false_iff_ne.mpr h]
      rw [ih]
      by_cases h2 : k ≤ id
      · rw [if_pos (show k + 1 ≤ id by omega), if_pos h2]
        obtain ⟨d, rfl⟩ : ∃ d, id = k + 1 + d := ⟨id - (k + 1), by omega⟩
        rw [show k + 1 + d - (k + 1) = d by omega, show k + 1 + d - k = d + 1 by omega]
        simp
      · rw [if_neg (by omega), if_neg h2]

theorem dispatch_eq (D : OpSetDecl Tag) (a id : Nat) :
    D.dispatch a id = (D.arm a).bind fun l => l[id]? := by
  unfold OpSetDecl.dispatch
  cases D.arm a with
  | none => rfl
  | some l => simpa using zipIdx_find l 0 id

theorem opsWithArity_eq (D : OpSetDecl Tag) (a : Nat) :
    D.opsWithArity a = List.range ((D.arm a).getD []).length := by
  unfold OpSetDecl.opsWithArity
  cases D.arm a with
  | none => rfl
  | some l => simp [List.range_eq_range']

theorem meta_eq (D : OpSetDecl Tag) (sem : Tag → OpDef T) (a id : Nat) :
    D.meta sem a id = (D.dispatch a id).map fun t => (sem t).declMeta a id := by
  rw [dispatch_eq]
  unfold OpSetDecl.meta
  cases D.arm a with
  | none => rfl
  | some l =>
    simp only [List.getElem?_map, List.getElem?_zipIdx, Option.bind_some, Option.map_map, Nat.zero_add]
    rfl

theorem hasOp_of_mem [DecidableEq Tag] {D : OpSetDecl Tag} (ho : (D.blocks.flatMap Prod.snd).Nodup)
    {b : Nat × List Tag} (hb : b ∈ D.blocks) {t : Tag} (ht : t ∈ b.2) :
    D.hasOp t = some (b.2.idxOf t) := by
  unfold OpSetDecl.hasOp
  generalize D.blocks = bs at ho hb
  induction bs with
  | nil => simp at hb
  | cons c bs ih =>
    rw [List.flatMap_cons, List.nodup_append] at ho
    rw [List.find?_cons]
    rcases List.mem_cons.mp hb with rfl | hb
    · simp [ht]
    · have : t ∉ c.2 := fun h => ho.2.2 t h t (List.mem_flatMap.mpr ⟨b, hb, ht⟩) rfl
      simp only [this, decide_false]
      exact ih ho.2.1 hb

theorem hasOp_mem [DecidableEq Tag] {D : OpSetDecl Tag} {t : Tag} {id : Nat} (h : D.hasOp t = some id) :
    ∃ b ∈ D.blocks, t ∈ b.2 ∧ id = b.2.idxOf t := by
  unfold OpSetDecl.hasOp at h
  rw [Option.map_eq_some_iff] at h
  obtain ⟨b, hb, rfl⟩ := h
  exact ⟨b, List.mem_of_find?_eq_some hb, by simpa using List.find?_some hb, rfl⟩

theorem declMaxArity_ge {l : List Nat} {a : Nat} (h : a ∈ l) : a ≤ declMaxArity l := by
  induction l with
  | nil => simp at h
  | cons b l ih =>
    cases l with
    | nil => simp at h; simp [declMaxArity, h]
    | cons c l =>
      rw [declMaxArity]
      · rcases List.mem_cons.mp h with rfl | h
        · split <;> omega
        · have := ih h
          split <;> omega
      · simp

theorem declMaxArity_mem {l : List Nat} (h : l ≠ []) : declMaxArity l ∈ l := by
  induction l with
  | nil => exact absurd rfl h
  | cons b l ih =>
    cases l with
    | nil => simp [declMaxArity]
    | cons c l =>
      rw [declMaxArity]
      · have := ih (by simp)
        split
        · simp
        · exact List.mem_cons_of_mem _ this
      · simp

/-! ### C71 -/

/-- The declared operators, with the arity of the block that lists them. -/
def OpSetDecl.Declares (D : OpSetDecl Tag) (a : Nat) (t : Tag) : Prop := ∃ l, (a, l) ∈ D.blocks ∧ t ∈ l

/-- **C71.**  Every declared operator has an identifier, that identifier is listed under its arity,
carries the operator's own metadata, and is evaluated and differentiated with the operator's own
functions. -/
theorem C71_declared [DecidableEq Tag] [Scalar T] {D : OpSetDecl Tag} {sem : Tag → OpDef T}
    (hc : D.Compiles sem) (hd : (D.blocks.map Prod.fst).Nodup) {a : Nat} {t : Tag}
    (ht : D.Declares a t) :
    ∃ id, D.opId sem t = some ⟨a, id⟩ ∧ id ∈ D.opsWithArity a ∧
      D.meta sem a id = some ⟨a, id, (sem t).name, (sem t).display, (sem t).infix_, (sem t).commutative,
        (sem t).associative, (sem t).complexity⟩ ∧
      (D.opSet sem).known a id = true ∧
      (∀ v, (D.opSet sem).eval a id v = (sem t).eval v) ∧
      (∀ v j, (D.opSet sem).partial_ a id v j = (sem t).partial_ v j) := by
  obtain ⟨l, hb, htl⟩ := ht
  have harm := arm_of_mem hd hb
  have hid := hasOp_of_mem hc.once hb htl
  have hlt : l.idxOf t < l.length := List.idxOf_lt_length_iff.mpr htl
  have hdis : D.dispatch a (l.idxOf t) = some t := by
    rw [dispatch_eq, harm]
    simp [List.getElem?_eq_getElem hlt]
  refine ⟨l.idxOf t, ?_, ?_, ?_, ?_, ?_, ?_⟩
  · rw [OpSetDecl.opId, hid, Option.map_some, hc.arity _ hb t htl]
  · rw [opsWithArity_eq, harm]; simpa using hlt
  · rw [meta_eq, hdis]; rfl
  · simp [OpSetDecl.opSet, hdis]
  · intro v; simp [OpSetDecl.opSet, hdis]
  · intro v j; simp [OpSetDecl.opSet, hdis]

/-- **C71**, converse: an identifier is listed, has metadata, and can be evaluated in exactly the same
cases, namely when it is the identifier of a declared operator; and then of exactly one. -/
theorem C71_only_declared [DecidableEq Tag] [Scalar T] {D : OpSetDecl Tag} {sem : Tag → OpDef T}
    (hc : D.Compiles sem) (hd : (D.blocks.map Prod.fst).Nodup) (a id : Nat) :
    (id ∈ D.opsWithArity a ↔ ∃! t, D.Declares a t ∧ D.opId sem t = some ⟨a, id⟩) ∧
    ((D.meta sem a id).isSome ↔ id ∈ D.opsWithArity a) ∧
    ((D.opSet sem).known a id = true ↔ id ∈ D.opsWithArity a) := by
  have hdis : (D.dispatch a id).isSome ↔ id ∈ D.opsWithArity a := by
    rw [dispatch_eq, opsWithArity_eq]
    cases D.arm a with
    | none => simp
    | some l => simp
  refine ⟨⟨fun h => ?_, fun ⟨t, ⟨ht, hid⟩, _⟩ => ?_⟩, ?_, hdis⟩
  · obtain ⟨t, hdt⟩ := Option.isSome_iff_exists.mp (hdis.mpr h)
    have hdt' := hdt
    rw [dispatch_eq, Option.bind_eq_some_iff] at hdt'
    obtain ⟨l, harm, hl⟩ := hdt'
    have hb := arm_mem harm
    have hnd : l.Nodup := (List.nodup_flatMap.mp hc.once).1 _ hb
    have htl := List.mem_of_getElem? hl
    have hidx : l.idxOf t = id := by
      obtain ⟨hlt, he⟩ := List.getElem?_eq_some_iff.mp hl
      rw [← he]
      exact hnd.idxOf_getElem id hlt
    refine ⟨t, ⟨⟨l, hb, htl⟩, ?_⟩, ?_⟩
    · rw [OpSetDecl.opId, hasOp_of_mem hc.once hb htl, Option.map_some, hc.arity _ hb t htl, hidx]
    · rintro t' ⟨⟨l', hb', htl'⟩, hid'⟩
      have e := arm_of_mem hd hb'
      rw [show ((a, l') : Nat × List Tag).1 = a from rfl, harm, Option.some.injEq] at e
      obtain rfl : l = l' := e
      rw [OpSetDecl.opId, hasOp_of_mem hc.once hb htl', Option.map_some, Option.some.injEq,
        OpId.mk.injEq] at hid'
      have h1 : l.idxOf t' = l.idxOf t := by rw [hidx]; exact hid'.2
      exact (List.idxOf_inj htl').mp h1
  · obtain ⟨id', h1, h2, _⟩ := C71_declared hc hd ht
    rw [hid] at h1
    simp only [Option.some.injEq, OpId.mk.injEq, true_and] at h1
    rw [h1]; exact h2
  · rw [meta_eq, Option.isSome_map]
    exact hdis

/-- **C71**, enumeration: the operators of the set (those `lookup` searches, and those the web
interface lists) are exactly the declared operators, each once. -/
theorem C71_enumeration [DecidableEq Tag] [Scalar T] {D : OpSetDecl Tag} {sem : Tag → OpDef T}
    (hc : D.Compiles sem) (hd : (D.blocks.map Prod.fst).Nodup) (hpos : ∀ b ∈ D.blocks, 1 ≤ b.1) :
    (D.table sem).allOps.Nodup ∧
    (∀ op, op ∈ (D.table sem).allOps ↔ ∃ t, D.Declares op.arity t ∧ D.opId sem t = some op) ∧
    (D.registry sem).map (fun m => (⟨m.arity, m.id⟩ : OpId)) = (D.table sem).allOps ∧
    ∀ m ∈ D.registry sem, ∃ t, D.Declares m.arity t ∧ m = ⟨m.arity, m.id, (sem t).name, (sem t).display,
      (sem t).infix_, (sem t).commutative, (sem t).associative, (sem t).complexity⟩ := by
  have hnd : ∀ a, ((D.table sem).opsWithArity a).Nodup := fun a => by
    show (D.opsWithArity a).Nodup
    rw [opsWithArity_eq]; exact List.nodup_range
  refine ⟨nodup_allOps _ hnd, ?_, ?_, ?_⟩
  · rintro ⟨a, id⟩
    rw [mem_allOps]
    constructor
    · rintro ⟨_, _, h⟩
      obtain ⟨t, ht, _⟩ := ((C71_only_declared hc hd a id).1).mp h
      exact ⟨t, ht⟩
    · rintro ⟨t, ht, hid⟩
      obtain ⟨id', h1, h2, _⟩ := C71_declared hc hd ht
      rw [hid] at h1
      simp only [Option.some.injEq, OpId.mk.injEq, true_and] at h1
      subst h1
      obtain ⟨l, hb, _⟩ := ht
      exact ⟨hpos _ hb, declMaxArity_ge (List.mem_map_of_mem (f := Prod.fst) hb), h2⟩
  · simp only [OpSetDecl.registry, List.map_flatMap, List.map_map, OpTable.allOps, OpSetDecl.table]
    rfl
  · intro m hm
    simp only [OpSetDecl.registry, List.mem_flatMap, List.mem_map] at hm
    obtain ⟨a, -, id, hid, rfl⟩ := hm
    obtain ⟨t, ⟨ht, hop⟩, _⟩ := ((C71_only_declared hc hd a id).1).mp hid
    obtain ⟨id', h1, _, h3, _⟩ := C71_declared hc hd ht
    rw [hop] at h1
    simp only [Option.some.injEq, OpId.mk.injEq, true_and] at h1
    subst h1
    exact ⟨t, ht, by simp [h3]⟩

/-- **C71**, typed constructors: `op(args)` for a declared operator and as many well-formed arguments as
its arity (at most `D`) either panics because there are more constants than `u16` can index, or gives a
well-formed expression whose value at every data row is the operator's function applied to the values
of the arguments. -/
theorem C71_constructor [DecidableEq Tag] [Scalar T] {S : OpSetDecl Tag} {sem : Tag → OpDef T}
    (hc : S.Compiles sem) (hd : (S.blocks.map Prod.fst).Nodup) {t : Tag} (ht : S.Declares (sem t).arity t)
    (D nf : Nat) (args : List (Tree × List T × List String))
    (hwf : ∀ x ∈ args, x.1.WF (S.opSet sem) D nf x.2.1.length) (hne : args ≠ [])
    (hlen : args.length = (sem t).arity) (hD : args.length ≤ D) :
    (u16Max < (args.map fun x => x.2.1.length).sum ∨
    ∃ e names, ∃ u : Tree, S.build D t (args.map fun x => ((⟨x.1.toPostfix, x.2.1⟩ : PostfixExpr T), x.2.2))
        = some (e, names) ∧
      e.nodes = u.toPostfix ∧
      u.WF (S.opSet sem) D nf e.consts.length ∧
      ∀ feat, u.eval (S.opSet sem) feat (constAt e.consts)
        = (sem t).eval (args.map fun x => x.1.eval (S.opSet sem) feat (constAt x.2.1))) := by
  obtain ⟨id, h1, h2, h3, h4, h5, h6⟩ := C71_declared hc hd ht
  have hid : S.hasOp t = some id := by
    rw [OpSetDecl.opId, Option.map_eq_some_iff] at h1
    obtain ⟨i, hi, he⟩ := h1
    simp only [OpId.mk.injEq, true_and] at he
    rw [hi, he]
  by_cases hov : u16Max < (args.map fun x => x.2.1.length).sum
  · exact .inl hov
  refine .inr ?_
  have htot := C16_apply_total D id args hD (fun x hx c hcx => by
    exact (Tree.all_iff.mp (hwf x hx)).2.1 c hcx) (by omega)
  obtain ⟨⟨e, names⟩, he⟩ := Option.isSome_iff_exists.mp htot
  obtain ⟨ts, e1, e2, e3, e4, e5⟩ := C16_apply_correct (S.opSet sem) D nf id args e names hwf hne
    (by rw [hlen]; exact h4) he
  refine ⟨e, names, .op id ts, ?_, e1, e2, fun feat => ?_⟩
  · rw [OpSetDecl.build, hid]; exact he
  · rw [e4, hlen, h5]

/-! ### The overloads of `+ - * /` and unary `-` over the reals -/

/-- An expression in hand: a tree with its constants and names. -/
abbrev TreeExpr := Tree × List ℝ × List String

/-- The flat form of an expression in hand. -/
def TreeExpr.flat (x : TreeExpr) : PostfixExpr ℝ × List String := (⟨x.1.toPostfix, x.2.1⟩, x.2.2)

/-- The value of an expression in hand at a data row. -/
noncomputable def TreeExpr.val (S : OpSetDecl Marker) (x : TreeExpr) (feat : Nat → ℝ) : ℝ :=
  x.1.eval (S.opSet Marker.sem) feat (constAt x.2.1)

/-- `r` is an expression with the given value at every row. -/
def Means (S : OpSetDecl Marker) (D nf : Nat) (r : Option (PostfixExpr ℝ × List String))
    (val : (Nat → ℝ) → ℝ) : Prop :=
  ∃ y : TreeExpr, r = some y.flat ∧ y.1.WF (S.opSet Marker.sem) D nf y.2.1.length ∧
    ∀ feat, y.val S feat = val feat

theorem means_build {S : OpSetDecl Marker} (hc : S.Compiles Marker.sem)
    (hd : (S.blocks.map Prod.fst).Nodup) {t : Marker} (ht : S.Declares (Marker.sem t).arity t)
    {D nf : Nat} (args : List TreeExpr)
    (hwf : ∀ x ∈ args, x.1.WF (S.opSet Marker.sem) D nf x.2.1.length) (hne : args ≠ [])
    (hlen : args.length = (Marker.sem t).arity) (hD : args.length ≤ D)
    (hn : (args.map fun x => x.2.1.length).sum ≤ u16Max) :
    Means S D nf (S.build D t (args.map TreeExpr.flat))
      (fun feat => (Marker.sem t).eval (args.map fun x => TreeExpr.val S x feat)) := by
  rcases C71_constructor hc hd ht D nf args hwf hne hlen hD with h | ⟨e, names, u, h1, h2, h3, h4⟩
  · exact absurd hn (Nat.not_le.mpr h)
  · refine ⟨(u, e.consts, names), ?_, h3, h4⟩
    rw [show args.map TreeExpr.flat
      = args.map (fun x => ((⟨x.1.toPostfix, x.2.1⟩ : PostfixExpr ℝ), x.2.2)) from rfl, h1]
    simp [TreeExpr.flat, ← h2]

/-- **C71**, arithmetic on expressions: over any declared operator set (of the built-in operators) with
the operator in it, `x + y`, `x - y`, `x * y`, `x / y`, `-x`, `x - c`, `lit(c) - x`, … have the value
that the arithmetic of the values has. -/
theorem C71_arithmetic {S : OpSetDecl Marker} (hc : S.Compiles Marker.sem)
    (hd : (S.blocks.map Prod.fst).Nodup) {D nf : Nat} (hD : 2 ≤ D) (x y : TreeExpr) (c : ℝ)
    (hx : x.1.WF (S.opSet Marker.sem) D nf x.2.1.length)
    (hy : y.1.WF (S.opSet Marker.sem) D nf y.2.1.length)
    (hn : x.2.1.length + y.2.1.length ≤ u16Max) (hn' : x.2.1.length < u16Max) :
    (∀ b : Bin, S.Declares 2 (.bin b) →
      Means S D nf (S.build D (.bin b) [x.flat, y.flat]) (fun r => b.eval (x.val S r) (y.val S r)) ∧
      Means S D nf (S.buildRhs D (.bin b) x.flat c) (fun r => b.eval (x.val S r) c) ∧
      Means S D nf (S.buildLit D (.bin b) c x.flat) (fun r => b.eval c (x.val S r))) ∧
    (∀ u : Un, S.Declares 1 (.un u) →
      Means S D nf (S.build D (.un u) [x.flat]) (fun r => u.eval (x.val S r))) := by
  have hk : (Tree.const 0).WF (S.opSet Marker.sem) D nf [c].length := by simp [Tree.WF]
  refine ⟨fun b hb => ⟨?_, ?_, ?_⟩, fun u hu => ?_⟩
  · refine means_build hc hd (t := .bin b) hb [x, y] ?_ (by simp) rfl hD (by simpa using hn)
    simpa using ⟨hx, hy⟩
  · have := means_build hc hd (t := .bin b) hb [x, (.const 0, [c], [])] (D := D) (nf := nf)
      (by simpa using ⟨hx, hk⟩) (by simp) rfl hD (by simp; omega)
    simpa [OpSetDecl.buildRhs, TreeExpr.flat, constExpr, TreeExpr.val, constAt, Marker.sem] using this
  · have := means_build hc hd (t := .bin b) hb [(.const 0, [c], []), x] (D := D) (nf := nf)
      (by simpa using ⟨hk, hx⟩) (by simp) rfl hD (by simp; omega)
    simpa [OpSetDecl.buildLit, TreeExpr.flat, constExpr, TreeExpr.val, constAt, Marker.sem] using this
  · refine means_build hc hd (t := .un u) hu [x] ?_ (by simp) rfl (by simp; omega) (by simp; omega)
    simpa using hx

/-! ### The preset operator set -/

theorem presetDecl_compiles : presetDecl.Compiles Marker.sem where
  nonempty := by decide
  once := by decide
  arity := by
    intro b hb t ht
    simp only [presetDecl, List.mem_cons, List.not_mem_nil, or_false] at hb
    rcases hb with rfl | rfl | rfl <;> simp only [List.mem_map] at ht <;>
      obtain ⟨_, _, rfl⟩ := ht <;> rfl
  u8 := by decide
  u16 := by decide

theorem presetDecl_arities : (presetDecl.blocks.map Prod.fst).Nodup := by decide

/-- **C71**, presets: the declaration of the preset operator set is the operator set the other theorems
about the built-in operators use: the same kernels, the same known identifiers, and the same lookup
table. -/
theorem C71_preset :
    (∀ a id, (presetDecl.opSet Marker.sem).known a id = realOps.known a id) ∧
    (∀ a id v, v.length = a → (presetDecl.opSet Marker.sem).eval a id v = realOps.eval a id v) ∧
    (∀ a id v j, v.length = a →
      (presetDecl.opSet Marker.sem).partial_ a id v j = realOps.partial_ a id v j) ∧
    (presetDecl.table Marker.sem).maxArity = presetTable.maxArity ∧
    (∀ a, (presetDecl.table Marker.sem).opsWithArity a = presetTable.opsWithArity a) ∧
    (∀ a id, (presetDecl.table Marker.sem).metas a id = presetTable.metas a id) := by
  have harm : ∀ a, presetDecl.arm a = match a with
      | 1 => some (unTable.map .un) | 2 => some (binTable.map .bin) | 3 => some (terTable.map .ter)
      | _ => none := by
    intro a
    match a with
    | 0 => rfl
    | 1 => rfl
    | 2 => rfl
    | 3 => rfl
    | n + 4 =>
      simp only [OpSetDecl.arm, presetDecl, List.find?_cons, List.find?_nil]
      simp
  have hdis : ∀ a id, presetDecl.dispatch a id = match a with
      | 1 => unTable[id]?.map .un | 2 => binTable[id]?.map .bin | 3 => terTable[id]?.map .ter
      | _ => none := by
    intro a id
    rw [dispatch_eq, harm]
    split <;> simp
  have hun : presetNames 1 = unTable.map Un.nm := by decide
  have hbin : presetNames 2 = binTable.map Bin.nm := by decide
  have hter : presetNames 3 = terTable.map Ter.nm := by decide
  refine ⟨?_, ?_, ?_, rfl, ?_, ?_⟩
  · intro a id
    simp only [OpSetDecl.opSet, hdis, realOps]
    split
    · rw [Option.isSome_map]
      by_cases h : id < unTable.length <;> simp [h, List.getElem?_eq_none]
    · rw [Option.isSome_map]
      by_cases h : id < binTable.length <;> simp [h, List.getElem?_eq_none]
    · rw [Option.isSome_map]
      by_cases h : id < terTable.length <;> simp [h, List.getElem?_eq_none]
    · next h1 h2 h3 =>
      have e1 : (a == 1) = false := beq_eq_false_iff_ne.mpr h1
      have e2 : (a == 2) = false := beq_eq_false_iff_ne.mpr h2
      have e3 : (a == 3) = false := beq_eq_false_iff_ne.mpr h3
      simp [e1, e2, e3]
  · intro a id v hv
    simp only [OpSetDecl.opSet, hdis, realOps]
    match a, hv with
    | 0, _ => rfl
    | 1, hv =>
      obtain ⟨x, rfl⟩ := List.length_eq_one_iff.mp hv
      cases unTable[id]? <;> rfl
    | 2, hv =>
      obtain ⟨x, y, rfl⟩ := List.length_eq_two.mp hv
      cases binTable[id]? <;> rfl
    | 3, hv =>
      obtain ⟨x, y, z, rfl⟩ := List.length_eq_three.mp hv
      cases terTable[id]? <;> rfl
    | n + 4, _ => rfl
  · intro a id v j hv
    simp only [OpSetDecl.opSet, hdis, realOps]
    match a, hv with
    | 0, _ => rfl
    | 1, hv =>
      obtain ⟨x, rfl⟩ := List.length_eq_one_iff.mp hv
      cases unTable[id]? <;> rfl
    | 2, hv =>
      obtain ⟨x, y, rfl⟩ := List.length_eq_two.mp hv
      cases binTable[id]? <;> rfl
    | 3, hv =>
      obtain ⟨x, y, z, rfl⟩ := List.length_eq_three.mp hv
      cases terTable[id]? <;> rfl
    | n + 4, _ => rfl
  · intro a
    show presetDecl.opsWithArity a = List.range (presetNames a).length
    rw [opsWithArity_eq, harm]
    split
    · rw [hun]; simp
    · rw [hbin]; simp
    · rw [hter]; simp
    · next h1 h2 h3 => simp [presetNames]
  · intro a id
    simp only [OpSetDecl.table, presetTable, meta_eq, hdis]
    split
    · rw [hun, List.getElem?_map]
      cases unTable[id]? with
      | none => rfl
      | some u => cases u <;> rfl
    · rw [hbin, List.getElem?_map]
      cases binTable[id]? with
      | none => rfl
      | some u => cases u <;> rfl
    · rw [hter, List.getElem?_map]
      cases terTable[id]? with
      | none => rfl
      | some u => cases u <;> rfl
    · next h1 h2 h3 => simp [presetNames]

/-- **C71**, flags: where a built-in operator is declared commutative (associative) its function is. -/
theorem C71_flags (b : Bin) :
    ((Marker.sem (.bin b)).commutative = true → ∀ x y, b.eval x y = b.eval y x) ∧
    ((Marker.sem (.bin b)).associative = true →
      ∀ x y z, b.eval (b.eval x y) z = b.eval x (b.eval y z)) := by
  cases b <;> simp only [Marker.sem, Marker.flag, Bin.eval, Bool.false_eq_true, false_imp_iff,
    true_imp_iff, and_true, and_self]
  · exact ⟨add_comm, add_assoc⟩
  · exact ⟨max_comm, max_assoc⟩
  · exact ⟨min_comm, min_assoc⟩
  · exact ⟨mul_comm, mul_assoc⟩

/-- **C71**, names: in the preset set every operator is found under its own
name, and under its display form if its arity is given. -/
theorem C71_preset_names (op : OpId) (h : op ∈ presetTable.allOps) :
    presetTable.lookup Char.isWhitespace (presetTable.metas.name op.arity op.id) = .ok op ∧
    presetTable.lookupWithArity Char.isWhitespace (presetTable.metas.display op.arity op.id) op.arity
      = .ok op := by
  have : ∀ op ∈ presetTable.allOps,
      presetTable.lookup Char.isWhitespace (presetTable.metas.name op.arity op.id) = .ok op ∧
      presetTable.lookupWithArity Char.isWhitespace (presetTable.metas.display op.arity op.id) op.arity
        = .ok op := by decide +kernel
  exact this op h

/-! ### Typed selection -/

/-- **C71**, selection: a chain of `unary::<Op>()` / `binary::<Op>()` calls for operators of that arity,
at most `D`, gives exactly the named operators, grouped by arity in the order of the calls
(a repeated operator is kept twice); any other arity panics. -/
theorem C71_builder [DecidableEq Tag] {S : OpSetDecl Tag} {sem : Tag → OpDef T}
    (hc : S.Compiles sem) (D : Nat) (calls : List (Nat × Tag))
    (hdec : ∀ c ∈ calls, ∃ a, S.Declares a c.2) :
    ((∀ c ∈ calls, c.1 = (sem c.2).arity ∧ 1 ≤ c.1 ∧ c.1 ≤ D) →
      ∃ ops : List OpId, List.Forall₂ (fun c op => S.opId sem c.2 = some op ∧ op.arity = c.1) calls ops ∧
        S.builder sem (Operators.new D) calls = some (Operators.of D ops)) ∧
    ((∃ c ∈ calls, ¬ (c.1 = (sem c.2).arity ∧ 1 ≤ c.1 ∧ c.1 ≤ D)) →
      S.builder sem (Operators.new D) calls = none) := by
  have hop : ∀ c ∈ calls, ∃ id, S.opId sem c.2 = some ⟨(sem c.2).arity, id⟩ := by
    intro c h
    obtain ⟨a, l, hb, ht⟩ := hdec c h
    exact ⟨_, by rw [OpSetDecl.opId, hasOp_of_mem hc.once hb ht]; rfl⟩
  clear hdec
  rw [Operators.of_nil]
  have key : ∀ done : List OpId,
      ((∀ c ∈ calls, c.1 = (sem c.2).arity ∧ 1 ≤ c.1 ∧ c.1 ≤ D) →
        ∃ ops : List OpId, List.Forall₂ (fun c op => S.opId sem c.2 = some op ∧ op.arity = c.1) calls ops ∧
          S.builder sem (Operators.of D done) calls = some (Operators.of D (done ++ ops))) ∧
      ((∃ c ∈ calls, ¬ (c.1 = (sem c.2).arity ∧ 1 ≤ c.1 ∧ c.1 ≤ D)) →
        S.builder sem (Operators.of D done) calls = none) := by
    induction calls with
    | nil => exact fun done => ⟨fun _ => ⟨[], .nil, by simp [OpSetDecl.builder]⟩, by simp⟩
    | cons c calls ih =>
      intro done
      have ih := ih (fun d h => hop d (List.mem_cons_of_mem _ h))
      obtain ⟨id, hid⟩ := hop c (List.mem_cons_self ..)
      by_cases h : c.1 = (sem c.2).arity ∧ 1 ≤ c.1 ∧ c.1 ≤ D
      · have hstep : S.pushArity sem c.1 (Operators.of D done) c.2
            = some (Operators.of D (done ++ [⟨(sem c.2).arity, id⟩])) := by
          have hp := Operators.push_of D done ⟨(sem c.2).arity, id⟩ (h.1 ▸ h.2.1) (h.1 ▸ h.2.2)
          simp only [OpSetDecl.pushArity, hid, OpSetDecl.pushOp]
          rw [if_pos h.1.symm, if_pos ⟨h.1 ▸ h.2.1, h.1 ▸ h.2.2⟩, hp]
        have hb : S.builder sem (Operators.of D done) (c :: calls)
            = S.builder sem (Operators.of D (done ++ [⟨(sem c.2).arity, id⟩])) calls := by
          rw [OpSetDecl.builder, hstep]
        rw [hb]
        refine ⟨fun hall => ?_, fun hex => ?_⟩
        · obtain ⟨ops, h1, h2⟩ := (ih (done ++ [⟨(sem c.2).arity, id⟩])).1
            (fun d hd => hall d (List.mem_cons_of_mem _ hd))
          exact ⟨⟨(sem c.2).arity, id⟩ :: ops, .cons ⟨hid, h.1.symm⟩ h1, by rw [h2]; simp⟩
        · obtain ⟨d, hd, hn⟩ := hex
          rcases List.mem_cons.mp hd with rfl | hd
          · exact absurd h hn
          · exact (ih _).2 ⟨d, hd, hn⟩
      · have hstep : S.pushArity sem c.1 (Operators.of D done) c.2 = none := by
          simp only [OpSetDecl.pushArity, hid, OpSetDecl.pushOp]
          by_cases he : (sem c.2).arity = c.1
          · rw [if_pos he, if_neg]
            rintro ⟨h1, h2⟩
            exact h ⟨he.symm, he ▸ h1, he ▸ h2⟩
          · rw [if_neg he]
        have hb : S.builder sem (Operators.of D done) (c :: calls) = none := by
          rw [OpSetDecl.builder, hstep]
        rw [hb]
        exact ⟨fun hall => absurd (hall c (List.mem_cons_self ..)) h, fun _ => rfl⟩
  simpa using key []

/-! ### `custom_opset!` -/

/-- **C71**, custom operators: an operator declared with `custom_opset!` has the declared functions; a
field that is left out has its documented default (display form: the name; no infix form; not
commutative, not associative; complexity 1); `eval` and `partial` are required. -/
theorem C71_custom (a : Nat) (name : List Char) (body : List (OpField T)) :
    (∀ f, customOp a name body = some f → f.arity = a ∧ f.name = name ∧
      .eval f.eval ∈ body ∧ .partial_ f.partial_ ∈ body ∧
      (.display f.display ∈ body ∨ f.display = name ∧ ∀ s, .display s ∉ body) ∧
      ((∃ s, f.infix_ = some s ∧ .infix_ s ∈ body) ∨ f.infix_ = none ∧ ∀ s, .infix_ s ∉ body) ∧
      (.commutative f.commutative ∈ body ∨ f.commutative = false ∧ ∀ b, .commutative b ∉ body) ∧
      (.associative f.associative ∈ body ∨ f.associative = false ∧ ∀ b, .associative b ∉ body) ∧
      (.complexity f.complexity ∈ body ∨ f.complexity = 1 ∧ ∀ n, .complexity n ∉ body)) ∧
    (customOp a name body = none ↔ (∀ g, .eval g ∉ body) ∨ ∀ g, .partial_ g ∉ body) := by
  have he : (∃ g, OpField.getEval body = some g ∧ .eval g ∈ body) ∨
      OpField.getEval body = none ∧ ∀ g, .eval g ∉ body := by
    induction body with
    | nil => simp [OpField.getEval]
    | cons x body ih => cases x <;> simp_all [OpField.getEval]
  have hp : (∃ g, OpField.getPartial body = some g ∧ .partial_ g ∈ body) ∨
      OpField.getPartial body = none ∧ ∀ g, .partial_ g ∉ body := by
    clear he
    induction body with
    | nil => simp [OpField.getPartial]
    | cons x body ih => cases x <;> simp_all [OpField.getPartial]
  refine ⟨fun f hf => ?_, ?_⟩
  · unfold customOp at hf
    split at hf
    · next e p h1 h2 =>
      simp only [Option.some.injEq] at hf
      subst hf
      rw [h1] at he
      rw [h2] at hp
      simp only [Option.some.injEq, exists_eq_left', reduceCtorEq, false_and, or_false] at he hp
      refine ⟨rfl, rfl, he, hp, ?_, ?_, ?_, ?_, ?_⟩
      all_goals
        clear h1 h2 he hp
        dsimp only
        induction body with
        | nil => simp [OpField.getDisplay, OpField.getInfix, OpField.getCommutative,
            OpField.getAssociative, OpField.getComplexity]
        | cons x body ih =>
          cases x <;> simp_all [OpField.getDisplay, OpField.getInfix, OpField.getCommutative,
            OpField.getAssociative, OpField.getComplexity]
    · simp at hf
  · unfold customOp
    rcases he with ⟨g, he, hm⟩ | ⟨he, hm⟩ <;> rcases hp with ⟨g', hp, hm'⟩ | ⟨hp, hm'⟩
    · simp only [he, hp]
      simp only [reduceCtorEq, false_iff, not_or, not_forall, not_not]
      exact ⟨⟨g, hm⟩, ⟨g', hm'⟩⟩
    all_goals simp [he, hp, hm, hm']

/-! ### Non-vacuity, and the exception -/

/-- Non-vacuity: the preset declaration meets the hypotheses; `2 * sin(x0) - x1` built with the typed
constructors, and the default binary operators selected with the builder. -/
example : presetDecl.Compiles Marker.sem ∧ (presetDecl.blocks.map Prod.fst).Nodup ∧
    presetDecl.Declares 1 (.un .sin) ∧ presetDecl.hasOp (.un .sin) = some 25 ∧
    presetDecl.hasOp (.bin .sub) = some 7 ∧
    (presetDecl.builder Marker.sem (Operators.new 3) srDefaultBinary).map Operators.byArity
      = some [[], [⟨2, 0⟩, ⟨2, 7⟩, ⟨2, 5⟩, ⟨2, 2⟩], []] :=
  ⟨presetDecl_compiles, presetDecl_arities, ⟨_, List.mem_cons_self .., by decide⟩, by decide, by decide,
    rfl⟩

/-- The declaration `opset! { struct S<f64>; ops { (2, A) { Add, Sub } (2, B) { Mul, Div } } }`. -/
def repeatedArity : OpSetDecl Marker := ⟨[(2, [.bin .add, .bin .sub]), (2, [.bin .mul, .bin .div])]⟩

/-- **C71**, the exception: two blocks of the same arity are accepted, and then the operators of the
second block cannot be reached: the identifier of `Mul` is that of `Add` — `x * y` builds `x + y` —
and only the first block's operators are listed. -/
theorem C71_repeated_arity :
    repeatedArity.Compiles Marker.sem ∧ repeatedArity.opsWithArity 2 = [0, 1] ∧
    repeatedArity.opId Marker.sem (.bin .mul) = repeatedArity.opId Marker.sem (.bin .add) ∧
    repeatedArity.build (T := ℝ) 2 (.bin .mul) [(⟨[.var 0], []⟩, []), (⟨[.var 1], []⟩, [])]
      = some (⟨(Tree.op 0 [.var 0, .var 1]).toPostfix, []⟩, []) ∧
    ∀ feat, (Tree.op 0 [.var 0, .var 1]).eval (repeatedArity.opSet Marker.sem) feat (constAt [])
      = feat 0 + feat 1 := by
  refine ⟨⟨by decide, by decide, ?_, by decide, by decide⟩, by decide, rfl, ?_, fun feat => ?_⟩
  · intro b hb t ht
    simp only [repeatedArity, List.mem_cons, List.not_mem_nil, or_false] at hb
    rcases hb with rfl | rfl <;> simp only [List.mem_cons, List.not_mem_nil, or_false] at ht <;>
      rcases ht with rfl | rfl <;> rfl
  · rw [OpSetDecl.build, show repeatedArity.hasOp (.bin .mul) = some 0 by decide]
    rfl
  · simp only [Tree.eval_op, List.length_cons, List.length_nil, List.map_cons, List.map_nil,
      Tree.eval_var]
    rfl

end SR
