import Verif.Model.Utils
/-
Model of `dynamic_expressions/src/simplify.rs`.
-/
namespace SR
variable {T : Type}

/-- Subtraction of scalars (`Sub` of `Float`); `Scalar` has the rest. -/
class SubScalar (T : Type) extends Scalar T where
  sub : T → T → T

/-! ### Constant folding -/

/-- `Frame`, simplify.rs:9-14. -/
structure Frame (T : Type) where
  start : Nat
  isConst : Bool
  value : T

/-- Mutable locals of `simplify_tree_in_place`, simplify.rs:397-400 (stack top at the head). -/
structure FoldState (T : Type) where
  nodes : List PNode
  consts : List T
  stack : List (Frame T)
  changed : Bool

/-- Keep the operator node, with a non-constant frame starting at `start` (simplify.rs:428-430 and the
other "keep" exits). -/
def FoldState.keep [Scalar T] (st : FoldState T) (n : PNode) (stack : List (Frame T)) (start : Nat) :
    FoldState T :=
  { st with nodes := st.nodes ++ [n], stack := ⟨start, false, Scalar.zero⟩ :: stack }

/-- Loop body of `simplify_tree_in_place`, simplify.rs:402-480.  `none` models the panics: constant
index out of range, unknown operator, `debug_assert!(a <= D)`, and `stack[stack_len - 0]` for arity 0. -/
def foldStep [Scalar T] (ops : OpSet T) (D : Nat) (opts : EvalOptions) (st : FoldState T) (n : PNode) :
    Option (FoldState T) :=
  match n with
  | .var _ => some (st.keep n st.stack st.nodes.length)
  | .const idx =>
    match st.consts[idx]? with
    | none => none
    | some v => some { st with nodes := st.nodes ++ [n],
                               stack := ⟨st.nodes.length, true, v⟩ :: st.stack }
  | .op a o =>
    if D < a then none
    else if st.stack.length < a then some (st.keep n st.stack st.nodes.length)
    else
      let children := (st.stack.take a).reverse
      let rest := st.stack.drop a
      match children with
      | [] => none
      | c0 :: _ =>
        if !(children.all Frame.isConst) then some (st.keep n rest c0.start)
        else
          let vals := children.map Frame.value
          if vals.any (fun v => !(Scalar.isFinite v)) then some (st.keep n rest c0.start)
          else if !(ops.known a o) then none
          else
            match evalNary (ops.eval a o) 1 (vals.map SrcRef.const) opts with
            | some ([out], ok) =>
              if !(ok && Scalar.isFinite out) then some (st.keep n rest c0.start)
              else if u16Max < st.consts.length then some (st.keep n rest c0.start)
              else some { nodes := st.nodes.take c0.start ++ [.const st.consts.length]
                          consts := st.consts ++ [out]
                          stack := ⟨c0.start, true, out⟩ :: rest
                          changed := true }
            | _ => none

/-- `simplify_tree_in_place`, simplify.rs:373-488. -/
def simplifyTree [Scalar T] (ops : OpSet T) (D : Nat) (opts : EvalOptions) (e : PostfixExpr T) :
    Option (PostfixExpr T × Bool) :=
  (e.nodes.foldlM (foldStep ops D opts) ⟨[], e.consts, [], false⟩).map fun st =>
    (if st.changed then ⟨st.nodes, st.consts⟩ else e, st.changed)

/-! ### Combining operators -/

/-- `ArenaNodeKind`, simplify.rs:21-26; `children` is the full array of length `D`. -/
inductive ANode where
  | var (f : Nat)
  | const (c : Nat)
  | op (arity o : Nat) (children : List Nat)
deriving DecidableEq, Repr

/-- `CombineCfg`, simplify.rs:28-33. -/
structure CombineCfg where
  add : Option Nat
  mul : Option Nat
  sub : Option Nat

/-- `is_const`, simplify.rs:39-44. -/
def isConstA (A : List ANode) (id : Nat) : Option Nat :=
  match A[id]? with
  | some (.const c) => some c
  | _ => none

/-- `is_op`, simplify.rs:46-51: note that the arity is returned, not tested. -/
def isOpA (A : List ANode) (id o : Nat) : Option (Nat × List Nat) :=
  match A[id]? with
  | some (.op a o' ch) => if o' = o then some (a, ch) else none
  | _ => none

/-- `append_const`, simplify.rs:53-63. -/
def appendConst [Scalar T] (consts : List T) (v : T) : Option (Nat × List T) :=
  if !(Scalar.isFinite v) then none
  else if u16Max < consts.length then none
  else some (consts.length, consts ++ [v])

/-- Result of combining at a node: new id, arena, constants, changed flag. -/
abbrev CombRes (T : Type) := Nat × List ANode × List T × Bool

/-- The `+` / `*` part of `combine_node`, simplify.rs:96-187.  `f` is the scalar operation. -/
def combineAddMul [Scalar T] (f : T → T → T) (id arity o : Nat) (children : List Nat) (A : List ANode)
    (consts : List T) (changed : Bool) : Option (CombRes T) :=
  match children[0]?, children[1]? with
  | some l0, some r0 =>
    let swap := (isConstA A l0).isSome
    let left := if swap then r0 else l0
    let right := if swap then l0 else r0
    let changed := changed || swap
    -- every exit that keeps `id` writes the (possibly swapped) children back
    let keep : CombRes T := (id, A.set id (.op arity o ((children.set 0 left).set 1 right)), consts, changed)
    match isConstA A right with
    | none => some keep
    | some topIdx =>
      match consts[topIdx]? with
      | none => none
      | some topV =>
        match isOpA A left o with
        | none => some keep
        | some (belowArity, bc) =>
          if belowArity = 2 then
            match bc[0]?, bc[1]? with
            | some b0, some b1 =>
              let go (leaf cidx : Nat) : Option (CombRes T) :=
                match consts[cidx]? with
                | none => none
                | some belowV =>
                  if !(Scalar.isFinite belowV) || !(Scalar.isFinite topV) then some keep
                  else
                    match appendConst consts (f belowV topV) with
                    | none => some keep
                    | some (k, consts') => some (left, A.set leaf (.const k), consts', true)
              match isConstA A b0 with
              | some ci => go b0 ci
              | none =>
                match isConstA A b1 with
                | some ci => go b1 ci
                | none => some keep
            | _, _ => none
          else some keep
  | _, _ => none

/-- One subtraction pattern that fired or not: write `Const(new)` at `leaf` and the new children at
`id`; `none` when the guard (finiteness, room for a constant) fails so control falls through. -/
def subRewrite [Scalar T] (id arity o : Nat) (children : List Nat) (A : List ANode) (consts : List T)
    (a b v : T) (leaf c0 c1 : Nat) : Option (CombRes T) :=
  if Scalar.isFinite a && Scalar.isFinite b then
    match appendConst consts v with
    | none => none
    | some (k, consts') =>
      some (id, (A.set leaf (.const k)).set id (.op arity o ((children.set 0 c0).set 1 c1)), consts', true)
  else none

/-- Patterns 1 and 2 of the subtraction part, simplify.rs:199-241.  Outer `none` = panic, inner `none` =
no rewrite, fall through. -/
def combineSubLeft [SubScalar T] (id arity o : Nat) (children : List Nat) (A : List ANode)
    (consts : List T) (left right : Nat) : Option (Option (CombRes T)) :=
  match isConstA A left with
  | none => some none
  | some aIdx =>
    match isOpA A right o with
    | none => some none
    | some (_, rc) =>
      match rc[0]?, rc[1]?, consts[aIdx]? with
      | some r0, some r1, some aV =>
        match isConstA A r0 with
        | some bIdx =>
          match consts[bIdx]? with
          | none => none
          | some bV => some (subRewrite id arity o children A consts aV bV (SubScalar.sub bV aV) r0 r1 r0)
        | none =>
          match isConstA A r1 with
          | some bIdx =>
            match consts[bIdx]? with
            | none => none
            | some bV => some (subRewrite id arity o children A consts aV bV (Scalar.add aV bV) left left r0)
          | none => some none
      | _, _, _ => none

/-- Patterns 3 and 4, simplify.rs:243-285. -/
def combineSubRight [SubScalar T] (id arity o : Nat) (children : List Nat) (A : List ANode)
    (consts : List T) (left right : Nat) : Option (Option (CombRes T)) :=
  match isConstA A right with
  | none => some none
  | some bIdx =>
    match isOpA A left o with
    | none => some none
    | some (_, lc) =>
      match lc[0]?, lc[1]?, consts[bIdx]? with
      | some l0, some l1, some bV =>
        match isConstA A l0 with
        | some aIdx =>
          match consts[aIdx]? with
          | none => none
          | some aV => some (subRewrite id arity o children A consts aV bV (SubScalar.sub aV bV) l0 l0 l1)
        | none =>
          match isConstA A l1 with
          | some aIdx =>
            match consts[aIdx]? with
            | none => none
            | some aV => some (subRewrite id arity o children A consts aV bV (Scalar.add aV bV) l1 l0 l1)
          | none => some none
      | _, _, _ => none

/-- The part of `combine_node` after the children loop, simplify.rs:82-289. -/
def combineTop [SubScalar T] (cfg : CombineCfg) (id arity o : Nat) (children : List Nat)
    (A : List ANode) (consts : List T) (changed : Bool) : Option (CombRes T) :=
  if arity ≠ 2 then some (id, A, consts, changed)
  else if cfg.add = some o ∨ cfg.mul = some o then
    combineAddMul (if cfg.add = some o then Scalar.add else Scalar.mul) id arity o children A consts
      changed
  else if cfg.sub = some o then
    match children[0]?, children[1]? with
    | some left, some right =>
      match combineSubLeft id arity o children A consts left right with
      | none => none
      | some (some r) => some r
      | some none =>
        match combineSubRight id arity o children A consts left right with
        | none => none
        | some (some r) => some r
        | some none => some (id, A, consts, changed)
    | _, _ => none
  else some (id, A, consts, changed)

mutual
/-- `combine_node`, simplify.rs:65-289.  The Rust recursion is on the arena's tree structure; here it
has fuel (`none` when exhausted), and the theorems show the arena's size is always enough. -/
def combineNode [SubScalar T] (cfg : CombineCfg) : Nat → Nat → List ANode → List T → Bool →
    Option (CombRes T)
  | 0, _, _, _, _ => none
  | fuel + 1, id, A, consts, changed =>
    match A[id]? with
    | none => none
    | some (.op arity o children) =>
      match combineKids cfg fuel (children.take arity) A consts changed with
      | none => none
      | some (kids, A, consts, changed) =>
        let children := kids ++ children.drop arity
        combineTop cfg id arity o children (A.set id (.op arity o children)) consts changed
    | some _ => some (id, A, consts, changed)
/-- The children loop, simplify.rs:79-81. -/
def combineKids [SubScalar T] (cfg : CombineCfg) : Nat → List Nat → List ANode → List T → Bool →
    Option (List Nat × List ANode × List T × Bool)
  | 0, _, _, _, _ => none
  | _ + 1, [], A, consts, changed => some ([], A, consts, changed)
  | fuel + 1, c :: cs, A, consts, changed =>
    match combineNode cfg fuel c A consts changed with
    | none => none
    | some (c', A, consts, changed) =>
      match combineKids cfg fuel cs A consts changed with
      | none => none
      | some (cs', A, consts, changed) => some (c' :: cs', A, consts, changed)
end

mutual
/-- `emit_postfix`, simplify.rs:291-302, with fuel as above. -/
def emitPostfix : Nat → Nat → List ANode → Option (List PNode)
  | 0, _, _ => none
  | fuel + 1, id, A =>
    match A[id]? with
    | none => none
    | some (.var f) => some [.var f]
    | some (.const c) => some [.const c]
    | some (.op arity o children) =>
      (emitKids fuel (children.take arity) A).map fun out => out ++ [.op arity o]
def emitKids : Nat → List Nat → List ANode → Option (List PNode)
  | 0, _, _ => none
  | _ + 1, [], _ => some []
  | fuel + 1, c :: cs, A =>
    match emitPostfix fuel c A, emitKids fuel cs A with
    | some x, some y => some (x ++ y)
    | _, _ => none
end

/-- Loop body of `parse_postfix_to_arena`, simplify.rs:310-342.  Outer `none` = panic (`children[j]`
with arity above `D`), inner `none` = `return None`. -/
def parseStep (D : Nat) (st : List ANode × List Nat) (n : PNode) :
    Option (Option (List ANode × List Nat)) :=
  match n with
  | .var f => some (some (st.1 ++ [.var f], st.1.length :: st.2))
  | .const c => some (some (st.1 ++ [.const c], st.1.length :: st.2))
  | .op a o =>
    if st.2.length < a then some none
    else if D < a then none
    else some (some (st.1 ++ [.op a o ((st.2.take a).reverse ++ List.replicate (D - a) 0)],
      st.1.length :: st.2.drop a))

/-- Node loop of `parse_postfix_to_arena`. -/
def parseLoop (D : Nat) : List PNode → List ANode × List Nat → Option (Option (List ANode × List Nat))
  | [], st => some (some st)
  | n :: ns, st =>
    match parseStep D st n with
    | none => none
    | some none => some none
    | some (some st') => parseLoop D ns st'

/-- `parse_postfix_to_arena`, simplify.rs:304-347. -/
def parsePostfix (D : Nat) (nodes : List PNode) : Option (Option (List ANode × Nat)) :=
  match parseLoop D nodes ([], []) with
  | none => none
  | some none => some none
  | some (some (A, [root])) => some (some (A, root))
  | some (some _) => some none

/-- `combine_operators_in_place_with_cfg`, simplify.rs:349-371.  Fuel: twice the number of nodes. -/
def combineOperators [SubScalar T] (cfg : CombineCfg) (D : Nat) (e : PostfixExpr T) :
    Option (PostfixExpr T × Bool) :=
  match parsePostfix D e.nodes with
  | none => none
  | some none => some (e, false)
  | some (some (A, root)) =>
    match combineNode cfg (2 * A.length) root A e.consts false with
    | none => none
    | some (root', A', consts', changed) =>
      if !changed && root' == root then some (⟨e.nodes, consts'⟩, false)
      else
        match emitPostfix (2 * A.length) root' A' with
        | none => none
        | some out => some (⟨out, consts'⟩, changed)

/-- `simplify_in_place`, simplify.rs:503-512.  `cfg` is the result of looking up `+`, `*`, `-` with
arity 2 (`combine_operators_in_place`, simplify.rs:490-501; lookup is modelled in `Model/Lookup.lean`). -/
def simplifyInPlace [SubScalar T] (ops : OpSet T) (cfg : CombineCfg) (D : Nat) (opts : EvalOptions)
    (e : PostfixExpr T) : Option (PostfixExpr T × Bool) :=
  match simplifyTree ops D opts e with
  | none => none
  | some (e1, c1) =>
    match combineOperators cfg D e1 with
    | none => none
    | some (e2, c2) =>
      match compressConstants e2 with
      | none => none
      | some (e3, c3) => some (e3, c1 || c2 || c3)

end SR
