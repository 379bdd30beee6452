import Verif.Model.Eval
/-
Model of `dynamic_expressions/src/utils.rs` and of `__apply_postfix` in
`dynamic_expressions/src/expression_algebra.rs`.
-/
namespace SR
variable {T : Type}

/-- `get_scalar_constants`, utils.rs:26-31.  The `ConstRef` is its `const_indices`. -/
def getScalarConstants (e : PostfixExpr T) : List T × List Nat :=
  (e.consts, List.range e.consts.length)

/-- Loop of `set_scalar_constants`, utils.rs:41-43; `src` is the running `src_i`. -/
def setConstsLoop (newValues : List T) : List Nat → Nat → List T → Option (List T)
  | [], _, consts => some consts
  | dst :: rest, src, consts =>
    match newValues[src]? with
    | none => none
    | some v =>
      if dst < consts.length then setConstsLoop newValues rest (src + 1) (consts.set dst v) else none

/-- `set_scalar_constants`, utils.rs:33-44 (`none` = assertion or index panic). -/
def setScalarConstants (e : PostfixExpr T) (newValues : List T) (cref : List Nat) :
    Option (PostfixExpr T) :=
  if newValues.length = cref.length then
    (setConstsLoop newValues cref 0 e.consts).map fun cs => { e with consts := cs }
  else none

/-- Mutable state of `compress_constants`: the remap table (`u16::MAX` = unset), new constants, the
changed flag and the rewritten nodes. -/
structure CompressState (T : Type) where
  remap : List Nat
  newConsts : List T
  changed : Bool
  nodes : List PNode

/-- Loop body of `compress_constants`, utils.rs:52-66. -/
def compressStep (consts : List T) (st : CompressState T) (n : PNode) : Option (CompressState T) :=
  match n with
  | .const idx =>
    match st.remap[idx]? with
    | none => none
    | some slot =>
      if slot = u16Max then
        if u16Max ≤ st.newConsts.length then none
        else
          match consts[idx]? with
          | none => none
          | some v =>
            let new := st.newConsts.length
            some { remap := st.remap.set idx new
                   newConsts := st.newConsts ++ [v]
                   changed := st.changed || (idx != new)
                   nodes := st.nodes ++ [.const new] }
      else some { st with changed := st.changed || (idx != slot), nodes := st.nodes ++ [.const slot] }
  | n => some { st with nodes := st.nodes ++ [n] }

/-- `compress_constants`, utils.rs:46-71. -/
def compressConstants (e : PostfixExpr T) : Option (PostfixExpr T × Bool) :=
  (e.nodes.foldlM (compressStep e.consts)
    { remap := List.replicate e.consts.length u16Max, newConsts := [], changed := false,
      nodes := [] }).map fun st =>
    (⟨st.nodes, st.newConsts⟩, st.changed || (st.newConsts.length != e.consts.length))

/-- Index shift of the constants of one argument, expression_algebra.rs:102-108 (`checked_add` on
`u16`). -/
def shiftNode (offset : Nat) : PNode → Option PNode
  | .const idx => if idx + offset ≤ u16Max then some (.const (idx + offset)) else none
  | n => some n

/-- Argument loop of `__apply_postfix`, expression_algebra.rs:91-112: (nodes, consts, variable names).
An argument is its expression and its metadata's variable names. -/
def applyLoop : List (PostfixExpr T × List String) → List PNode × List T × List String →
    Option (List PNode × List T × List String)
  | [], acc => some acc
  | (e, names) :: rest, (nodes, consts, outNames) =>
    let outNames := if outNames.isEmpty && !names.isEmpty then names else outNames
    if consts.length ≤ u16Max then
      match e.nodes.mapM (shiftNode consts.length) with
      | none => none
      | some ns => applyLoop rest (nodes ++ ns, consts ++ e.consts, outNames)
    else none

/-- `__apply_postfix`, expression_algebra.rs:80-119: arity `A` is the number of arguments. -/
def applyPostfix (D opId : Nat) (args : List (PostfixExpr T × List String)) :
    Option (PostfixExpr T × List String) :=
  if args.length ≤ D then
    (applyLoop args ([], [], [])).map fun r =>
      (⟨r.1 ++ [.op args.length opId], r.2.1⟩, r.2.2)
  else none

/-- `__const_expr`, expression_algebra.rs:121-123 (no variable names). -/
def constExpr (v : T) : PostfixExpr T × List String := (⟨[.const 0], [v]⟩, [])

/-- `PostfixExpr::zero`, expression.rs:43-48. -/
def zeroExpr [Scalar T] : PostfixExpr T := ⟨[.const 0], [Scalar.zero]⟩

end SR
