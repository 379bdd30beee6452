import Verif.Spec.Scalar
/-
Model of `dynamic_expressions/src/compile.rs`.
-/
namespace SR

/-- `Src`, node.rs:9-13. -/
inductive Src where
  | slot (s : Nat)
  | var (f : Nat)
  | const (c : Nat)
deriving DecidableEq, Repr, Inhabited

/-- `Instr`, compile.rs:15-21.  The Rust array `[Src; D]` is padded with `Const(0)` beyond `arity`;
only the first `arity` entries are ever read, so here `args` has length `arity`. -/
structure Instr where
  arity : Nat
  op : Nat
  args : List Src
  dst : Nat
deriving DecidableEq, Repr

/-- `EvalPlan`, compile.rs:7-13. -/
structure EvalPlan where
  instrs : List Instr
  nSlots : Nat
  root : Src
  hash : UInt64
deriving DecidableEq, Repr

/-- The largest `u16`. -/
def u16Max : Nat := 65535

/-- The mutable locals of `compile_plan`, compile.rs:43-48 (stacks with top at the head). -/
structure CompState where
  stack : List Src
  instrs : List Instr
  free : List Nat
  next : Nat
  maxSlot : Nat
deriving DecidableEq, Repr

/-- `alloc_slot`, compile.rs:50-58.  Returns (slot, free list, next slot).  `next_slot += 1` on a
`u16` overflows at 65535: that is a panic (debug build / overflow checks). -/
def allocSlot (free : List Nat) (next : Nat) : Option (Nat × List Nat × Nat) :=
  match free with
  | s :: fr => some (s, fr, next)
  | [] => if next < u16Max then some (next, [], next + 1) else none

/-- The loop freeing argument slots, compile.rs:88-92. -/
def freeArgs (args : List Src) (free : List Nat) : List Nat :=
  args.foldl (fun fr src => match src with | .slot s => s :: fr | _ => fr) free

/-- Body of the node loop, compile.rs:60-97. -/
def compileStep (D nFeatures nConsts : Nat) (st : CompState) (node : PNode) : Option CompState :=
  match node with
  | .var f => if f < nFeatures then some { st with stack := .var f :: st.stack } else none
  | .const c => if c < nConsts then some { st with stack := .const c :: st.stack } else none
  | .op arity op =>
    if 1 ≤ arity ∧ arity ≤ D then
      if arity ≤ st.stack.length then
        let args := (st.stack.take arity).reverse
        match allocSlot st.free st.next with
        | none => none
        | some (dst, free, next) =>
          some { stack := .slot dst :: st.stack.drop arity
                 instrs := st.instrs ++ [{ arity, op, args, dst }]
                 free := freeArgs args free
                 next := next
                 maxSlot := max st.maxSlot (dst + 1) }
      else none
    else none

/-- `compile_plan`, compile.rs:29-109.  The hash function (`FxHasher` over the nodes, compile.rs:23-27)
is a parameter. -/
def compilePlan (hash : List PNode → UInt64) (D : Nat) (nodes : List PNode)
    (nFeatures nConsts : Nat) : Option EvalPlan :=
  if nFeatures ≤ u16Max ∧ nConsts ≤ u16Max then
    match nodes.foldlM (compileStep D nFeatures nConsts)
        { stack := [], instrs := [], free := [], next := 0, maxSlot := 0 } with
    | none => none
    | some st =>
      match st.stack with
      | [root] => some { instrs := st.instrs, nSlots := st.maxSlot, root, hash := hash nodes }
      | _ => none
  else none

end SR
