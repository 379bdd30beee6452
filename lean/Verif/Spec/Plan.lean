import Verif.Model.Compile
/-
Specification of what a compiled plan means: symbolic execution on a register file whose registers are
initially unwritten.
-/
namespace SR

/-- Read an argument during symbolic execution of an instruction writing `dst`: reading `dst` itself or
an unwritten register is an error. -/
def symArg (file : Nat → Option Tree) (dst : Nat) : Src → Option Tree
  | .var f => some (.var f)
  | .const c => some (.const c)
  | .slot k => if k = dst then none else file k

/-- Symbolic execution of instructions on `N` registers. -/
def symRun (N : Nat) : List Instr → (Nat → Option Tree) → Option (Nat → Option Tree)
  | [], file => some file
  | i :: is, file =>
    if i.dst < N ∧ i.args.length = i.arity then
      match i.args.mapM (symArg file i.dst) with
      | none => none
      | some ts => symRun N is (fun k => if k = i.dst then some (.op i.op ts) else file k)
    else none

/-- Symbolic value of a whole plan, starting with every register unwritten. -/
def symPlan (p : EvalPlan) : Option Tree :=
  match symRun p.nSlots p.instrs (fun _ => none) with
  | none => none
  | some file =>
    match p.root with
    | .var f => some (.var f)
    | .const c => some (.const c)
    | .slot k => file k

end SR
