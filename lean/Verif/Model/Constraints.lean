import Verif.Model.Mutation
/-
Model of `symbolic_regression/src/complexity.rs` and `symbolic_regression/src/check_constraints.rs`.
Hash maps are association lists (iteration order = list order; lookup = first match).  `usize` saturating
addition is modelled; the `Option` result is `none` on a panic.
-/
namespace SR

/-- `usize::MAX` on a 64-bit target. -/
def usizeMax : Nat := 2 ^ 64 - 1

/-- `usize::saturating_add`. -/
def satAdd (a b : Nat) : Nat := min (a + b) usizeMax

/-- The part of `Options` used for complexity and constraints, options.rs:100-216, and the tables
`OpConstraints` (check_constraints.rs:11-16; an array `[Option<u16>; D]` is a function of the index) and
`NestedConstraints` (check_constraints.rs:32-36). -/
structure CxOptions where
  /-- the const generic `D` -/
  D : Nat
  complexityOfConstants : Nat
  complexityOfVariables : Nat
  variableComplexities : Option (List Nat)
  operatorComplexityOverrides : List (OpId × Nat)
  maxdepth : Nat
  opLimits : List (OpId × (Nat → Option Nat))
  nested : List (OpId × List (OpId × Nat))

/-- `set_op_arg_constraint`, check_constraints.rs:25-29: overwrite one entry (`none` on the assertion). -/
def setOpArg (D : Nat) (limits : List (OpId × (Nat → Option Nat))) (op : OpId) (j max : Nat) :
    Option (List (OpId × (Nat → Option Nat))) :=
  if j < D then
    let old := (limits.lookup op).getD fun _ => none
    some ((op, fun i => if i = j then some max else old i) :: limits.filter fun e => e.1 ≠ op)
  else none

/-- `add_nested_constraint`, check_constraints.rs:39-41. -/
def addNested (limits : List (OpId × List (OpId × Nat))) (root nested : OpId) (max : Nat) :
    List (OpId × List (OpId × Nat)) :=
  let old := (limits.lookup root).getD []
  (root, old ++ [(nested, max)]) :: limits.filter fun e => e.1 ≠ root

/-- `uses_default_complexity`, options.rs:257-262. -/
def CxOptions.usesDefault (o : CxOptions) : Bool :=
  o.complexityOfConstants == 1 && o.complexityOfVariables == 1 && o.variableComplexities.isNone &&
    o.operatorComplexityOverrides.isEmpty

/-- Complexity of a variable, complexity.rs:20-27. -/
def CxOptions.varCx (o : CxOptions) (f : Nat) : Nat :=
  (o.variableComplexities.bind (·[f]?)).getD o.complexityOfVariables

/-- The argument limits check, complexity.rs:38-47: is some child above its limit? -/
def argLimitExceeded (lims : Nat → Option Nat) (child : List Nat) : Bool :=
  child.zipIdx.any fun x => match lims x.2 with
    | none => false
    | some lim => lim < x.1

/-- `if let Some(limits) = op_arg_limits.and_then(|m| m.get(&oid))`, complexity.rs:38. -/
def argCheckFails (limits : Option (List (OpId × (Nat → Option Nat)))) (id : OpId) (child : List Nat) :
    Bool :=
  match limits.bind (List.lookup id) with
  | some lims => argLimitExceeded lims child
  | none => false

/-- Loop of `compute_custom_complexity_checked`, complexity.rs:16-57; the outer `none` is a panic (array
index out of range for arity above `D`), the inner one the returned `None`. -/
def customCxGo (o : CxOptions) (limits : Option (List (OpId × (Nat → Option Nat)))) :
    List PNode → List Nat → Option (Option Nat)
  | [], st => some (match st with | [x] => some x | _ => none)
  | .var f :: ns, st => customCxGo o limits ns (o.varCx f :: st)
  | .const _ :: ns, st => customCxGo o limits ns (o.complexityOfConstants :: st)
  | .op a op :: ns, st =>
    if o.D < a then none
    else
      let child := ((List.range a).map fun j => st.getD j 0).reverse
      if argCheckFails limits ⟨a, op⟩ child then some none
      else
        let sum := (child ++ List.replicate (o.D - a) 0).foldl satAdd 0
        let base := (o.operatorComplexityOverrides.lookup ⟨a, op⟩).getD 1
        customCxGo o limits ns (satAdd base sum :: st.drop a)

/-- `compute_custom_complexity_checked`, complexity.rs:9-63. -/
def customCx (o : CxOptions) (limits : Option (List (OpId × (Nat → Option Nat)))) (nodes : List PNode) :
    Option (Option Nat) := customCxGo o limits nodes []

/-- `compute_complexity`, complexity.rs:65-71. -/
def computeComplexity (o : CxOptions) (nodes : List PNode) : Option Nat :=
  if o.usesDefault then some nodes.length
  else (customCx o none nodes).map fun r => r.getD 0

/-- Inner loop of `check_default_op_arg_constraints`, check_constraints.rs:91-99: the remaining ranges and
the argument index. -/
def defaultArgLoop (D : Nat) (lims : Nat → Option Nat) (sizes : List Nat) :
    List (Nat × Nat) → Nat → Option Bool
  | [], _ => some true
  | r :: rs, j =>
    if D ≤ j then none
    else match lims j with
      | none => defaultArgLoop D lims sizes rs (j + 1)
      | some lim => match sizes[r.2]? with
        | none => none
        | some sz => if lim < sz then some false else defaultArgLoop D lims sizes rs (j + 1)

/-- Outer loop of `check_default_op_arg_constraints`, check_constraints.rs:80-100 (`child_ranges` of
check_constraints.rs:177-188 is the same function as in mutation_functions.rs). -/
def defaultArgGo (o : CxOptions) (sizes : List Nat) : List PNode → Nat → Option Bool
  | [], _ => some true
  | .op a op :: ns, i =>
    match o.opLimits.lookup ⟨a, op⟩ with
    | none => defaultArgGo o sizes ns (i + 1)
    | some lims =>
      match childRanges sizes i a with
      | none => none
      | some ranges =>
        match defaultArgLoop o.D lims sizes ranges 0 with
        | none => none
        | some false => some false
        | some true => defaultArgGo o sizes ns (i + 1)
  | _ :: ns, i => defaultArgGo o sizes ns (i + 1)

/-- `check_default_op_arg_constraints`, check_constraints.rs:75-102. -/
def checkDefaultArgs (o : CxOptions) (nodes : List PNode) : Option Bool :=
  if o.opLimits.isEmpty then some true
  else match subtreeSizes nodes with
    | none => none
    | some sizes => defaultArgGo o sizes nodes 0

/-- Loop of `nestedness_vec`, check_constraints.rs:109-138 (`u16` saturating addition). -/
def nestednessGo (target : OpId) : List PNode → List Nat → Option (List Nat)
  | [], st => if st.length = 1 then some [] else none
  | .op a op :: ns, st =>
    if st.length < a then none
    else
      let m := (st.take a).foldl max 0
      let v := min (m + if a = target.arity ∧ op = target.id then 1 else 0) 65535
      (nestednessGo target ns (v :: st.drop a)).map (v :: ·)
  | _ :: ns, st => (nestednessGo target ns (0 :: st)).map (0 :: ·)

/-- The filling of `nested_cache`, check_constraints.rs:140-150, over the nested operators in iteration
order; `none` means `return false`. -/
def nestedCache (nodes : List PNode) : List OpId → List (OpId × List Nat) →
    Option (List (OpId × List Nat))
  | [], cache => some cache
  | q :: qs, cache =>
    if (cache.lookup q).isSome then nestedCache nodes qs cache
    else match nestednessGo q nodes [] with
      | none => none
      | some v => nestedCache nodes qs ((q, v) :: cache)

/-- One rule at node `i`, check_constraints.rs:160-171. -/
def nestedRuleOk (cache : List (OpId × List Nat)) (i : Nat) (root : OpId) (rule : OpId × Nat) : Bool :=
  let v := ((cache.lookup rule.1).bind (·[i]?)).getD 0
  let v := if root = rule.1 ∧ 0 < v then v - 1 else v
  !decide (rule.2 < v)

/-- The final loop of `check_nested_constraints`, check_constraints.rs:152-172. -/
def nestedLoop (nested : List (OpId × List (OpId × Nat))) (cache : List (OpId × List Nat)) :
    List PNode → Nat → Bool
  | [], _ => true
  | .op a op :: ns, i =>
    match nested.lookup ⟨a, op⟩ with
    | none => nestedLoop nested cache ns (i + 1)
    | some rules => rules.all (nestedRuleOk cache i ⟨a, op⟩) && nestedLoop nested cache ns (i + 1)
  | _ :: ns, i => nestedLoop nested cache ns (i + 1)

/-- `check_nested_constraints`, check_constraints.rs:104-175. -/
def checkNested (nodes : List PNode) (nested : List (OpId × List (OpId × Nat))) : Bool :=
  if nested.isEmpty then true
  else match nestedCache nodes (nested.flatMap fun e => e.2.map Prod.fst) [] with
    | none => false
    | some cache => nestedLoop nested cache nodes 0

/-- `check_constraints`, check_constraints.rs:44-73. -/
def checkConstraints (o : CxOptions) (curmaxsize : Nat) (nodes : List PNode) : Option Bool := do
  let deep ← if (decide (o.maxdepth < curmaxsize) || !o.usesDefault) then
      (countDepth nodes).map fun d => decide (o.maxdepth < d)
    else some false
  if deep then some false
  else if o.usesDefault then
    if curmaxsize < nodes.length then some false
    else
      let ok ← checkDefaultArgs o nodes
      if !ok then some false else some (checkNested nodes o.nested)
  else
    match ← customCx o (some o.opLimits) nodes with
    | none => some false
    | some total => if curmaxsize < total then some false else some (checkNested nodes o.nested)

end SR
