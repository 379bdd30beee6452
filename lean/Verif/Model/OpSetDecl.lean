import Verif.Model.Builtin
import Verif.Model.Lookup
import Verif.Model.Utils
/-
Operator sets as they are declared: the macros `opset!` (`dynamic_expressions/src/operator_enum.rs:909-1040`)
and `custom_opset!` (operator_enum.rs:678-907, `symbolic_regression/src/operators.rs:26-96`), the marker
types (`traits.rs:3-55`, operator_enum.rs:8-81), the typed constructors (`expression_algebra.rs:13-138`,
`dynamic_expressions/src/operators.rs`) and the typed operator selection
(`symbolic_regression/src/operators.rs:250-331`).
-/
namespace SR
variable {T Tag : Type}

/-- What a marker type declares: `OpTag::ARITY` and the constants and functions of `Operator`,
traits.rs:3-13 and 36-41. -/
structure OpDef (T : Type) where
  arity : Nat
  name : List Char
  display : List Char
  infix_ : Option (List Char)
  commutative : Bool
  associative : Bool
  complexity : Nat
  eval : List T → T
  partial_ : List T → Nat → T

/-- The text of an invocation of `opset!` / `custom_opset!`: blocks `(arity) { markers }` in order. -/
structure OpSetDecl (Tag : Type) where
  blocks : List (Nat × List Tag)

/-- `@max_arity`, operator_enum.rs:681-688 and 912-919 (the macro does not accept an empty list). -/
def declMaxArity : List Nat → Nat
  | [] => 0
  | [a] => a
  | a :: rest => if declMaxArity rest < a then a else declMaxArity rest

/-- The arm of `match arity { $( $arity => … )* _ => … }` that runs: the first block of that arity. -/
def OpSetDecl.arm (D : OpSetDecl Tag) (a : Nat) : Option (List Tag) :=
  (D.blocks.find? fun b => b.1 == a).map Prod.snd

/-- `ops_with_arity`, operator_enum.rs:942-949 (762-769): the discriminants of the block's enum. -/
def OpSetDecl.opsWithArity (D : OpSetDecl Tag) (a : Nat) : List Nat :=
  match D.arm a with
  | some l => l.zipIdx.map Prod.snd
  | none => []

/-- One entry of `META`, with the fields of `OpMeta`, traits.rs:22-34. -/
structure DeclMeta where
  arity : Nat
  id : Nat
  name : List Char
  display : List Char
  infix_ : Option (List Char)
  commutative : Bool
  associative : Bool
  complexity : Nat
deriving DecidableEq, Repr

/-- The `META` entry of a marker, operator_enum.rs:956-966. -/
def OpDef.declMeta (f : OpDef T) (a id : Nat) : DeclMeta :=
  ⟨a, id, f.name, f.display, f.infix_, f.commutative, f.associative, f.complexity⟩

/-- `meta`, operator_enum.rs:951-974 (771-796): `META.get(op.id)` of the block. -/
def OpSetDecl.meta (D : OpSetDecl Tag) (sem : Tag → OpDef T) (a id : Nat) : Option DeclMeta :=
  match D.arm a with
  | some l => (l.zipIdx.map fun p => (sem p.1).declMeta a p.2)[id]?
  | none => none

/-- The marker whose kernel `eval` / `diff` / `grad` run for `(arity, id)`: the first arm
`x if x == (Enum::op as u16)`; `none` is the panic, operator_enum.rs:976-1029 (798-857). -/
def OpSetDecl.dispatch (D : OpSetDecl Tag) (a id : Nat) : Option Tag :=
  match D.arm a with
  | some l => (l.zipIdx.find? fun p => id == p.2).map Prod.fst
  | none => none

/-- `<Ops as HasOp<Tag>>::ID`, operator_enum.rs:1032-1038 (860-868): the discriminant of the marker in
the enum of its own block; `none`: there is no such implementation. -/
def OpSetDecl.hasOp [DecidableEq Tag] (D : OpSetDecl Tag) (t : Tag) : Option Nat :=
  (D.blocks.find? fun b => decide (t ∈ b.2)).map fun b => b.2.idxOf t

/-- The operator set as the evaluators see it (Spec/Scalar `OpSet`). -/
def OpSetDecl.opSet [Scalar T] (D : OpSetDecl Tag) (sem : Tag → OpDef T) : OpSet T where
  eval a id args := match D.dispatch a id with
    | some t => (sem t).eval args
    | none => Scalar.zero
  partial_ a id args j := match D.dispatch a id with
    | some t => (sem t).partial_ args j
    | none => Scalar.zero
  known a id := (D.dispatch a id).isSome

/-- The operator set as token lookup and printing see it. -/
def OpSetDecl.table (D : OpSetDecl Tag) (sem : Tag → OpDef T) : OpTable where
  maxArity := declMaxArity (D.blocks.map Prod.fst)
  opsWithArity := D.opsWithArity
  metas a id := (D.meta sem a id).map fun m => ⟨m.name, m.display, m.infix_⟩

/-- What the compiler requires of an invocation of `opset!`: at least one block; `HasOp` implemented
once per marker; `Operator<T, arity>` implemented by every marker of the block; `u8` arities and `u16`
discriminants. -/
structure OpSetDecl.Compiles (D : OpSetDecl Tag) (sem : Tag → OpDef T) : Prop where
  nonempty : D.blocks ≠ []
  once : (D.blocks.flatMap Prod.snd).Nodup
  arity : ∀ b ∈ D.blocks, ∀ t ∈ b.2, (sem t).arity = b.1
  u8 : ∀ b ∈ D.blocks, b.1 ≤ 255
  u16 : ∀ b ∈ D.blocks, b.2.length ≤ 65536

/-- `builtin_operator_registry`, web/wasm/src/lib.rs:44-62: arities 1 to `MAX_ARITY`, the operators of
each arity in order, the accessors of traits.rs:81-109 with their defaults. -/
def OpSetDecl.registry (D : OpSetDecl Tag) (sem : Tag → OpDef T) : List DeclMeta :=
  (List.range' 1 (declMaxArity (D.blocks.map Prod.fst))).flatMap fun a =>
    (D.opsWithArity a).map fun id =>
      let m := D.meta sem a id
      ⟨a, id, (m.map DeclMeta.name).getD "unknown_op".toList,
        (m.map DeclMeta.display).getD "unknown_op".toList, m.bind DeclMeta.infix_,
        (m.map DeclMeta.commutative).getD false, (m.map DeclMeta.associative).getD false,
        (m.map DeclMeta.complexity).getD 0⟩

/-! ### The built-in markers -/

/-- The marker types of `operator_enum::builtin`. -/
inductive Marker where
  | un (u : Un)
  | bin (b : Bin)
  | ter (t : Ter)
deriving DecidableEq, Repr

/-- `NAME`: the type name in snake case, operator_enum.rs:9-14, 59. -/
def Un.nm : Un → String
  | .abs => "abs" | .abs2 => "abs2" | .acos => "acos" | .acosh => "acosh" | .asin => "asin"
  | .asinh => "asinh" | .atan => "atan" | .atanh => "atanh" | .cbrt => "cbrt" | .cos => "cos"
  | .cosh => "cosh" | .cot => "cot" | .csc => "csc" | .exp => "exp" | .exp2 => "exp2"
  | .expm1 => "expm1" | .identity => "identity" | .inv => "inv" | .log => "log" | .log1p => "log1p"
  | .log2 => "log2" | .log10 => "log10" | .neg => "neg" | .sec => "sec" | .sign => "sign"
  | .sin => "sin" | .sinh => "sinh" | .sqrt => "sqrt" | .tan => "tan" | .tanh => "tanh"
/-- See `Un.nm`. -/
def Bin.nm : Bin → String
  | .add => "add" | .atan2 => "atan2" | .div => "div" | .max => "max" | .min => "min" | .mul => "mul"
  | .pow => "pow" | .sub => "sub"
/-- See `Un.nm`. -/
def Ter.nm : Ter → String
  | .clamp => "clamp" | .fma => "fma"

/-- `INFIX`, operator_enum.rs:408, 419, 432, 444, 458. -/
def Marker.infix_ : Marker → Option String
  | .un .neg => some "-"
  | .bin .add => some "+"
  | .bin .sub => some "-"
  | .bin .mul => some "*"
  | .bin .div => some "/"
  | _ => none

/-- `COMMUTATIVE` and `ASSOCIATIVE` (always declared together), operator_enum.rs:420-421, 445-446,
498-499, 545-546. -/
def Marker.flag : Marker → Bool
  | .bin .add => true
  | .bin .mul => true
  | .bin .min => true
  | .bin .max => true
  | _ => false

/-- The `Operator` implementation of a built-in marker over the reals, operator_enum.rs:52-80; the
display name is the infix form, else the name (61-64). -/
noncomputable def Marker.sem (m : Marker) : OpDef ℝ where
  arity := match m with | .un _ => 1 | .bin _ => 2 | .ter _ => 3
  name := (match m with | .un u => u.nm | .bin b => b.nm | .ter t => t.nm).toList
  display := (m.infix_.getD (match m with | .un u => u.nm | .bin b => b.nm | .ter t => t.nm)).toList
  infix_ := m.infix_.map String.toList
  commutative := m.flag
  associative := m.flag
  complexity := 1
  eval v := match m, v with
    | .un u, [x] => u.eval x
    | .bin b, [x, y] => b.eval x y
    | .ter t, [x, y, z] => t.eval x y z
    | _, _ => 0
  partial_ v j := match m, v with
    | .un u, [x] => u.partial_ x
    | .bin b, [x, y] => b.partial_ x y j
    | .ter t, [x, y, z] => t.partial_ x y z j
    | _, _ => 0

/-- `BuiltinOpsF64` (and `BuiltinOpsF32`), operator_enum.rs:639-672. -/
def presetDecl : OpSetDecl Marker :=
  ⟨[(1, unTable.map .un), (2, binTable.map .bin), (3, terTable.map .ter)]⟩

/-! ### Typed constructors -/

/-- `sin(x)`, `pow(x, y)`, `fma(x, y, z)`, … (`operators.rs` wrappers) and the operator overloads on
two expressions (expression_algebra.rs:13-27, 66-79): the marker applied to the arguments. -/
def OpSetDecl.build [DecidableEq Tag] (S : OpSetDecl Tag) (D : Nat) (t : Tag)
    (args : List (PostfixExpr T × List String)) : Option (PostfixExpr T × List String) :=
  match S.hasOp t with
  | some id => applyPostfix D id args
  | none => none

/-- `x op c` with a scalar on the right, expression_algebra.rs:29-46. -/
def OpSetDecl.buildRhs [DecidableEq Tag] (S : OpSetDecl Tag) (D : Nat) (t : Tag)
    (x : PostfixExpr T × List String) (c : T) : Option (PostfixExpr T × List String) :=
  S.build D t [x, constExpr c]

/-- `lit(c) op x`, expression_algebra.rs:6-11 and 48-64. -/
def OpSetDecl.buildLit [DecidableEq Tag] (S : OpSetDecl Tag) (D : Nat) (t : Tag) (c : T)
    (x : PostfixExpr T × List String) : Option (PostfixExpr T × List String) :=
  S.build D t [constExpr c, x]

/-! ### Typed selection of operators (`OperatorsBuilder`) -/

/-- `HasOp::op_id`, traits.rs:46-53: the marker's own arity with its id. -/
def OpSetDecl.opId [DecidableEq Tag] (S : OpSetDecl Tag) (sem : Tag → OpDef T) (t : Tag) : Option OpId :=
  (S.hasOp t).map fun id => ⟨(sem t).arity, id⟩

/-- `push_op`, operators.rs:315-328 (`none`: panic, or the call does not compile). -/
def OpSetDecl.pushOp [DecidableEq Tag] (S : OpSetDecl Tag) (sem : Tag → OpDef T) (s : Operators) (t : Tag) :
    Option Operators :=
  match S.opId sem t with
  | none => none
  | some op => if 1 ≤ op.arity ∧ op.arity ≤ s.D then s.push op else none

/-- `unary::<Op>()` / `binary::<Op>()`, operators.rs:295-313: asserted arity `a`. -/
def OpSetDecl.pushArity [DecidableEq Tag] (S : OpSetDecl Tag) (sem : Tag → OpDef T) (a : Nat)
    (s : Operators) (t : Tag) : Option Operators :=
  match S.opId sem t with
  | none => none
  | some op => if op.arity = a then S.pushOp sem s t else none

/-- A chain of `.unary` / `.binary` calls from `Operators::builder()`, operators.rs:261-283. -/
def OpSetDecl.builder [DecidableEq Tag] (S : OpSetDecl Tag) (sem : Tag → OpDef T) :
    Operators → List (Nat × Tag) → Option Operators
  | s, [] => some s
  | s, (a, t) :: rest =>
    match S.pushArity sem a s t with
    | none => none
    | some s' => S.builder sem s' rest

/-- `sr_default_binary`, operators.rs:285-293: `+ - * /`. -/
def srDefaultBinary : List (Nat × Marker) :=
  [(2, .bin .add), (2, .bin .sub), (2, .bin .mul), (2, .bin .div)]

/-! ### `custom_opset!` bodies -/

/-- A field of an operator body in `custom_opset!`. -/
inductive OpField (T : Type) where
  | display (s : List Char)
  | infix_ (s : List Char)
  | commutative (b : Bool)
  | associative (b : Bool)
  | complexity (n : Nat)
  | eval (f : List T → T)
  | partial_ (f : List T → Nat → T)

/-- `@display`, operator_enum.rs:887-889: the first `display:` field, else the operator's name. -/
def OpField.getDisplay (name : List Char) : List (OpField T) → List Char
  | [] => name
  | .display s :: _ => s
  | _ :: rest => getDisplay name rest
/-- `@infix`, operator_enum.rs:891-893. -/
def OpField.getInfix : List (OpField T) → Option (List Char)
  | [] => none
  | .infix_ s :: _ => some s
  | _ :: rest => getInfix rest
/-- `@complexity`, operator_enum.rs:895-897: default 1. -/
def OpField.getComplexity : List (OpField T) → Nat
  | [] => 1
  | .complexity n :: _ => n
  | _ :: rest => getComplexity rest
/-- `@bool [commutative]`, operator_enum.rs:899-902: default false. -/
def OpField.getCommutative : List (OpField T) → Bool
  | [] => false
  | .commutative b :: _ => b
  | _ :: rest => getCommutative rest
/-- `@bool [associative]`, operator_enum.rs:899-902: default false. -/
def OpField.getAssociative : List (OpField T) → Bool
  | [] => false
  | .associative b :: _ => b
  | _ :: rest => getAssociative rest
/-- `@eval_body`, operator_enum.rs:873-876; `none`: `compile_error!`. -/
def OpField.getEval : List (OpField T) → Option (List T → T)
  | [] => none
  | .eval f :: _ => some f
  | _ :: rest => getEval rest
/-- `@partial_body`, operator_enum.rs:878-885; `none`: `compile_error!`. -/
def OpField.getPartial : List (OpField T) → Option (List T → Nat → T)
  | [] => none
  | .partial_ f :: _ => some f
  | _ :: rest => getPartial rest

/-- The marker generated for an operator of `custom_opset!`, operator_enum.rs:713-756. -/
def customOp (arity : Nat) (name : List Char) (body : List (OpField T)) : Option (OpDef T) :=
  match OpField.getEval body, OpField.getPartial body with
  | some e, some p => some
      { arity := arity, name := name, display := OpField.getDisplay name body
        infix_ := OpField.getInfix body, commutative := OpField.getCommutative body
        associative := OpField.getAssociative body, complexity := OpField.getComplexity body
        eval := e, partial_ := p }
  | _, _ => none

end SR
