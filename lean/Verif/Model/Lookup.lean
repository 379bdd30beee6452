import Verif.Model.Strings
import Verif.Model.Rand
/-
Model of operator lookup (`dynamic_expressions/src/traits.rs`) and of operator sets
(`symbolic_regression/src/operators.rs`).
-/
namespace SR

/-- `OpId`, traits.rs:15-19. -/
structure OpId where
  arity : Nat
  id : Nat
deriving DecidableEq, Repr

/-- An operator set as seen by lookup: `MAX_ARITY`, `ops_with_arity` and `meta`. -/
structure OpTable where
  maxArity : Nat
  opsWithArity : Nat → List Nat
  metas : Metas

/-- `str::trim`; `ws` is the white-space test of the platform. -/
def trimWs (ws : Char → Bool) (s : List Char) : List Char :=
  ((s.dropWhile ws).reverse.dropWhile ws).reverse

/-- `eq_ignore_ascii_case`: equal after ASCII lower-casing. -/
def eqIgnoreAsciiCase (a b : List Char) : Bool := a.map Char.toLower == b.map Char.toLower

/-- `matches_token`, traits.rs:119-122. -/
def OpTable.matchesToken (S : OpTable) (ws : Char → Bool) (op : OpId) (tok : List Char) : Bool :=
  let t := trimWs ws tok
  eqIgnoreAsciiCase t (S.metas.name op.arity op.id) || t == S.metas.display op.arity op.id ||
    (match S.metas.infix_ op.arity op.id with | some s => t == s | none => false)

/-- `for_each_op`, traits.rs:124-131: the operators in iteration order. -/
def OpTable.allOps (S : OpTable) : List OpId :=
  (List.range' 1 S.maxArity).flatMap fun a => (S.opsWithArity a).map fun i => ⟨a, i⟩

/-- `lookup_all`, traits.rs:133-141. -/
def OpTable.lookupAll (S : OpTable) (ws : Char → Bool) (tok : List Char) : List OpId :=
  S.allOps.filter fun op => S.matchesToken ws op tok

/-- `LookupError`, traits.rs:54-61. -/
inductive LookupError where
  | unknown (tok : List Char)
  | ambiguous (tok : List Char) (candidates : List (List Char))
deriving DecidableEq, Repr

/-- The final `match matches.as_slice()`, traits.rs:145-152 and 163-170. -/
def lookupResult (S : OpTable) (ws : Char → Bool) (tok : List Char) (ms : List OpId) :
    Except LookupError OpId :=
  match ms with
  | [] => .error (.unknown (trimWs ws tok))
  | [single] => .ok single
  | ms => .error (.ambiguous (trimWs ws tok) (ms.map fun op => S.metas.name op.arity op.id))

/-- `lookup`, traits.rs:143-153. -/
def OpTable.lookup (S : OpTable) (ws : Char → Bool) (tok : List Char) : Except LookupError OpId :=
  lookupResult S ws tok (S.lookupAll ws tok)

/-- `lookup_with_arity`, traits.rs:155-171. -/
def OpTable.lookupWithArity (S : OpTable) (ws : Char → Bool) (tok : List Char) (arity : Nat) :
    Except LookupError OpId :=
  lookupResult S ws tok (((S.opsWithArity arity).map fun i => (⟨arity, i⟩ : OpId)).filter
    fun op => S.matchesToken ws op tok)

/-- Names of the preset operators, operator_enum.rs:645-656 (snake case of the type names). -/
def presetNames : Nat → List String
  | 1 => ["abs", "abs2", "acos", "acosh", "asin", "asinh", "atan", "atanh", "cbrt", "cos", "cosh", "cot",
      "csc", "exp", "exp2", "expm1", "identity", "inv", "log", "log1p", "log2", "log10", "neg", "sec",
      "sign", "sin", "sinh", "sqrt", "tan", "tanh"]
  | 2 => ["add", "atan2", "div", "max", "min", "mul", "pow", "sub"]
  | 3 => ["clamp", "fma"]
  | _ => []

/-- Infix forms of the preset operators, operator_enum.rs:408-458. -/
def presetInfix : String → Option String
  | "neg" => some "-"
  | "add" => some "+"
  | "sub" => some "-"
  | "mul" => some "*"
  | "div" => some "/"
  | _ => none

/-- The preset operator set `BuiltinOpsF64`; the display name is the infix form, else the name,
operator_enum.rs:61-64. -/
def presetTable : OpTable where
  maxArity := 3
  opsWithArity a := List.range (presetNames a).length
  metas a o := (presetNames a)[o]?.map fun n =>
    ⟨n.toList, ((presetInfix n).getD n).toList, (presetInfix n).map String.toList⟩

/-! ### `symbolic_regression/src/operators.rs` -/

/-- `Operators<D>`, operators.rs:11-14: one list per arity. -/
structure Operators where
  D : Nat
  byArity : List (List OpId)
deriving DecidableEq, Repr

/-- `Operators::new`, operators.rs:136-140. -/
def Operators.new (D : Nat) : Operators := ⟨D, List.replicate D []⟩

/-- `Operators::push`, operators.rs:142-146. -/
def Operators.push (s : Operators) (op : OpId) : Option Operators :=
  if 1 ≤ op.arity ∧ op.arity ≤ s.D then
    match s.byArity[op.arity - 1]? with
    | none => none
    | some v => some { s with byArity := s.byArity.set (op.arity - 1) (v ++ [op]) }
  else none

/-- `Operators::nops`, operators.rs:148-150 (called with `1 ≤ arity ≤ D` only). -/
def Operators.nops (s : Operators) (arity : Nat) : Nat :=
  ((s.byArity[arity - 1]?).getD []).length

/-- `total_ops_up_to`, operators.rs:152-155. -/
def Operators.totalOpsUpTo (s : Operators) (maxArity : Nat) : Nat :=
  ((List.range' 1 (min maxArity s.D)).map s.nops).sum

/-- The loop of `sample_arity`, operators.rs:162-168. -/
def sampleArityLoop (nops : Nat → Nat) : List Nat → Nat → Option Nat
  | [], _ => none
  | a :: rest, r => if r < nops a then some a else sampleArityLoop nops rest (r - nops a)

/-- `sample_arity`, operators.rs:157-170 (`assert!(total > 0)`: `below` panics on 0). -/
def Operators.sampleArity {F : Type} (s : Operators) (maxArity : Nat) : Rand F Nat := do
  let total := s.totalOpsUpTo maxArity
  let r ← Rand.below total
  Rand.lift (sampleArityLoop s.nops (List.range' 1 (min maxArity s.D)) r)

/-- `sample_op`, operators.rs:172-176. -/
def Operators.sampleOp {F : Type} (s : Operators) (arity : Nat) : Rand F OpId := do
  match s.byArity[arity - 1]? with
  | none => Rand.fail
  | some v =>
    let i ← Rand.below v.length
    Rand.lift v[i]?

/-- `OperatorSelectError`, operators.rs:103-109. -/
inductive SelectError where
  | lookup (e : LookupError)
  | arityMismatch (tok : List Char) (expected found : Nat)
  | arityTooLarge (tok : List Char) (arity maxArity : Nat)
  | duplicate (tok : List Char)
  | empty
deriving DecidableEq, Repr

/-- One token of `from_names` / `from_names_by_arity` after lookup, operators.rs:185-199 and 216-237:
`expected` is the required arity, if any.  Outer `none` would be the assertion in `push`. -/
def selectStep (D : Nat) (tok : List Char) (expected : Option Nat) (res : Except LookupError OpId)
    (st : Operators × List OpId) : Option (Except SelectError (Operators × List OpId)) :=
  match res with
  | .error e => some (.error (.lookup e))
  | .ok op =>
    if expected.isSome && expected ≠ some op.arity then
      some (.error (.arityMismatch tok (expected.getD 0) op.arity))
    else if D < op.arity then some (.error (.arityTooLarge tok op.arity D))
    else if op ∈ st.2 then some (.error (.duplicate tok))
    else match st.1.push op with
      | none => none
      | some s => some (.ok (s, op :: st.2))

/-- The loop over `(token, expected arity)` pairs. -/
def selectLoop (S : OpTable) (ws : Char → Bool) (D : Nat) : List (List Char × Option Nat) →
    Operators × List OpId → Option (Except SelectError Operators)
  | [], st => some (.ok st.1)
  | (tok, exp) :: rest, st =>
    let res := match exp with
      | none => S.lookup ws tok
      | some a => S.lookupWithArity ws tok a
    match selectStep D tok exp res st with
    | none => none
    | some (.error e) => some (.error e)
    | some (.ok st') => selectLoop S ws D rest st'

/-- `from_names`, operators.rs:178-201. -/
def fromNames (S : OpTable) (ws : Char → Bool) (D : Nat) (names : List (List Char)) :
    Option (Except SelectError Operators) :=
  if names.isEmpty then some (.error .empty)
  else selectLoop S ws D (names.map fun t => (t, none)) (Operators.new D, [])

/-- `from_names_by_arity`, operators.rs:203-241. -/
def fromNamesByArity (S : OpTable) (ws : Char → Bool) (D : Nat) (unary binary ternary : List (List Char)) :
    Option (Except SelectError Operators) :=
  if unary.isEmpty && binary.isEmpty && ternary.isEmpty then some (.error .empty)
  else selectLoop S ws D (unary.map (fun t => (t, some 1)) ++ binary.map (fun t => (t, some 2)) ++
    ternary.map (fun t => (t, some 3))) (Operators.new D, [])

end SR
