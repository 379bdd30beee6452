import Verif.Model.Eval
import Verif.Model.NodeUtils
/-
Model of `dynamic_expressions/src/strings.rs`.  Strings are lists of characters; the Rust code scans
bytes, which is the same thing because the bytes of `(` and `)` never occur inside a multi-byte UTF-8
character.
-/
namespace SR
variable {T : Type}

/-- `OpMeta`, traits.rs (the textual part). -/
structure OpMeta where
  name : List Char
  display : List Char
  infix_ : Option (List Char)
deriving DecidableEq, Repr

/-- `OperatorSet::meta`: by arity and id. -/
abbrev Metas := Nat → Nat → Option OpMeta

/-- `OperatorSet::name`, traits.rs:81-84. -/
def Metas.name (m : Metas) (a o : Nat) : List Char := ((m a o).map OpMeta.name).getD "unknown_op".toList
/-- `OperatorSet::display`, traits.rs:86-89. -/
def Metas.display (m : Metas) (a o : Nat) : List Char :=
  ((m a o).map OpMeta.display).getD "unknown_op".toList
/-- `OperatorSet::infix`, traits.rs:91-94. -/
def Metas.infix_ (m : Metas) (a o : Nat) : Option (List Char) := (m a o).bind OpMeta.infix_

/-- `default_string_variable`, strings.rs:13-20. -/
def defaultStringVariable (feature : Nat) (names : Option (List (List Char))) : List Char :=
  match names.bind (·[feature]?) with
  | some n => n
  | none => 'x' :: Nat.toDigits 10 feature

/-- The byte loop of `strip_outer_parens`, strings.rs:35-47: index of the first `)` that brings the
depth back to 0, if any. -/
def firstClose : List Char → Int → Nat → Option Nat
  | [], _, _ => none
  | c :: s, depth, i =>
    if c = '(' then firstClose s (depth + 1) (i + 1)
    else if c = ')' then
      if depth - 1 = 0 then some i else firstClose s (depth - 1) (i + 1)
    else firstClose s depth (i + 1)

/-- `strip_outer_parens`, strings.rs:26-56. -/
def stripOuterParens (s : List Char) : List Char :=
  if s.length < 2 ∨ s.head? ≠ some '(' ∨ s.getLast? ≠ some ')' then s
  else if firstClose s 0 0 = some (s.length - 1) then stripOuterParens s.tail.dropLast
  else s
termination_by s.length
decreasing_by simp; omega

/-- `[..].join(sep)`. -/
def joinWith (sep : List Char) : List (List Char) → List Char
  | [] => []
  | [x] => x
  | x :: xs => x ++ sep ++ joinWith sep xs

/-- The branch closure of `string_tree`, strings.rs:83-101. -/
def stringBranch (m : Metas) (pretty : Bool) (op : Nat × Nat) (children : List (List Char)) :
    List Char :=
  let hasInfix := (m.infix_ op.1 op.2).isSome
  let opDisplay := if pretty then m.display op.1 op.2
    else (m.infix_ op.1 op.2).getD (m.name op.1 op.2)
  if hasInfix && 1 < op.1 then
    '(' :: joinWith (' ' :: opDisplay ++ [' ']) children ++ [')']
  else opDisplay ++ '(' :: joinWith [',', ' '] (children.map stripOuterParens) ++ [')']

/-- The leaf closure of `string_tree`, strings.rs:74-78; `show_` is `Display` of the scalar type.
(An out of range constant index panics; the theorems are about expressions without one, so the
closure returns an arbitrary text there.) -/
def stringLeaf (show_ : T → List Char) (names : Option (List (List Char))) (consts : List T) :
    PNode → List Char
  | .var f => defaultStringVariable f names
  | .const c => (consts[c]?.map show_).getD []
  | .op _ _ => []

/-- `string_tree`, strings.rs:58-104.  `optNames` is `opts.variable_names`, `metaNames` the names stored
in the expression. -/
def stringTree (m : Metas) (show_ : T → List Char) (optNames : Option (List (List Char)))
    (metaNames : List (List Char)) (pretty : Bool) (e : PostfixExpr T) : Option (List Char) :=
  let names := match optNames with
    | some n => some n
    | none => if metaNames.isEmpty then none else some metaNames
  if e.nodes.all (fun n => match n with | .const c => c < e.consts.length | _ => true) then
    (treeMapreduce (stringLeaf show_ names e.consts)
      (fun n => match n with | .op a o => (a, o) | _ => (0, 0)) (stringBranch m pretty) e.nodes).map
      stripOuterParens
  else none

end SR
