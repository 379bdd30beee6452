import Verif.Spec.Tree
/-
Specification of printed formulas: labelled formula trees, balanced parentheses, and a recursive-descent
parser for the printed syntax.  Nothing here refers to the printer.
-/
namespace SR

/-- A formula tree: leaves and operators carry the text printed for them; `infix_` tells whether the
operator is written between its arguments or in front of them. -/
inductive DTree where
  | leaf (s : List Char)
  | node (infix_ : Bool) (tok : List Char) (args : List DTree)
deriving Repr, Inhabited

/-- Induction principle (hypothesis for every child). -/
theorem DTree.ind {P : DTree → Prop} (hl : ∀ s, P (.leaf s))
    (hn : ∀ i tok ts, (∀ t ∈ ts, P t) → P (.node i tok ts)) : ∀ t, P t := by
  intro t
  refine DTree.rec (motive_1 := P) (motive_2 := fun ts => ∀ t ∈ ts, P t) hl ?_ ?_ ?_ t
  · intro i tok ts h; exact hn i tok ts h
  · intro t h; cases h
  · intro t ts h1 h2 u hu
    rcases List.mem_cons.mp hu with h | h
    · exact h ▸ h1
    · exact h2 u h

/-- The characters that structure a formula; all others may occur in names and numbers. -/
def isDelim (c : Char) : Bool := c = '(' || c = ')' || c = ',' || c = ' '

/-- A word: non-empty, without structuring characters. -/
def IsWord (s : List Char) : Prop := s ≠ [] ∧ ∀ c ∈ s, isDelim c = false

/-- Every label of the formula is a word; infix operators have at least two arguments, prefix operators
at least one. -/
inductive DTree.Labelled : DTree → Prop where
  | leaf {s : List Char} : IsWord s → Labelled (.leaf s)
  | node {i : Bool} {tok : List Char} {ts : List DTree} : IsWord tok →
      (if i then 2 ≤ ts.length else 1 ≤ ts.length) → (∀ t ∈ ts, Labelled t) → Labelled (.node i tok ts)

/-- `Balanced d s`: starting at nesting depth `d`, reading `s` never closes more than is open, and ends
with nothing open. -/
def BalancedFrom : Nat → List Char → Prop
  | d, [] => d = 0
  | d, c :: s =>
    if c = '(' then BalancedFrom (d + 1) s
    else if c = ')' then (match d with | 0 => False | d + 1 => BalancedFrom d s)
    else BalancedFrom d s

/-- Balanced parentheses. -/
def Balanced (s : List Char) : Prop := BalancedFrom 0 s

/-- Longest initial word and the rest. -/
def word (s : List Char) : List Char × List Char :=
  (s.takeWhile fun c => !isDelim c, s.dropWhile fun c => !isDelim c)

mutual
/-- unit ::= "(" body ")" | word "(" body { ", " body } ")" | word -/
def parseUnit : Nat → List Char → Option (DTree × List Char)
  | 0, _ => none
  | f + 1, '(' :: s =>
    match parseBody f s with
    | some (t, ')' :: r) => some (t, r)
    | _ => none
  | f + 1, s =>
    match word s with
    | ([], _) => none
    | (w, '(' :: r) => (parseArgs f r).map fun p => (.node false w p.1, p.2)
    | (w, r) => some (.leaf w, r)
/-- body ::= unit { " " word " " unit }, the words being the same infix operator -/
def parseBody : Nat → List Char → Option (DTree × List Char)
  | 0, _ => none
  | f + 1, s =>
    match parseUnit f s with
    | none => none
    | some (t, r) =>
      match parseTail f r with
      | none => none
      | some ([], r') => some (t, r')
      | some ((tok, u) :: more, r') =>
        if more.all (fun p => p.1 = tok) then some (.node true tok (t :: u :: more.map Prod.snd), r')
        else none
/-- { " " word " " unit } -/
def parseTail : Nat → List Char → Option (List (List Char × DTree) × List Char)
  | 0, _ => none
  | f + 1, ' ' :: s =>
    match word s with
    | (w, ' ' :: r) =>
      match parseUnit f r with
      | none => none
      | some (u, r') => (parseTail f r').map fun p => ((w, u) :: p.1, p.2)
    | _ => none
  | _ + 1, s => some ([], s)
/-- body { ", " body } ")" -/
def parseArgs : Nat → List Char → Option (List DTree × List Char)
  | 0, _ => none
  | f + 1, s =>
    match parseBody f s with
    | some (t, ')' :: r) => some ([t], r)
    | some (t, ',' :: ' ' :: r) => (parseArgs f r).map fun p => (t :: p.1, p.2)
    | _ => none
end

/-- Parse a complete formula.  The fuel bounds the number of nested parser calls; it is generous (no
parser call sequence reads the same character more than three times). -/
def parseFormula (s : List Char) : Option DTree :=
  match parseBody (3 * s.length + 1) s with
  | some (t, []) => some t
  | _ => none

end SR
