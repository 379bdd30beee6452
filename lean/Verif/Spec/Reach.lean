import Verif.Model.Rand
import Verif.Spec.Edit
import Mathlib.Data.List.Forall2
/-
Vocabulary for C77: what a random computation can return, and when two serialised expressions are the same.
-/
namespace SR
variable {F α β T : Type}

/-- A stream as a generator makes it: its integer draws are 64-bit words, its floats are from the set `S`. -/
structure Rng.Within (S : F → Prop) (g : Rng F) : Prop where
  floats : ∀ k, S (g.floats k)
  words : ∀ k, g.ints k < 2 ^ 64

/-- A random computation can return `a`: there is a stream of draws, its integers 64-bit words and its floats from the set `S`,
that makes it return `a` - whatever is drawn afterwards. -/
def Rand.Reaches (S : F → Prop) (m : Rand F α) (a : α) : Prop :=
  ∀ g0 : Rng F, g0.Within S → ∃ g, g.Within S ∧ m g = some (a, g0)

/-- The same node: the same feature, the same operator, or constants of the same value. -/
inductive SameNode (cs cs' : List T) : PNode → PNode → Prop
  | var {f} : SameNode cs cs' (.var f) (.var f)
  | const {c c' v} : cs[c]? = some v → cs'[c']? = some v → SameNode cs cs' (.const c) (.const c')
  | op {a o} : SameNode cs cs' (.op a o) (.op a o)

/-- The expression `e` is the tree `t` over the constants `cs`, node by node. -/
def Writes (e : PostfixExpr T) (t : Tree) (cs : List T) : Prop := List.Forall₂ (SameNode e.consts cs) e.nodes t.toPostfix

end SR
