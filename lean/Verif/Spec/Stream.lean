import Verif.Model.Rand
/-
Vocabulary: what a random computation does with the stream of draws it is given.
-/
namespace SR

/-- The generator after `i` more integer draws and `j` more float draws. -/
def Rng.drop {F : Type} (g : Rng F) (i j : Nat) : Rng F := ⟨fun k => g.ints (k + i), fun k => g.floats (k + j)⟩

/-- Two streams have the same first `i` integer draws and `j` float draws. -/
def Rng.Agree {F : Type} (g h : Rng F) (i j : Nat) : Prop :=
  (∀ k < i, h.ints k = g.ints k) ∧ ∀ k < j, h.floats k = g.floats k

/-- The computation uses the stream of draws only by taking the next ones: when it returns it has taken some number of
them; what is left is the stream without those draws, and on every stream with the same first draws it returns the same
result. -/
class Rand.Consumes {F α : Type} (m : Rand F α) : Prop where
  rest : ∀ (g : Rng F) (a : α) (g' : Rng F), m g = some (a, g') →
    ∃ i j, g' = g.drop i j ∧ ∀ h : Rng F, g.Agree h i j → m h = some (a, h.drop i j)

end SR
