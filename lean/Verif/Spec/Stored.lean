import Verif.Model.Stored
/-
The numbers in an array, independent of where they lie in memory.
-/
namespace SR
variable {K : Type} [Field K] [LinearOrder K]

/-- The elements, in order, as indexing shows them. -/
def Arr1.numbers {α : Type} (a : Arr1 α) : List α := (List.range a.len).filterMap a.get?

/-- The matrix, as indexing shows it. -/
def Arr2.numbers (a : Arr2 (Fl K)) : Mat (Fl K) := ⟨a.rows, a.cols, fun i j => (a.get? i j).getD .nan⟩

/-- No gap between neighbours, and in order of increasing addresses. -/
def Arr1.Contiguous {α : Type} (a : Arr1 α) : Prop := a.len ≤ 1 ∨ a.stride = 1

instance {α : Type} (a : Arr1 α) : Decidable a.Contiguous := inferInstanceAs (Decidable (a.len ≤ 1 ∨ a.stride = 1))

end SR
