import Verif.Model.Member
/-
Model of the constructors of `symbolic_regression/src/dataset.rs`.
-/
namespace SR
variable {K : Type} [Field K] [LinearOrder K]

/-- `Dataset::compute_avg_y`, dataset.rs:91-110 (`none`: `zip_eq` panics on different lengths). -/
def computeAvgY (R : Rounding K) (y : List (Fl K)) (weights : Option (List (Fl K))) : Option (Fl K) :=
  if y.isEmpty then some (.fin 0)
  else match weights with
    | none => some (R.div (R.sum y) (R.ofNat y.length))
    | some w =>
      if y.length ≠ w.length then none
      else some (R.div (R.sum (List.zipWith R.mul y w)) (R.sum w))

/-- The whole `Dataset` of the public interface, dataset.rs:28-39: the part used by the search with the names and the
average target (`baseline` is not a field of it, it belongs to `TaggedDataset`). -/
structure UserDataset (K : Type) where
  data : Dataset K
  names : List String
  avgY : Fl K

/-- `Dataset::build_dataset`, dataset.rs:42-70; `none`: an assertion fails.  (`as_standard_layout` changes the layout in
memory only.) -/
def buildDataset (R : Rounding K) (x : Mat (Fl K)) (y : List (Fl K)) (weights : Option (List (Fl K)))
    (names : List String) (avgY : Option (Fl K)) : Option (UserDataset K) :=
  if y.length ≠ x.cols then none
  else if weights.any fun w => w.length ≠ x.cols then none
  else match avgY with
    | some a => some ⟨⟨x, y, weights, none⟩, names, a⟩
    | none => (computeAvgY R y weights).map fun a => ⟨⟨x, y, weights, none⟩, names, a⟩

/-- `Dataset::new`, dataset.rs:72-74. -/
def newDataset (R : Rounding K) (x : Mat (Fl K)) (y : List (Fl K)) : Option (UserDataset K) :=
  buildDataset R x y none [] none

/-- `Dataset::with_weights_and_names`, dataset.rs:76-83. -/
def newWeightedDataset (R : Rounding K) (x : Mat (Fl K)) (y : List (Fl K)) (weights : Option (List (Fl K)))
    (names : List String) : Option (UserDataset K) :=
  buildDataset R x y weights names none

end SR
