import Verif.Model.Dataset
import Verif.Model.Search
/-
Arrays as they lie in memory (ndarray's `Array1` and `Array2`: a buffer, the position of the first element, the shape
and the strides, which may be larger than one or negative), and the functions of the library that look at the layout:
`symbolic_regression/src/dataset.rs` and the `as_slice` calls of pop_member.rs, constant_optimization.rs,
loss_functions.rs and dynamic_expressions/src/evaluate.rs.  ndarray is a dependency, not part of /repo: `asSlice`,
`isStandard` and `standard` are its documented behaviour (`as_slice` gives the elements when they are contiguous and in
standard order, otherwise `None`; `as_standard_layout` copies into row-major order when necessary).
-/
namespace SR

/-- An owned or borrowed one-dimensional ndarray. -/
structure Arr1 (α : Type) where
  buf : List α
  offset : Nat
  len : Nat
  stride : Int

namespace Arr1
variable {α : Type}

/-- Place of element `i` in the buffer. -/
def place (a : Arr1 α) (i : Nat) : Int := a.offset + i * a.stride

/-- `a[i]` (`none`: out of range, a panic). -/
def get? (a : Arr1 α) (i : Nat) : Option α := if i < a.len then a.buf[(a.place i).toNat]? else none

/-- `as_slice` of a one-dimensional array. -/
def asSlice (a : Arr1 α) : Option (List α) :=
  if a.len ≤ 1 ∨ a.stride = 1 then some ((a.buf.drop a.offset).take a.len) else none

/-- Every element lies in the buffer (guaranteed by ndarray). -/
def WF (a : Arr1 α) : Prop := ∀ i < a.len, 0 ≤ a.place i ∧ a.place i < a.buf.length

/-- The contiguous array with the given elements (`Array1::from`). -/
def ofList (l : List α) : Arr1 α := ⟨l, 0, l.length, 1⟩

end Arr1

/-- A two-dimensional ndarray. -/
structure Arr2 (α : Type) where
  buf : List α
  offset : Nat
  rows : Nat
  cols : Nat
  rowStride : Int
  colStride : Int

namespace Arr2
variable {α : Type}

/-- Place of element `(i, j)` in the buffer. -/
def place (a : Arr2 α) (i j : Nat) : Int := a.offset + i * a.rowStride + j * a.colStride

/-- `a[(i, j)]`. -/
def get? (a : Arr2 α) (i j : Nat) : Option α :=
  if i < a.rows ∧ j < a.cols then a.buf[(a.place i j).toNat]? else none

/-- Every element lies in the buffer (guaranteed by ndarray). -/
def WF (a : Arr2 α) : Prop :=
  ∀ i < a.rows, ∀ j < a.cols, 0 ≤ a.place i j ∧ a.place i j < a.buf.length

/-- `is_standard_layout`: row-major and without gaps (the stride of an axis of length one does not matter, an empty
array is always standard). -/
def isStandard (a : Arr2 α) : Bool :=
  decide (a.rows = 0 ∨ a.cols = 0 ∨ ((a.cols = 1 ∨ a.colStride = 1) ∧ (a.rows = 1 ∨ a.rowStride = a.cols)))

/-- `as_slice` of a two-dimensional array. -/
def asSlice (a : Arr2 α) : Option (List α) :=
  if a.isStandard then some ((a.buf.drop a.offset).take (a.rows * a.cols)) else none

end Arr2

/-! ## The data set (dataset.rs) -/

variable {K : Type} [Field K] [LinearOrder K]

/-- The elements in row-major order (the default is never used: the indices are in range). -/
def Arr2.elements (a : Arr2 (Fl K)) : List (Fl K) :=
  (List.range a.rows).flatMap fun i => (List.range a.cols).map fun j => (a.get? i j).getD .nan

/-- `as_standard_layout().to_owned()`, dataset.rs:49. -/
def Arr2.standard (a : Arr2 (Fl K)) : Arr2 (Fl K) :=
  if a.isStandard then a else ⟨a.elements, 0, a.rows, a.cols, a.cols, 1⟩

/-- `Dataset`, dataset.rs:28-39, with the arrays as they are stored. -/
structure StoredDataset (K : Type) where
  x : Arr2 (Fl K)
  y : Arr1 (Fl K)
  weights : Option (Arr1 (Fl K))
  names : List String
  avgY : Fl K

/-- The average target of `build_dataset`, dataset.rs:56-57 (`none`: the `unwrap` of `y.as_slice()` panics). -/
def storedAvgY (R : Rounding K) (y : Arr1 (Fl K)) (weights : Option (Arr1 (Fl K))) : Option (Fl K) :=
  y.asSlice.bind fun ys => computeAvgY R ys (weights.bind Arr1.asSlice)

/-- `Dataset::build_dataset`, dataset.rs:42-70: only `x` is put into standard layout. -/
def buildStored (R : Rounding K) (x : Arr2 (Fl K)) (y : Arr1 (Fl K)) (weights : Option (Arr1 (Fl K)))
    (names : List String) (avgY : Option (Fl K)) : Option (StoredDataset K) :=
  if y.len ≠ x.standard.cols then none
  else if weights.any fun w => w.len ≠ x.standard.cols then none
  else match avgY with
    | some a => some ⟨x.standard, y, weights, names, a⟩
    | none => (storedAvgY R y weights).map fun a => ⟨x.standard, y, weights, names, a⟩

/-- `Dataset::with_weights_and_names`, dataset.rs:76-83 (`Dataset::new`, dataset.rs:72-74, is the case without weights
and names). -/
def newStored (R : Rounding K) (x : Arr2 (Fl K)) (y : Arr1 (Fl K)) (weights : Option (Arr1 (Fl K)))
    (names : List String) : Option (StoredDataset K) :=
  buildStored R x y weights names none

/-- The matrix the evaluator reads: `x_columns.as_slice()` indexed by `feature * n_rows + row`, evaluate.rs:213-214 and
93-97 (`none`: the layout assertion fails; outside the matrix there is nothing). -/
def Arr2.matrix (a : Arr2 (Fl K)) : Option (Mat (Fl K)) :=
  a.asSlice.map fun s => ⟨a.rows, a.cols, fun f r =>
    if f < a.rows ∧ r < a.cols then s.getD (f * a.cols + r) .nan else .nan⟩

/-- What `evaluate` (pop_member.rs:101-121), `loss_only` and `loss_and_grad` (constant_optimization.rs:52-116) and
`baseline_loss_from_zero_expression` (loss_functions.rs:15-41) read from the data set: `x.view()`,
`y.as_slice().unwrap()` and `weights.as_ref().and_then(|w| w.as_slice())`.  `none`: a panic. -/
def StoredDataset.read (s : StoredDataset K) (baseline : Option (Fl K)) : Option (Dataset K) :=
  s.x.matrix.bind fun x => s.y.asSlice.map fun y => ⟨x, y, s.weights.bind Arr1.asSlice, baseline⟩

/-- `Dataset::make_batch_buffer`, dataset.rs:112-121: the new arrays are contiguous, and there are weights when the
full data set has some, however they are stored. -/
def StoredDataset.makeBatchBuffer (full : StoredDataset K) (batchSize : Nat) : Option (Dataset K) :=
  if full.x.cols = 0 then none
  else some {
    x := ⟨full.x.rows, max batchSize 1, fun _ _ => .fin 0⟩
    y := List.replicate (max batchSize 1) (.fin 0)
    weights := full.weights.map fun _ => List.replicate (max batchSize 1) (.fin 0)
    baseline := none }

/-- The weight copied in the loop of `resample_from`, dataset.rs:141-143. -/
def StoredDataset.copyWeight (full : StoredDataset K) (b : Dataset K) (dst src : Nat) : Option (Option (List (Fl K))) :=
  match b.weights, full.weights with
  | some wd, some ws => (ws.get? src).map fun w => some (wd.set dst w)
  | wd, _ => some wd

/-- One step of the loop of `resample_from`, dataset.rs:138-144: the rows are read by index. -/
def StoredDataset.copyRow (full : StoredDataset K) (b : Dataset K) (dst src : Nat) : Option (Dataset K) := do
  let y ← full.y.get? src
  let weights ← full.copyWeight b dst src
  some { b with
    x := { b.x with at' := fun f r => if r = dst then (full.x.get? f src).getD .nan else b.x.at' f r }
    y := b.y.set dst y
    weights }

/-- The loop of `resample_from`, dataset.rs:138-144. -/
def StoredDataset.resampleLoop (full : StoredDataset K) : Nat → Nat → Dataset K → Rand (Fl K) (Dataset K)
  | 0, _, b => pure b
  | k + 1, dst, b => do
    let src ← Rand.below full.x.cols
    let b ← Rand.lift (full.copyRow b dst src)
    StoredDataset.resampleLoop full k (dst + 1) b

/-- `Dataset::resample_from`, dataset.rs:123-145. -/
def StoredDataset.resample (full : StoredDataset K) (b : Dataset K) : Rand (Fl K) (Dataset K) :=
  if full.x.cols = 0 ∨ b.x.rows ≠ full.x.rows ∨ b.y.length ≠ b.x.cols ∨
    (∃ w ∈ b.weights, w.length ≠ b.x.cols) ∨ b.weights.isSome ≠ full.weights.isSome then Rand.fail
  else StoredDataset.resampleLoop full b.x.cols 0 b

variable [E : Env K]

/-- `PopMember::evaluate`, pop_member.rs:95-136, on the data set as stored. -/
def Member.evaluateStored (o : SOptions K) (s : StoredDataset K) (baseline : Option (Fl K)) (ev : Evaluator K)
    (m : Member K) : Option (Member K × Bool × Evaluator K) :=
  (s.read baseline).bind fun d => m.evaluate o d ev

end SR
