import Verif.Model.Search
/-
Mini-batches: what it means that a data set is a sample of another (C42).
-/
namespace SR
variable {K : Type} [Field K] [LinearOrder K]

/-- The arrays of `b` have the lengths that `build_dataset` asserts, and `b` has the features of `full` and weights
exactly if `full` has. -/
structure BatchShape (full b : Dataset K) : Prop where
  features : b.x.rows = full.x.rows
  y : b.y.length = b.x.cols
  weights : ∀ w, b.weights = some w → w.length = b.x.cols
  weighted : b.weights.isSome = full.weights.isSome

/-- Row `i` of `b` is row `src` of `full`: every feature, the target and the weight. -/
structure SameRow (full b : Dataset K) (i src : Nat) : Prop where
  exists_ : src < full.x.cols
  x : ∀ f, b.x.at' f i = full.x.at' f src
  y : b.y[i]? = full.y[src]?
  weights : ∀ wb wf, b.weights = some wb → full.weights = some wf → wb[i]? = wf[src]?

end SR
