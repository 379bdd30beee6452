import Verif.Model.Search
import Verif.Spec.Member
import Verif.Spec.GradSkip
import Verif.Spec.Weights
/-
Vocabulary for C95: what a search without mini-batches can see of a data set, and data sets as tables of rows.
-/
namespace SR
variable {K : Type} [Field K] [LinearOrder K]

/-! ## What the search sees -/

section
variable [E : Env K]

/-- The derivative of the loss with respect to constant number `c`: the sum over the rows of the derivative of the loss with respect to
the prediction times the derivative of the prediction. -/
def lossSlope (o : SOptions K) (d : Dataset K) (t : Tree) (consts : List (Fl K)) (c : Nat) : Fl K :=
  (List.zipWith E.RT.mul ((o.loss.dloss E.RT E.lossLib (predictions d t consts) d.y d.weights).getD [])
    ((List.range d.x.cols).map fun r =>
      t.derivSkip E.ops (fun f => d.x.at' f r) (constAt consts) noSeed (oneHot c))).foldl E.RT.add (.fin 0)

/-- Loss and loss gradient with respect to the constants; nothing if there is no loss or a prediction is not finite. -/
noncomputable def exprSlope (o : SOptions K) (d : Dataset K) (t : Tree) (consts : List (Fl K)) : Option (Fl K × List (Fl K)) :=
  if (predictions d t consts).all Fl.isFinite then
    (exprLoss o d t consts).map fun l => (l, (List.range consts.length).map (lossSlope o d t consts))
  else none

/-- Two data sets with the same number of features and the same baseline, on which every expression has the same loss and the same
loss gradient. -/
structure SameVerdicts (o : SOptions K) (d d' : Dataset K) : Prop where
  rows : d'.x.rows = d.x.rows
  baseline : d'.baseline = d.baseline
  loss : ∀ (t : Tree) (consts : List (Fl K)), t.WF E.ops E.D d.x.rows consts.length → exprLoss o d' t consts = exprLoss o d t consts
  slope : ∀ (t : Tree) (consts : List (Fl K)), t.WF E.ops E.D d.x.rows consts.length → exprSlope o d' t consts = exprSlope o d t consts

end

/-! ## Two searches that agree in everything but their scratch memory -/

/-- The same population, counters and generator. -/
structure PopState.Twin (p p' : PopState K) : Prop where
  pop : p'.pop = p.pop
  rng : p'.rng = p.rng
  counters : p'.counters = p.counters

/-- The same state of two searches: hall of fame, best member, statistics, counters and populations. -/
structure Shared.Twin (s s' : Shared K) : Prop where
  counters : s'.counters = s.counters
  stats : s'.stats = s.stats
  hall : s'.hall = s.hall
  pops : List.Forall₂ (Option.Rel PopState.Twin) s.pops s'.pops
  bestSub : s'.bestSub = s.bestSub
  best : s'.best = s.best
  totalEvals : s'.totalEvals = s.totalEvals

/-- The same state of two step-wise drivers. -/
structure Engine.Twin (e e' : Engine K) : Prop where
  shared : e.shared.Twin e'.shared
  orderRng : e'.orderRng = e.orderRng
  curIter : e'.curIter = e.curIter
  taskOrder : e'.taskOrder = e.taskOrder
  nextTask : e'.nextTask = e.nextTask
  progressFinished : e'.progressFinished = e.progressFinished

/-- The same task. -/
structure Task.Twin (t t' : Task K) : Prop where
  popIdx : t'.popIdx = t.popIdx
  cur : t'.cur = t.cur
  stats : t'.stats = t.stats
  ps : t.ps.Twin t'.ps

/-- The same state of two multi-worker drivers. -/
structure Par.Twin (p p' : Par K) : Prop where
  shared : p.shared.Twin p'.shared
  orderRng : p'.orderRng = p.orderRng
  pc : p'.pc = p.pc
  iter : p'.iter = p.iter
  order : p'.order = p.order
  nextTask : p'.nextTask = p.nextTask
  inFlight : p'.inFlight = p.inFlight
  pending : List.Forall₂ Task.Twin p.pending p'.pending

/-! ## Rows and how much they weigh -/

/-- The finite number, zero for an infinity or NaN. -/
def Fl.value : Fl K → K
  | .fin x => x
  | _ => 0

/-- Row `r` of a data set: its features and its target. -/
def Dataset.row (d : Dataset K) (r : Nat) : List (Fl K) × Fl K :=
  ((List.range d.x.rows).map fun f => d.x.at' f r, d.y.getD r .nan)

/-- How much the rows equal to `k` weigh together (a row of a data set without weights weighs one). -/
def Dataset.mass (d : Dataset K) (k : List (Fl K) × Fl K) : K :=
  (((List.range d.x.cols).filter fun r => d.row r = k).map fun r => (d.rowWeight r).value).sum

/-- The same number of features, finite positive weights (or none), and every row weighs the same in both data sets: the rows may be
reordered, equal rows may be merged into one that carries the sum of their weights, and rows may be split. -/
structure Dataset.SameRows (d d' : Dataset K) : Prop where
  rows : d'.x.rows = d.x.rows
  positive : ∀ r < d.x.cols, ∃ w, d.rowWeight r = .fin w ∧ 0 < w
  positive' : ∀ r < d'.x.cols, ∃ w, d'.rowWeight r = .fin w ∧ 0 < w
  mass : ∀ k, d'.mass k = d.mass k

end SR
