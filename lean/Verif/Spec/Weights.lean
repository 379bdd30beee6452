import Verif.Model.Search
/-
Vocabulary for C92: two data sets that differ only in their weights, and two searches that agree in everything but the weights kept in
their mini-batches.
-/
namespace SR
variable {K : Type} [Field K] [LinearOrder K]

/-- How the weight of a row may differ: whether there are weights in the first and in the second data set, and the relation between
the two weights of a row (a row without weight has weight one). -/
structure Reweigh (K : Type) where
  before : Bool
  after : Bool
  row : Fl K → Fl K → Prop

/-- The weight of row `i`. -/
def Dataset.rowWeight (d : Dataset K) (i : Nat) : Fl K :=
  match d.weights with
  | none => .fin 1
  | some w => w.getD i (.fin 0)

/-- The same rows (as many targets as there are rows), the weights of the first `k` of them related by `ρ`. -/
structure Dataset.Alike (ρ : Reweigh K) (k : Nat) (d d' : Dataset K) : Prop where
  x : d'.x = d.x
  y : d'.y = d.y
  baseline : d'.baseline = d.baseline
  len : d.y.length = d.x.cols
  before : d.weights.isSome = ρ.before
  after : d'.weights.isSome = ρ.after
  w : ∀ w, d.weights = some w → w.length = d.y.length
  w' : ∀ w, d'.weights = some w → w.length = d.y.length
  rows : ∀ i < k, ρ.row (d.rowWeight i) (d'.rowWeight i)

/-- No weights, and weights that are all one. -/
def Reweigh.ones : Reweigh K := ⟨false, true, fun a b => a = .fin 1 ∧ b = .fin 1⟩

/-- Multiplication by `c` without rounding. -/
def Fl.scale (c : K) : Fl K → Fl K
  | .fin x => .fin (c * x)
  | v => v

/-- All weights multiplied by `c`. -/
def Reweigh.scaled (c : K) : Reweigh K := ⟨true, true, fun a b => b = a.scale c⟩

/-- The same population: only the weights in the mini-batch may differ. -/
structure PopState.Alike (ρ : Reweigh K) (p p' : PopState K) : Prop where
  pop : p'.pop = p.pop
  ev : p'.ev = p.ev
  ctx : p'.ctx = p.ctx
  rng : p'.rng = p.rng
  counters : p'.counters = p.counters
  batch : Option.Rel (fun b b' => b.Alike ρ b.x.cols b') p.batch p'.batch

/-- The same state of two searches: hall of fame, best member, statistics, counters and populations. -/
structure Shared.Alike (ρ : Reweigh K) (s s' : Shared K) : Prop where
  counters : s'.counters = s.counters
  stats : s'.stats = s.stats
  hall : s'.hall = s.hall
  pops : List.Forall₂ (Option.Rel (PopState.Alike ρ)) s.pops s'.pops
  bestSub : s'.bestSub = s.bestSub
  best : s'.best = s.best
  totalEvals : s'.totalEvals = s.totalEvals

/-- The same state of two step-wise drivers. -/
structure Engine.Alike (ρ : Reweigh K) (e e' : Engine K) : Prop where
  shared : e.shared.Alike ρ e'.shared
  orderRng : e'.orderRng = e.orderRng
  curIter : e'.curIter = e.curIter
  taskOrder : e'.taskOrder = e.taskOrder
  nextTask : e'.nextTask = e.nextTask
  progressFinished : e'.progressFinished = e.progressFinished

/-- The same task. -/
structure Task.Alike (ρ : Reweigh K) (t t' : Task K) : Prop where
  popIdx : t'.popIdx = t.popIdx
  cur : t'.cur = t.cur
  stats : t'.stats = t.stats
  ps : t.ps.Alike ρ t'.ps

/-- The same state of two multi-worker drivers. -/
structure Par.Alike (ρ : Reweigh K) (p p' : Par K) : Prop where
  shared : p.shared.Alike ρ p'.shared
  orderRng : p'.orderRng = p.orderRng
  pc : p'.pc = p.pc
  iter : p'.iter = p.iter
  order : p'.order = p.order
  nextTask : p'.nextTask = p.nextTask
  inFlight : p'.inFlight = p.inFlight
  pending : List.Forall₂ (Task.Alike ρ) p.pending p'.pending

/-- Every float that is a value of the type has its opposite, and the library functions of the losses return values of the type. -/
structure Rounding.Closed (R : Rounding K) (lib : LossLib K) : Prop where
  neg : ∀ {x : K}, R.rnd x = .fin x → R.rnd (-x) = .fin (-x)
  ln : ∀ {a : Fl K} {x : K}, lib.ln a = .fin x → R.rnd x = .fin x
  powf : ∀ {a b : Fl K} {x : K}, lib.powf a b = .fin x → R.rnd x = .fin x

/-- Multiplication by `c` commutes with rounding: exact arithmetic, or a power of two as long as nothing overflows or underflows. -/
structure Rounding.Scales (R : Rounding K) (c : K) : Prop where
  pos : 0 < c
  rnd : ∀ x, R.rnd (c * x) = (R.rnd x).scale c

end SR
