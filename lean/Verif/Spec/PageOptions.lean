import Verif.Model.PageOptions
import Verif.Spec.WebSession
/-
What the user of the web page relies on: the options that are shown are those of the search (C86).
-/
namespace SR

/-- The value is one that a field of this type can have. -/
inductive Suits : FieldTy → JsOpt → Prop
  | count {n : Nat} : n < 2 ^ 32 → Suits .count (.num (.fin n))
  | seed {n : Nat} : n < 2 ^ 53 → Suits .seed (.num (.fin n))
  | small {n : Nat} : n < 2 ^ 16 → Suits .small (.num (.fin n))
  | real (v : Fl ℚ) : Suits .real (.num v)
  | single (v : Fl ℚ) : Suits .single (.num v)
  | flag (b : Bool) : Suits .flag (.bool b)
  | text (s : List Char) : Suits .text (.text s)
  | noColumn : Suits .column .null
  | column {n : Nat} : n < 2 ^ 32 → Suits .column (.num (.fin n))
  | noColumns : Suits .columns .null
  | columns {l : List Nat} : (∀ n ∈ l, n < 2 ^ 32) → Suits .columns (.arr (l.map fun n : Nat => .num (.fin (n : ℚ))))
  | weights {l : JsObj} : (∀ name ∈ weightNames, ∀ v, l.lookup name = some v → ∃ x, v = .num x) → Suits .weights (.obj l)

/-- Every value in the options suits its field. -/
def AllSuit (o : JsObj) : Prop := ∀ name ty, (name, ty) ∈ webFields → ∀ v, o.lookup name = some v → Suits ty v

/-- The count `n` is the one in the options, or the default if there is none. -/
def ShowsCount (o : JsObj) (name : String) (dflt n : Nat) : Prop :=
  (o.lookup name = none → n = dflt) ∧ ∀ v, o.lookup name = some (.num v) → v = .fin n

/-- The number `v` is the one in the options, or the default. -/
def ShowsReal (o : JsObj) (name : String) (dflt v : Fl ℚ) : Prop :=
  (o.lookup name = none → v = dflt) ∧ ∀ x, o.lookup name = some (.num x) → v = x

/-- The number `v` is the one in the options, rounded to single precision, or the default. -/
def ShowsSingle (o : JsObj) (name : String) (dflt v : Fl ℚ) : Prop :=
  (o.lookup name = none → v = dflt) ∧ (∀ x, o.lookup name = some (.num (.fin x)) → v = binary32.rnd x) ∧
  ∀ x, x.isFinite = false → o.lookup name = some (.num x) → v = x

/-- The flag `b` is the one in the options, or the default. -/
def ShowsFlag (o : JsObj) (name : String) (dflt b : Bool) : Prop :=
  (o.lookup name = none → b = dflt) ∧ ∀ c, o.lookup name = some (.bool c) → b = c

/-- The column `c` is the one in the options, if there is one. -/
def ShowsColumn (o : JsObj) (name : String) (c : Option Nat) : Prop :=
  (o.lookup name = none ∨ o.lookup name = some .null → c = none) ∧
  ∀ v, o.lookup name = some (.num v) → ∃ n : Nat, c = some n ∧ v = .fin n

/-- The weight `v` is the one among the mutation weights in the options, or the default. -/
def ShowsWeight (o : JsObj) (name : String) (dflt v : Fl ℚ) : Prop :=
  (o.lookup "mutation_weights" = none → v = dflt) ∧ ∀ l, o.lookup "mutation_weights" = some (.obj l) → ShowsReal l name dflt v

/-- The columns are those in the options. -/
structure ShowsColumns (o : JsObj) (c : WebColumns) : Prop where
  hasHeaders : ShowsFlag o "has_headers" true c.hasHeaders
  target : ShowsColumn o "y_column" c.yColumn
  weights : ShowsColumn o "weights_column" c.weightsColumn
  features : (o.lookup "x_columns" = none ∨ o.lookup "x_columns" = some .null → c.xColumns = none) ∧
    ∀ l, o.lookup "x_columns" = some (.arr l) → ∃ ns : List Nat, c.xColumns = some ns ∧ l = ns.map fun n : Nat => .num (.fin (n : ℚ))

/-- The loss and its parameters are those in the options. -/
structure ShowsLoss (o : JsObj) (l : WebLoss ℚ) : Prop where
  kind : (o.lookup "loss_kind" = none → l.kind = "mse".toList) ∧ ∀ s, o.lookup "loss_kind" = some (.text s) → l.kind = s
  delta : ShowsReal o "huber_delta" (lit64 1) l.huberDelta
  p : ShowsReal o "lp_p" (lit64 2) l.lpP
  tau : ShowsReal o "quantile_tau" (lit64 (1 / 2)) l.quantileTau
  eps : ShowsReal o "epsilon_insensitive_eps" (lit64 (1 / 10)) l.epsilon

/-- The numbers and flags of the search are those in the options, with the documented defaults. -/
structure ShowsCore (o : JsObj) (s : SOptions ℚ) : Prop where
  niterations : ShowsCount o "niterations" 100 s.niterations
  populations : ShowsCount o "populations" 31 s.populations
  populationSize : ShowsCount o "population_size" 27 s.populationSize
  ncycles : ShowsCount o "ncycles_per_iteration" 380 s.ncyclesPerIteration
  batchSize : ShowsCount o "batch_size" 50 s.batchSize
  ofConstants : ShowsCount o "complexity_of_constants" 1 s.cx.complexityOfConstants
  ofVariables : ShowsCount o "complexity_of_variables" 1 s.cx.complexityOfVariables
  maxsize : ShowsCount o "maxsize" 30 s.maxsize
  maxsizeStats : ShowsCount o "maxsize" 30 s.tour.maxsize
  maxdepth : ShowsCount o "maxdepth" 30 s.cx.maxdepth
  warmup : ShowsSingle o "warmup_maxsize_by" (lit32 0) s.warmupMaxsizeBy
  parsimony : ShowsReal o "parsimony" (lit64 0) s.parsimony
  scaling : ShowsReal o "adaptive_parsimony_scaling" (lit64 1040) s.tour.scaling
  crossover : ShowsReal o "crossover_probability" (lit64 (259 / 10000)) s.crossoverProbability
  perturbation : ShowsReal o "perturbation_factor" (lit64 (129 / 1000)) s.perturbationFactor
  negate : ShowsReal o "probability_negate_constant" (lit64 (743 / 100000)) s.probNegate
  entrants : ShowsCount o "tournament_selection_n" 15 s.tour.n
  place : ShowsSingle o "tournament_selection_p" (lit32 (982 / 1000)) s.tour.p
  alpha : ShowsReal o "alpha" (lit64 (317 / 100)) s.alpha
  nrestarts : ShowsCount o "optimizer_nrestarts" 2 s.optimizerNRestarts
  optProbability : ShowsReal o "optimizer_probability" (lit64 (14 / 100)) s.optimizerProbability
  optIterations : ShowsCount o "optimizer_iterations" 8 s.optimizerIterations
  optCalls : ShowsCount o "optimizer_f_calls_limit" 10000 s.optimizerFCallsLimit
  replaced : ShowsReal o "fraction_replaced" (lit64 (36 / 100000)) s.fractionReplaced
  replacedHof : ShowsReal o "fraction_replaced_hof" (lit64 (614 / 10000)) s.fractionReplacedHof
  topn : ShowsCount o "topn" 12 s.topn
  useFrequency : ShowsFlag o "use_frequency" true s.useFrequency
  useFrequencyTour : ShowsFlag o "use_frequency_in_tournament" true s.tour.useFrequency
  skip : ShowsFlag o "skip_mutation_failures" true s.skipMutationFailures
  annealing : ShowsFlag o "annealing" true s.annealing
  optimize : ShowsFlag o "should_optimize_constants" true s.shouldOptimizeConstants
  migration : ShowsFlag o "migration" true s.migration
  hofMigration : ShowsFlag o "hof_migration" true s.hofMigration
  baseline : ShowsFlag o "use_baseline" true s.useBaseline
  simplify : ShowsFlag o "should_simplify" true s.shouldSimplify
  batching : ShowsFlag o "batching" false s.batching
  wConstant : ShowsWeight o "mutate_constant" (lit64 (346 / 10000)) s.weights.mutateConstant
  wOperator : ShowsWeight o "mutate_operator" (lit64 (293 / 1000)) s.weights.mutateOperator
  wFeature : ShowsWeight o "mutate_feature" (lit64 (1 / 10)) s.weights.mutateFeature
  wSwap : ShowsWeight o "swap_operands" (lit64 (198 / 1000)) s.weights.swapOperands
  wRotate : ShowsWeight o "rotate_tree" (lit64 (426 / 100)) s.weights.rotateTree
  wAdd : ShowsWeight o "add_node" (lit64 (247 / 100)) s.weights.addNode
  wInsert : ShowsWeight o "insert_node" (lit64 (112 / 10000)) s.weights.insertNode
  wDelete : ShowsWeight o "delete_node" (lit64 (870 / 1000)) s.weights.deleteNode
  wSimplify : ShowsWeight o "simplify" (lit64 (209 / 100000)) s.weights.simplify
  wRandomize : ShowsWeight o "randomize" (lit64 (502 / 1000000)) s.weights.randomize
  wNothing : ShowsWeight o "do_nothing" (lit64 (273 / 1000)) s.weights.doNothing
  wOptimize : ShowsWeight o "optimize" (lit64 0) s.weights.optimize

end SR
