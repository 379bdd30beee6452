import Verif.Model.PageData
import Verif.Model.WebSession
import Verif.Model.Options
/-
Model of how the options on the web page reach a session: the object `options` of `web/ui/src/state/sessionStore.ts`, changed by the
inputs of `ModelingTask.tsx`, `EnterData.tsx` and `ControlsCard.tsx`, and its reading in `WasmSearch::new`
(`web/wasm/src/lib.rs:192-206`) as `WasmSearchOptions` with the flattened `WasmOptionsShim` (`symbolic_regression/src/options.rs`).

The reading itself is done by the crates `serde` and `serde-wasm-bindgen`, which are not in the repository; what is assumed of them is
in the functions `natField` to `FieldTy.accepts`: a missing field has its default, an integer type takes a whole number in its range
(`usize` has 32 bits in WebAssembly), `f64` and `f32` take any number, and any field that cannot be read makes the whole reading
fail.
-/
namespace SR

/-- A value in the options object (`null` also stands for `undefined`). -/
inductive JsOpt where
  | num (v : Fl ℚ)
  | bool (b : Bool)
  | text (s : List Char)
  | null
  | arr (l : List JsOpt)
  | obj (l : List (String × JsOpt))

/-- An object: its fields.  If a name occurs twice the first is meant. -/
abbrev JsObj := List (String × JsOpt)

/-- `setOptionsPatch`, sessionStore.ts:226-229: `{ ...options, ...patch }`. -/
def patchOptions (patch o : JsObj) : JsObj := patch ++ o

/-! ## Reading values -/

/-- `usize::MAX` in WebAssembly. -/
def wasmUsizeMax : Nat := 2 ^ 32 - 1

/-- `Number.MAX_SAFE_INTEGER`. -/
def maxSafeInteger : Nat := 2 ^ 53 - 1

/-- An integer type with the given largest value. -/
def natField (max : Nat) : JsOpt → Option Nat
  | .num (.fin x) => if x.den = 1 ∧ 0 ≤ x ∧ x ≤ max then some x.num.toNat else none
  | _ => none

/-- `f64`. -/
def realField : JsOpt → Option (Fl ℚ)
  | .num v => some v
  | _ => none

/-- The conversion `as f32`. -/
def toSingle : Fl ℚ → Fl ℚ
  | .fin x => binary32.rnd x
  | v => v

/-- `f32`. -/
def singleField : JsOpt → Option (Fl ℚ)
  | .num v => some (toSingle v)
  | _ => none

/-- `bool`. -/
def boolField : JsOpt → Option Bool
  | .bool b => some b
  | _ => none

/-- `String`. -/
def textField : JsOpt → Option (List Char)
  | .text s => some s
  | _ => none

/-- `Option<T>`. -/
def optField {α : Type} (dec : JsOpt → Option α) : JsOpt → Option (Option α)
  | .null => some none
  | v => (dec v).map some

/-- `Vec<T>`. -/
def listField {α : Type} (dec : JsOpt → Option α) : JsOpt → Option (List α)
  | .arr l => l.mapM dec
  | _ => none

/-- The fields of `MutationWeights`, options.rs:7-40. -/
def weightNames : List String :=
  ["mutate_constant", "mutate_operator", "mutate_feature", "swap_operands", "rotate_tree", "add_node", "insert_node", "delete_node",
   "simplify", "randomize", "do_nothing", "optimize", "form_connection", "break_connection"]

/-- `MutationWeights` (`#[serde(default)]`): an object; its fields are read later. -/
def weightsField : JsOpt → Option JsObj
  | .obj l => if weightNames.all fun n => match l.lookup n with | none => true | some v => (realField v).isSome then some l else none
  | _ => none

/-- The types of the options. -/
inductive FieldTy
  | count   -- usize
  | seed    -- u64
  | small   -- u16
  | real    -- f64
  | single  -- f32
  | flag    -- bool
  | text    -- String
  | column  -- Option<usize>
  | columns -- Option<Vec<usize>>
  | weights -- MutationWeights
deriving DecidableEq

/-- Whether a value can be read as a field of the type. -/
def FieldTy.accepts : FieldTy → JsOpt → Bool
  | .count, v => (natField wasmUsizeMax v).isSome
  | .seed, v => (natField maxSafeInteger v).isSome
  | .small, v => (natField 65535 v).isSome
  | .real, v => (realField v).isSome
  | .single, v => (singleField v).isSome
  | .flag, v => (boolField v).isSome
  | .text, v => (textField v).isSome
  | .column, v => (optField (natField wasmUsizeMax) v).isSome
  | .columns, v => (optField (listField (natField wasmUsizeMax)) v).isSome
  | .weights, v => (weightsField v).isSome

/-- The fields of `WasmSearchOptions`, lib.rs:84-103, with those of `WasmOptionsShim`, options.rs:44-127 and 226-230. -/
def webFields : List (String × FieldTy) :=
  [("has_headers", .flag), ("x_columns", .columns), ("y_column", .column), ("weights_column", .column), ("validation_fraction", .real),
   ("loss_kind", .text), ("huber_delta", .real), ("lp_p", .real), ("quantile_tau", .real), ("epsilon_insensitive_eps", .real),
   ("seed", .seed), ("niterations", .count), ("populations", .count), ("population_size", .count), ("ncycles_per_iteration", .count),
   ("batch_size", .count), ("complexity_of_constants", .small), ("complexity_of_variables", .small), ("maxsize", .count),
   ("maxdepth", .count), ("warmup_maxsize_by", .single), ("parsimony", .real), ("adaptive_parsimony_scaling", .real),
   ("crossover_probability", .real), ("perturbation_factor", .real), ("probability_negate_constant", .real),
   ("tournament_selection_n", .count), ("tournament_selection_p", .single), ("alpha", .real), ("optimizer_nrestarts", .count),
   ("optimizer_probability", .real), ("optimizer_iterations", .count), ("optimizer_f_calls_limit", .count), ("fraction_replaced", .real),
   ("fraction_replaced_hof", .real), ("fraction_replaced_guesses", .real), ("topn", .count), ("use_frequency", .flag),
   ("use_frequency_in_tournament", .flag), ("skip_mutation_failures", .flag), ("annealing", .flag), ("should_optimize_constants", .flag),
   ("migration", .flag), ("hof_migration", .flag), ("use_baseline", .flag), ("progress", .flag), ("should_simplify", .flag),
   ("batching", .flag), ("mutation_weights", .weights)]

/-- Whether `from_value` succeeds, lib.rs:192. -/
def readable (o : JsObj) : Bool :=
  webFields.all fun f => match o.lookup f.1 with | none => true | some v => f.2.accepts v

/-- The object that counts, lib.rs:192-194: if it cannot be read, it is `WasmSearchOptions::default()`, as if it were empty. -/
def effective (o : JsObj) : JsObj := if readable o then o else []

/-- A field that can be read, or is missing (`#[serde(default)]`). -/
def JsObj.read {α : Type} (o : JsObj) (dec : JsOpt → Option α) (name : String) (dflt : α) : α :=
  match o.lookup name with
  | none => dflt
  | some v => (dec v).getD dflt

/-- A field of type `usize`. -/
def JsObj.count (o : JsObj) (name : String) (dflt : Nat) : Nat := o.read (natField wasmUsizeMax) name dflt

/-- A field of type `f64`. -/
def JsObj.real (o : JsObj) (name : String) (dflt : Fl ℚ) : Fl ℚ := o.read realField name dflt

/-- A field of type `bool`. -/
def JsObj.flag (o : JsObj) (name : String) (dflt : Bool) : Bool := o.read boolField name dflt

/-! ## The request -/

/-- `mutation_weights`, options.rs:7-40 and 133-145. -/
def JsObj.weights (o : JsObj) (d : MutWeights ℚ) : MutWeights ℚ :=
  let l : JsObj := o.read weightsField "mutation_weights" []
  { mutateConstant := l.real "mutate_constant" d.mutateConstant
    mutateOperator := l.real "mutate_operator" d.mutateOperator
    mutateFeature := l.real "mutate_feature" d.mutateFeature
    swapOperands := l.real "swap_operands" d.swapOperands
    rotateTree := l.real "rotate_tree" d.rotateTree
    addNode := l.real "add_node" d.addNode
    insertNode := l.real "insert_node" d.insertNode
    deleteNode := l.real "delete_node" d.deleteNode
    simplify := l.real "simplify" d.simplify
    randomize := l.real "randomize" d.randomize
    doNothing := l.real "do_nothing" d.doNothing
    optimize := l.real "optimize" d.optimize }

/-- `apply_to`, options.rs:244-250, on the default options: the numbers and flags (`fraction_replaced_guesses`, `progress`,
`form_connection` and `break_connection` are read by nobody). -/
def JsObj.core (o : JsObj) (d : SOptions ℚ) : SOptions ℚ :=
  { d with
    cx := { d.cx with
      complexityOfConstants := o.read (natField 65535) "complexity_of_constants" d.cx.complexityOfConstants
      complexityOfVariables := o.read (natField 65535) "complexity_of_variables" d.cx.complexityOfVariables
      maxdepth := o.count "maxdepth" d.cx.maxdepth }
    weights := o.weights d.weights
    maxsize := o.count "maxsize" d.maxsize
    parsimony := o.real "parsimony" d.parsimony
    useBaseline := o.flag "use_baseline" d.useBaseline
    tour := {
      n := o.count "tournament_selection_n" d.tour.n
      p := o.read singleField "tournament_selection_p" d.tour.p
      useFrequency := o.flag "use_frequency_in_tournament" d.tour.useFrequency
      scaling := o.real "adaptive_parsimony_scaling" d.tour.scaling
      maxsize := o.count "maxsize" d.maxsize }
    crossoverProbability := o.real "crossover_probability" d.crossoverProbability
    perturbationFactor := o.real "perturbation_factor" d.perturbationFactor
    probNegate := o.real "probability_negate_constant" d.probNegate
    alpha := o.real "alpha" d.alpha
    annealing := o.flag "annealing" d.annealing
    useFrequency := o.flag "use_frequency" d.useFrequency
    skipMutationFailures := o.flag "skip_mutation_failures" d.skipMutationFailures
    shouldSimplify := o.flag "should_simplify" d.shouldSimplify
    shouldOptimizeConstants := o.flag "should_optimize_constants" d.shouldOptimizeConstants
    optimizerProbability := o.real "optimizer_probability" d.optimizerProbability
    optimizerNRestarts := o.count "optimizer_nrestarts" d.optimizerNRestarts
    optimizerIterations := o.count "optimizer_iterations" d.optimizerIterations
    optimizerFCallsLimit := o.count "optimizer_f_calls_limit" d.optimizerFCallsLimit
    ncyclesPerIteration := o.count "ncycles_per_iteration" d.ncyclesPerIteration
    niterations := o.count "niterations" d.niterations
    populations := o.count "populations" d.populations
    populationSize := o.count "population_size" d.populationSize
    batching := o.flag "batching" d.batching
    batchSize := o.count "batch_size" d.batchSize
    migration := o.flag "migration" d.migration
    hofMigration := o.flag "hof_migration" d.hofMigration
    fractionReplaced := o.real "fraction_replaced" d.fractionReplaced
    fractionReplacedHof := o.real "fraction_replaced_hof" d.fractionReplacedHof
    topn := o.count "topn" d.topn
    warmupMaxsizeBy := o.read singleField "warmup_maxsize_by" d.warmupMaxsizeBy }

/-- The columns, lib.rs:87-90, with the defaults of lib.rs:108-111. -/
def JsObj.columns (o : JsObj) : WebColumns where
  hasHeaders := o.flag "has_headers" true
  xColumns := o.read (optField (listField (natField wasmUsizeMax))) "x_columns" none
  yColumn := o.read (optField (natField wasmUsizeMax)) "y_column" none
  weightsColumn := o.read (optField (natField wasmUsizeMax)) "weights_column" none

/-- The loss, lib.rs:94-98, with the defaults of lib.rs:114-118. -/
def JsObj.loss (o : JsObj) : WebLoss ℚ where
  kind := o.read textField "loss_kind" "mse".toList
  huberDelta := o.real "huber_delta" (lit64 1)
  lpP := o.real "lp_p" (lit64 2)
  quantileTau := o.real "quantile_tau" (lit64 (1 / 2))
  epsilon := o.real "epsilon_insensitive_eps" (lit64 (1 / 10))

/-- What the page sends with `init`, useSearchController.ts:190-196, protocol.ts:3-10. -/
structure InitMsg where
  text : Csv ℚ
  options : JsObj
  unary : List (List Char)
  binary : List (List Char)
  ternary : List (List Char)

/-- The request that `WasmSearch::new` makes of options that could be read and of the table, lib.rs:196-215; `d` are the
options of `Options::default()`. -/
def webRequestOf (d : SOptions ℚ) (o : JsObj) (m : InitMsg) (headers : List String) (rows : List (List (Fl ℚ))) : WebRequest ℚ where
  headers := headers
  rows := rows
  columns := o.columns
  validationFraction := o.real "validation_fraction" (lit64 0)
  loss := o.loss
  unary := m.unary
  binary := m.binary
  ternary := m.ternary
  core := o.core d

/-- The streams of random numbers that belong to a seed: that of the split, those of the populations, that of the order. -/
structure Streams where
  split : Rng (Fl ℚ)
  seeds : Nat → Rng (Fl ℚ)
  order : Rng (Fl ℚ)

/-- `WasmSearch::new`, lib.rs:185-225, from the message: `streams` is the random number generator. -/
def wasmNew [Env ℚ] (S : OpTable) (ws : Char → Bool) (d : SOptions ℚ) (streams : Nat → Streams) (m : InitMsg) :
    Option (Option (Session ℚ)) :=
  let o := effective m.options
  let g := streams (o.read (natField maxSafeInteger) "seed" 0)
  match sessionRead o.columns.hasHeaders m.text with
  | none => some none
  | some (headers, rows) => Session.open S ws (webRequestOf d o m headers rows) g.split g.seeds g.order

/-! ## The page -/

/-- `Boolean(v)` of a field of an object, as far as it is a truth value or missing. -/
def jsBoolean : Option JsOpt → Bool
  | none => false
  | some (.bool b) => b
  | some .null => false
  | some (.num (.fin x)) => decide (x ≠ 0)
  | some (.num .nan) => false
  | some (.text s) => !s.isEmpty
  | some _ => true

/-- The header switch as the page uses it, sessionStore.ts:187 and 217. -/
def JsObj.pageHasHeaders (o : JsObj) : Bool := jsBoolean (o.lookup "has_headers")

end SR
