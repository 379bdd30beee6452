import Verif.Model.Member
import Verif.Spec.Binary64
/-
The default options, options.rs.  Literals of type `f64` (`f32`) are rounded to binary64 (binary32); `f32` values that the
search converts to `f64` are unchanged by the conversion.
-/
namespace SR

/-- A literal of type `f64`. -/
def lit64 (x : ℚ) : Fl ℚ := binary64.rnd x

/-- A literal of type `f32`. -/
def lit32 (x : ℚ) : Fl ℚ := binary32.rnd x

/-- `MutationWeights::default`, options.rs:7-40, 131-135 (`form_connection` and `break_connection` are never used). -/
def MutWeights.default : MutWeights ℚ where
  mutateConstant := lit64 (346 / 10000)
  mutateOperator := lit64 (293 / 1000)
  mutateFeature := lit64 (1 / 10)
  swapOperands := lit64 (198 / 1000)
  rotateTree := lit64 (426 / 100)
  addNode := lit64 (247 / 100)
  insertNode := lit64 (112 / 10000)
  deleteNode := lit64 (870 / 1000)
  simplify := lit64 (209 / 100000)
  randomize := lit64 (502 / 1000000)
  doNothing := lit64 (273 / 1000)
  optimize := lit64 0

/-- `BackTracking::default`, optim.rs:32-43; `sqrt` is the square root of `f64`, and `finiteMax` the number of halvings
computed in optim.rs:162. -/
def BackTracking.default (sqrt : Fl ℚ → Fl ℚ) (finiteMax : Nat) : BackTracking ℚ where
  c1 := lit64 (1 / 10000)
  rhoHi := lit64 (1 / 2)
  rhoLo := lit64 (1 / 10)
  iterations := 1000
  order := 3
  maxstep := .pinf
  finiteMax := finiteMax
  sqrt := sqrt

/-- The complexity options among the defaults, options.rs:58-64, 191-195. -/
def CxOptions.default (D : Nat) : CxOptions where
  D := D
  complexityOfConstants := 1
  complexityOfVariables := 1
  variableComplexities := none
  operatorComplexityOverrides := []
  maxdepth := 30
  opLimits := []
  nested := []

/-- `Options::default`, options.rs:44-127, 183-199, with the constant optimiser's constants (constant_optimization.rs:230-235).
The search converts `parsimony` to `T`; the default is zero in every type. -/
def SOptions.default (D : Nat) (sqrt : Fl ℚ → Fl ℚ) (finiteMax : Nat) : SOptions ℚ where
  cx := CxOptions.default D
  operators := Operators.new D
  loss := .mean .squared
  weights := MutWeights.default
  maxsize := 30
  parsimony := lit64 0
  useBaseline := true
  tour := { n := 15, p := lit32 (982 / 1000), useFrequency := true, scaling := lit64 1040, maxsize := 30 }
  crossoverProbability := lit64 (259 / 10000)
  perturbationFactor := lit64 (129 / 1000)
  probNegate := lit64 (743 / 100000)
  alpha := lit64 (317 / 100)
  annealing := true
  useFrequency := true
  skipMutationFailures := true
  shouldSimplify := true
  shouldOptimizeConstants := true
  optimizerProbability := lit64 (14 / 100)
  optimizerNRestarts := 2
  optimizerIterations := 8
  optimizerFCallsLimit := 10000
  lineSearch := BackTracking.default sqrt finiteMax
  gAbstol := lit64 (1 / 10 ^ 8)
  ncyclesPerIteration := 380
  niterations := 100
  populations := 31
  populationSize := 27
  batching := false
  batchSize := 50
  migration := true
  hofMigration := true
  fractionReplaced := lit64 (36 / 100000)
  fractionReplacedHof := lit64 (614 / 10000)
  topn := 12
  warmupMaxsizeBy := lit32 0

end SR
