import Verif.Model.ConstOpt
import Verif.Spec.Binary64
import Mathlib.Algebra.Order.Ring.Rat
import Mathlib.Algebra.Field.Rat
/-
A small concrete environment, used only to show that the hypotheses of the theorems about members and the search are
met by real instances: exact rational arithmetic, operators `+ - * neg`, and default-like options.
-/
namespace SR.Demo
open SR

/-- A sort for short lists that the kernel can run (longer ones use merge sort). -/
def smallSort : SortBy where
  run c l := some (match l with
    | [] => []
    | [a] => [a]
    | [a, b] => if c a b != .gt then [a, b] else [b, a]
    | l => l.mergeSort fun a b => c a b != .gt)
  perm c l l' h := by
    simp only [Option.some.injEq] at h
    subst h
    match l with
    | [] => simp
    | [a] => simp
    | [a, b] =>
      simp only
      split
      · exact List.Perm.refl _
      · exact List.Perm.swap _ _ _
    | a :: b :: d :: l => exact List.mergeSort_perm _ _
  sorted c l _ _ := by
    match l with
    | [] => simp
    | [a] => simp
    | [a, b] =>
      simp only [Option.some.injEq]
      rw [List.mergeSort]
      simp only [List.MergeSort.Internal.splitInTwo, List.length_cons, List.length_nil, List.splitAt, List.splitAt.go]
      simp [List.merge]
    | a :: b :: d :: l => rfl

/-- Operators: arity 1: 0 = neg; arity 2: 0 = add, 1 = mul, 2 = sub. -/
def ops : OpSet (Fl ℚ) where
  eval
    | 1, 0, [x] => x.neg
    | 2, 0, [x, y] => (Rounding.exact ℚ).add x y
    | 2, 1, [x, y] => (Rounding.exact ℚ).mul x y
    | 2, 2, [x, y] => (Rounding.exact ℚ).sub x y
    | _, _, _ => .nan
  partial_
    | 1, 0, [_], 0 => .fin (-1)
    | 2, 0, [_, _], _ => .fin 1
    | 2, 1, [_, y], 0 => y
    | 2, 1, [x, _], 1 => x
    | 2, 2, [_, _], 0 => .fin 1
    | 2, 2, [_, _], 1 => .fin (-1)
    | _, _, _, _ => .nan
  known
    | 1, 0 => true
    | 2, 0 => true
    | 2, 1 => true
    | 2, 2 => true
    | _, _ => false

/-- A digit for every node that the demonstration searches can contain. -/
def digit : PNode → Nat
  | .var f => min f 1
  | .const c => 2 + min c 8
  | .op 1 _ => 11
  | .op _ o => 12 + min o 3

/-- A hash function without collisions among lists of at most 15 such nodes. -/
def hash (nodes : List PNode) : UInt64 := UInt64.ofNat (nodes.foldr (fun n acc => digit n + 16 * acc) 0)

/-- The environment. -/
@[reducible] def env : Env ℚ where
  RT := Rounding.exact ℚ
  R := Rounding.exact ℚ
  lossLib := ⟨id, id, id, fun x _ => x, id⟩
  libm := ⟨fun _ => .fin 1, fun _ => .fin 0, id, id, fun _ => some 0⟩
  ops := ops
  D := 2
  hash := hash
  cfg := ⟨some 0, some 1, some 2⟩
  sort := smallSort
  normal u _ := u
  arith := ⟨.fin 0, .fin 1, .fin (11 / 10), (Rounding.exact ℚ).add, (Rounding.exact ℚ).mul, (Rounding.exact ℚ).div,
    Fl.neg, Fl.max, fun x _ => x, fun a b => b.lt a⟩
  ptrs _ _ _ := some 0
  fuel := 100
  R32 := binary32
  floorUsize
    | .fin x => min x.floor.toNat usizeMax
    | .pinf => usizeMax
    | _ => 0

/-- Complexity options: one per node, no operator constraints. -/
def cx : CxOptions :=
  { D := 2, complexityOfConstants := 1, complexityOfVariables := 1, variableComplexities := none,
    operatorComplexityOverrides := [], maxdepth := 5, opLimits := [], nested := [] }

/-- Options close to the defaults. -/
def opts : SOptions ℚ where
  cx := cx
  operators := ⟨2, [[⟨1, 0⟩], [⟨2, 0⟩, ⟨2, 1⟩, ⟨2, 2⟩]]⟩
  loss := .mean .squared
  weights := ⟨.fin 1, .fin 1, .fin 1, .fin 1, .fin 1, .fin 1, .fin 1, .fin 1, .fin 1, .fin 1, .fin 1, .fin 1⟩
  maxsize := 7
  parsimony := .fin 0
  useBaseline := false
  tour := ⟨1, .fin 1, false, .fin 0, 7⟩
  crossoverProbability := .fin (1 / 2)
  perturbationFactor := .fin (1 / 10)
  probNegate := .fin (1 / 100)
  alpha := .fin 1
  annealing := false
  useFrequency := false
  skipMutationFailures := true
  shouldSimplify := true
  shouldOptimizeConstants := true
  optimizerProbability := .fin 1
  optimizerNRestarts := 1
  optimizerIterations := 2
  optimizerFCallsLimit := 0
  lineSearch := ⟨.fin (1 / 10000), .fin (1 / 2), .fin (1 / 10), 1000, 3, .pinf, 52, fun _ => .fin (1 / 2 ^ 26)⟩
  gAbstol := .fin (1 / 10 ^ 8)
  ncyclesPerIteration := 2
  niterations := 2
  populations := 2
  populationSize := 2
  batching := false
  batchSize := 1
  migration := true
  hofMigration := true
  fractionReplaced := .fin (1 / 10)
  fractionReplacedHof := .fin (1 / 10)
  topn := 1
  warmupMaxsizeBy := .fin 0

/-- Two rows: `x = 1, 2`, `y = 2, 4`. -/
def data : Dataset ℚ where
  x := ⟨1, 2, fun _ r => .fin (r + 1)⟩
  y := [.fin 2, .fin 4]
  weights := none
  baseline := none

theorem data_wf : data.WF := ⟨rfl, by intro w h; cases h⟩

/-- `c0 * x0`. -/
def tree : Tree := .op 1 [.const 0, .var 0]
def expr : PostfixExpr (Fl ℚ) := ⟨tree.toPostfix, [.fin 1]⟩

/-- A family of random streams. -/
def gen (k : Nat) : Rng (Fl ℚ) :=
  ⟨fun i => (i * 7919 + k * 31 + i * i * 13 * k) / 3, fun i => .fin (((i * 37 + k * 11 + i * i * k) % 100 : Nat) / 100)⟩

/-- One population, one iteration, no constant optimisation and no migration; `cv` is the complexity of variables. -/
def smallOpts (cv : Nat) : SOptions ℚ :=
  { opts with cx := { cx with complexityOfVariables := cv }, populations := 1, niterations := 1, ncyclesPerIteration := 3,
              maxsize := 3, shouldOptimizeConstants := false, migration := false, hofMigration := false }

end SR.Demo
