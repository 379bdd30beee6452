import Verif.Model.Search
import Verif.Spec.Binary64
import Mathlib.Data.Rat.Floor
/-
Model of `web/wasm/src/lib.rs`: the data set built from the table, the split into training and validation rows, the
lookup and evaluation of members, and the metrics.  Not modelled: the CSV reader, the conversions to and from
JavaScript values, the texts of error messages.  In the results of fallible functions the outer `none` is a panic and
the inner `none` the `Err` of the code.
-/
namespace SR

/-! ## The split -/

/-- `f64::clamp(lo, hi)` (a NaN stays a NaN). -/
def Fl.clamp {K : Type} [LinearOrder K] (v lo hi : Fl K) : Fl K := if v.lt lo then lo else if hi.lt v then hi else v

/-- `v.round() as usize`: to the nearest integer, halves away from zero; the cast saturates and sends NaN to 0. -/
def roundUsize : Fl ℚ → Nat
  | .fin x => if 0 ≤ x then min ⌊x + 1 / 2⌋.toNat usizeMax else 0
  | .pinf => usizeMax
  | _ => 0

/-- `WasmSplitIndices`, lib.rs:168-172. -/
structure Split where
  train : List Nat
  val : List Nat
deriving DecidableEq, Repr

/-- The number of validation rows, lib.rs:653-654. -/
def nVal (nRows : Nat) (fraction : Fl ℚ) : Nat :=
  let vf := fraction.clamp (.fin 0) (binary64.rnd (9 / 10))
  min (roundUsize (binary64.mul vf (binary64.ofNat nRows))) nRows

/-- `make_split_indices`, lib.rs:645-670; `shuffle` (lib.rs:74-82) is the function of random.rs.  The generator seeded
with `seed ^ 0x6a09_e667_f3bc_c909` is an arbitrary stream. -/
def makeSplitIndices {F : Type} (nRows : Nat) (fraction : Fl ℚ) : Rand F Split :=
  if nRows = 0 then pure ⟨[], []⟩
  else
    let n := nVal nRows fraction
    if n = 0 then pure ⟨List.range nRows, []⟩
    else do
      let idx ← shuffle (List.range nRows)
      pure ⟨idx.drop n, idx.take n⟩

section
variable {K : Type} [Field K] [LinearOrder K]


/-- The selected weights, lib.rs:704 and 711-713. -/
def selectWeights (indices : List Nat) : Option (List (Fl K)) → Option (Option (List (Fl K)))
  | none => some none
  | some w => (indices.mapM fun i => w[i]?).map some

/-- `select_rows`, lib.rs:689-716. -/
def selectRows (x : Mat (Fl K)) (y : List (Fl K)) (w : Option (List (Fl K))) (indices : List Nat) :
    Option (Option (Mat (Fl K) × List (Fl K) × Option (List (Fl K)))) :=
  if indices.any (fun i => decide (x.cols ≤ i)) then some none
  else do
    let yo ← indices.mapM fun i => y[i]?
    let wo ← selectWeights indices w
    some (some (⟨x.rows, indices.length, fun f r => x.at' f (indices.getD r 0)⟩, yo, wo))

/-- `Dataset::with_weights_and_names`, dataset.rs:74-81 with the assertions of `build_dataset` (45-48). -/
def mkDataset (x : Mat (Fl K)) (y : List (Fl K)) (w : Option (List (Fl K))) : Option (Dataset K) :=
  if y.length ≠ x.cols ∨ (∃ v ∈ w, v.length ≠ x.cols) then none else some ⟨x, y, w, none⟩

/-- `split_train_val`, lib.rs:672-687. -/
def splitTrainVal (x : Mat (Fl K)) (y : List (Fl K)) (w : Option (List (Fl K))) (split : Split) :
    Option (Option (Dataset K × Option (Dataset K))) := do
  match ← selectRows x y w split.train with
  | none => some none
  | some (xt, yt, wt) =>
    let train ← mkDataset xt yt wt
    if split.val.isEmpty then some (some (train, none))
    else
      match ← selectRows x y w split.val with
      | none => some none
      | some (xv, yv, wv) =>
        let val ← mkDataset xv yv wv
        some (some (train, some val))

/-! ## The data set -/

/-- The part of `WasmSearchOptions` used here, lib.rs:84-103. -/
structure WebColumns where
  hasHeaders : Bool
  xColumns : Option (List Nat)
  yColumn : Option Nat
  weightsColumn : Option Nat

/-- `Vec::dedup`: of equal neighbours the first is kept. -/
def dedupAdj : List Nat → List Nat
  | [] => []
  | [a] => [a]
  | a :: b :: l => if a = b then dedupAdj (a :: l) else a :: dedupAdj (b :: l)

/-- The feature columns before the checks, lib.rs:598-603: sorted, without duplicates. -/
def featureColumns (nCols yCol : Nat) (wCol : Option Nat) (requested : Option (List Nat)) : List Nat :=
  let cols := match requested with
    | some v => v
    | none => (List.range nCols).filter fun c => decide (c ≠ yCol ∧ some c ≠ wCol)
  dedupAdj (cols.mergeSort fun a b => decide (a ≤ b))

/-- What `build_full_dataset` returns, lib.rs:15. -/
structure FullData (K : Type) where
  x : Mat (Fl K)
  y : List (Fl K)
  names : List String
  weights : Option (List (Fl K))

/-- The checks on the weights column, lib.rs:588-596. -/
def weightsColumnOk (nCols yCol : Nat) : Option Nat → Bool
  | none => true
  | some wc => decide (wc < nCols ∧ wc ≠ yCol)

/-- The check that the weights column is not a feature, lib.rs:613-617. -/
def weightsNotFeature (cols : List Nat) : Option Nat → Bool
  | none => true
  | some wc => !cols.contains wc

/-- The weights column, lib.rs:623 and 630-632. -/
def weightsOf (rows : List (List (Fl K))) : Option Nat → Option (Option (List (Fl K)))
  | none => some none
  | some wc => (rows.mapM fun row => row[wc]?).map some

/-- The names of the features, lib.rs:635-639. -/
def featureNames (headers : List String) (o : WebColumns) (nCols : Nat) (cols : List Nat) : Option (List String) :=
  if o.hasHeaders && headers.length == nCols then cols.mapM fun c => headers[c]?
  else some ((List.range cols.length).map fun i => "x" ++ toString i)

/-- The copying part of `build_full_dataset`, lib.rs:619-642 (`none`: index out of range). -/
def fillDataset (headers : List String) (rows : List (List (Fl K))) (o : WebColumns) (nCols yCol : Nat)
    (cols : List Nat) : Option (FullData K) := do
  let table ← cols.mapM fun c => rows.mapM fun row => row[c]?
  let y ← rows.mapM fun row => row[yCol]?
  let weights ← weightsOf rows o.weightsColumn
  let names ← featureNames headers o nCols cols
  some ⟨⟨cols.length, rows.length, fun f r => ((table[f]?).bind (·[r]?)).getD (.fin 0)⟩, y, names, weights⟩

/-- `build_full_dataset` after the test for an empty table, lib.rs:569-643; `nCols` is the length of the first row. -/
def buildChecked (headers : List String) (rows : List (List (Fl K))) (o : WebColumns) (nCols : Nat) :
    Option (Option (FullData K)) :=
  if nCols < 2 then some none
  else if rows.any (fun row => decide (row.length ≠ nCols)) then some none
  else
    let yCol := o.yColumn.getD (nCols - 1)
    if nCols ≤ yCol then some none
    else if !weightsColumnOk nCols yCol o.weightsColumn then some none
    else
      let cols := featureColumns nCols yCol o.weightsColumn o.xColumns
      if cols.isEmpty || cols.any (fun c => decide (nCols ≤ c)) || cols.contains yCol ||
          !weightsNotFeature cols o.weightsColumn then some none
      else (fillDataset headers rows o nCols yCol cols).map some

/-- `build_full_dataset`, lib.rs:561-643. -/
def buildFullDataset (headers : List String) (rows : List (List (Fl K))) (o : WebColumns) :
    Option (Option (FullData K)) :=
  match rows.head? with
  | none => some none
  | some first => buildChecked headers rows o first.length

/-! ## Members -/

/-- The points shown: the last `k` entries of the front, lib.rs:318-321 and 246-249. -/
def shownFront (h : Hall K) (k : Nat) : List (Member K) :=
  let front := h.paretoFront
  if k < front.length then front.drop (front.length - k) else front

/-- `find_member_by_id`, lib.rs:361-374. -/
def findMember (s : Shared K) (id : Nat) : Option (Member K) :=
  match s.hall.members.find? (fun m => m.id == id) with
  | some m => some m
  | none => if s.best.id = id then some s.best else none

variable [E : Env K]

/-- `EvalOptions` of lib.rs:382-385. -/
def webEvalOpts : EvalOptions := ⟨true, false⟩

/-- `eval_member_on_dataset`, lib.rs:376-398. -/
def evalMember (d : Dataset K) (m : Member K) : Option (Option (List (Fl K))) := do
  let (yhat, ok, _) ← evalPlanArrayInto E.ops (List.replicate d.x.cols (.fin 0)) m.plan m.expr.consts d.x
    (Buf.zeros 0 0) webEvalOpts
  some (if ok then some yhat else none)

end

/-! ## Metrics -/

section
variable {K : Type} [Field K] [LinearOrder K] (R : Rounding K)

/-- The accumulators of `compute_metrics`, lib.rs:405-409. -/
structure MetricAcc (K : Type) where
  mse : Fl K
  mae : Fl K
  sumW : Fl K
  minAbs : Fl K
  maxAbs : Fl K

/-- One row, lib.rs:413-424 (no weight) and 432-444. -/
def metricRow (acc : MetricAcc K) (yh yi : Fl K) (w : Option (Fl K)) : MetricAcc K :=
  let r := R.sub yh yi
  let ar := r.abs
  { mse := R.add acc.mse (match w with | none => R.mul r r | some w => R.mul (R.mul w r) r)
    mae := R.add acc.mae (match w with | none => ar | some w => R.mul w ar)
    sumW := match w with | none => acc.sumW | some w => R.add acc.sumW w
    minAbs := if ar.lt acc.minAbs then ar else acc.minAbs
    maxAbs := if acc.maxAbs.lt ar then ar else acc.maxAbs }

/-- The loop, lib.rs:412-424 and 431-444. -/
def metricLoop : List (Fl K × Fl K × Option (Fl K)) → MetricAcc K → MetricAcc K
  | [], acc => acc
  | (yh, yi, w) :: l, acc => metricLoop l (metricRow R acc yh yi w)

/-- The rows: predictions, targets and weights (lengths are equal, or `zip_eq` panics). -/
def metricRows (yhat y : List (Fl K)) : Option (List (Fl K)) → Option (List (Fl K × Fl K × Option (Fl K)))
  | none => if yhat.length ≠ y.length then none else some (yhat.zip (y.map fun v => (v, none)))
  | some w => if yhat.length ≠ y.length ∨ w.length ≠ y.length then none
    else some (yhat.zip (y.zip (w.map some)))

/-- The division after the loop, lib.rs:425-428 and 444-450. -/
def metricMean (n : Nat) (weighted : Bool) (acc : MetricAcc K) : MetricAcc K :=
  if weighted then
    if Fl.lt (.fin 0) acc.sumW then { acc with mse := R.div acc.mse acc.sumW, mae := R.div acc.mae acc.sumW }
    else { acc with mse := .fin 0, mae := .fin 0 }
  else if 0 < n then { acc with mse := R.div acc.mse (R.ofNat n), mae := R.div acc.mae (R.ofNat n) }
  else acc

/-- The mean of the targets, lib.rs:475-485. -/
def targetMean (y : List (Fl K)) : Option (List (Fl K)) → Fl K
  | none => R.div (R.sum y) (R.ofNat y.length)
  | some w => if (R.sum w).feq (.fin 0) then .fin 0 else R.div (R.sum (List.zipWith R.mul y w)) (R.sum w)

/-- The sums `sse` and `sst`, lib.rs:487-506. -/
def sumSquares (mean : Fl K) : List (Fl K × Fl K × Option (Fl K)) → Fl K × Fl K → Fl K × Fl K
  | [], acc => acc
  | (yh, yi, w) :: l, (sse, sst) =>
    let r := R.sub yh yi
    let d := R.sub yi mean
    match w with
    | none => sumSquares mean l (R.add sse (R.mul r r), R.add sst (R.mul d d))
    | some w => sumSquares mean l (R.add sse (R.mul (R.mul w r) r), R.add sst (R.mul (R.mul w d) d))

/-- The sums `cov`, `vy` and `vyh`, lib.rs:511-520. -/
def covSums (yhMean yMean : Fl K) : List (Fl K × Fl K) → Fl K × Fl K × Fl K → Fl K × Fl K × Fl K
  | [], acc => acc
  | (yh, yi) :: l, (cov, vy, vyh) =>
    let dyh := R.sub yh yhMean
    let dy := R.sub yi yMean
    covSums yhMean yMean l (R.add cov (R.mul dyh dy), R.add vy (R.mul dy dy), R.add vyh (R.mul dyh dyh))

/-- `r2_and_corr`, lib.rs:469-528. -/
def r2AndCorr (sqrt : Fl K → Fl K) (yhat y : List (Fl K)) (w : Option (List (Fl K))) : Option (Fl K × Fl K) :=
  if y.isEmpty || yhat.length != y.length then some (.nan, .nan)
  else do
    let rows ← metricRows yhat y w
    let mean := targetMean R y w
    let (sse, sst) := sumSquares R mean rows (.fin 0, .fin 0)
    let r2 := if sst.feq (.fin 0) then .fin 0 else R.sub (.fin 1) (R.div sse sst)
    let yhMean := R.div (R.sum yhat) (R.ofNat yhat.length)
    let (cov, vy, vyh) := covSums R yhMean mean (yhat.zip y) (.fin 0, .fin 0, .fin 0)
    let corr := if vy.feq (.fin 0) || vyh.feq (.fin 0) then .fin 0 else R.div cov (R.mul (sqrt vy) (sqrt vyh))
    some (r2, corr)

/-- `WasmMetrics`, lib.rs:150-160. -/
structure Metrics (K : Type) where
  n : Nat
  mse : Fl K
  mae : Fl K
  rmse : Fl K
  r2 : Fl K
  corr : Fl K
  minAbsErr : Fl K
  maxAbsErr : Fl K

/-- `compute_metrics`, lib.rs:400-467 (`none`: `zip_eq` panics). -/
def computeMetrics (sqrt : Fl K → Fl K) (yhat y : List (Fl K)) (w : Option (List (Fl K))) : Option (Metrics K) := do
  let rows ← metricRows yhat y w
  let acc := metricMean R y.length w.isSome (metricLoop R rows ⟨.fin 0, .fin 0, .fin 0, .pinf, .fin 0⟩)
  let (r2, corr) ← r2AndCorr R sqrt yhat y w
  some ⟨y.length, acc.mse, acc.mae, sqrt acc.mse, r2, corr,
    if acc.minAbs.isFinite then acc.minAbs else .fin 0, acc.maxAbs⟩

end

/-! ## Evaluation of a shown member -/

section
variable {K : Type} [Field K] [LinearOrder K] [E : Env K]

/-- `evaluate_member`, lib.rs:257-277, from the lookup on: the metrics and the predictions.  Not modelled: reading the
identifier and the name of the data set from strings. -/
def evaluateMember (s : Shared K) (d : Dataset K) (id : Nat) : Option (Option (Metrics K × List (Fl K))) :=
  match findMember s id with
  | none => some none
  | some m => do
    match ← evalMember d m with
    | none => some none
    | some yhat =>
      let metrics ← computeMetrics E.RT E.lossLib.sqrt yhat d.y d.weights
      some (some (metrics, yhat))

end
end SR
