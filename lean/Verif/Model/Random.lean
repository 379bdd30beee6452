import Verif.Model.Rand
import Verif.Spec.Float
/-
Model of `symbolic_regression/src/random.rs` and of the samplers of `symbolic_regression/src/selection.rs`.
Loops that run until the random draws are suitable take a bound `fuel` on the number of iterations; the result
`none` stands for a panic or for a loop that has not ended within `fuel` iterations.
-/
namespace SR
variable {F α : Type}

/-- `usize_range_inclusive`, random.rs:7-13. -/
def usizeRangeInclusive (start stop : Nat) : Rand F Nat :=
  if stop ≤ start then pure start
  else do
    let d ← Rand.below (stop - start + 1)
    pure (start + d)

/-- `slice::swap`; `none` when an index is out of range. -/
def swapAt (l : List α) (i j : Nat) : Option (List α) := do
  let x ← l[i]?
  let y ← l[j]?
  some ((l.set i y).set j x)

/-- Loop of `shuffle`, random.rs:81-84, over `i = n, n-1, ..., 1`. -/
def shuffleLoop : Nat → List α → Rand F (List α)
  | 0, l => pure l
  | i + 1, l => do
    let j ← Rand.below (i + 2)
    let l' ← Rand.lift (swapAt l (i + 1) j)
    shuffleLoop i l'

/-- `shuffle`, random.rs:77-85. -/
def shuffle (l : List α) : Rand F (List α) :=
  if l.length ≤ 1 then pure l else shuffleLoop (l.length - 1) l

/-- `choose`, random.rs:87-93. -/
def choose (l : List α) : Rand F (Option α) :=
  if l.isEmpty then pure none
  else do
    let i ← Rand.below l.length
    let x ← Rand.lift l[i]?
    pure (some x)

/-- Rejection loop of `sample_indices`, selection.rs:103-110. -/
def rejectLoop (len take : Nat) : Nat → List Nat → Rand F (List Nat)
  | 0, _ => Rand.fail
  | fuel + 1, out =>
    if out.length < take then do
      let idx ← Rand.below len
      rejectLoop len take fuel (if out.contains idx then out else out ++ [idx])
    else pure out

/-- Partial shuffle loop of `sample_indices`, selection.rs:113-116, for `i` in `i .. i + k`. -/
def partialShuffle : Nat → Nat → List Nat → Rand F (List Nat)
  | 0, _, v => pure v
  | k + 1, i, v => do
    let d ← Rand.below (v.length - i)
    let v' ← Rand.lift (swapAt v i (i + d))
    partialShuffle k (i + 1) v'

/-- `sample_indices`, selection.rs:94-120. -/
def sampleIndices (fuel len n : Nat) : Rand F (List Nat) :=
  let take := min n len
  if len = 0 ∨ n = 0 then pure []
  else if take = len then pure (List.range len)
  else if take * take ≤ len then rejectLoop len take fuel []
  else do
    let v ← partialShuffle take 0 (List.range len)
    pure (v.take take)

section Floats
variable {K : Type} [Field K] [LinearOrder K] (R : Rounding K)

/-- Loop of `weighted_index` over the weights, selection.rs:82-90. -/
def weightedLoop : List (Fl K) → Nat → Fl K → Option Nat
  | [], _, _ => none
  | w :: ws, idx, target =>
    if w.le (.fin 0) then weightedLoop ws (idx + 1) target
    else if target.lt w then some idx
    else weightedLoop ws (idx + 1) (R.sub target w)

/-- The loop summing the weights, selection.rs:70-76 (`none`: panic). -/
def weightedTotal : List (Fl K) → Fl K → Option (Fl K)
  | [], total => some total
  | w :: ws, total =>
    if !w.isFinite || w.lt (.fin 0) then none else weightedTotal ws (R.add total w)

/-- `weighted_index`, selection.rs:66-92. -/
def weightedIndex (weights : List (Fl K)) : Rand (Fl K) Nat :=
  if weights.isEmpty then Rand.fail
  else match weightedTotal R weights (.fin 0) with
    | none => Rand.fail
    | some total =>
      if !total.isFinite || total.le (.fin 0) then Rand.fail
      else do
        let u ← Rand.float
        pure ((weightedLoop R weights 0 (R.mul u total)).getD (weights.length - 1))

/-- Transcendental functions of the standard library (uninterpreted). -/
structure Libm (K : Type) where
  exp : Fl K → Fl K
  ln : Fl K → Fl K
  sqrt : Fl K → Fl K
  floor : Fl K → Fl K
  /-- `as i64`, kept when non-negative -/
  toNat : Fl K → Option Nat

/-- Knuth's loop of `poisson_sample`, random.rs:31-37. -/
def knuthLoop (limit : Fl K) : Nat → Nat → Fl K → Rand (Fl K) Nat
  | 0, _, _ => Rand.fail
  | fuel + 1, k, p => do
    let u ← Rand.float
    let p' := R.mul p u
    if p'.le limit then pure k else knuthLoop limit fuel (k + 1) p'

/-- The rejection loop of `poisson_sample` for larger means, random.rs:40-74.  Simplified: the acceptance test,
which only decides whether the candidate `k` is returned, is an uninterpreted function of the two draws. -/
def ptrsLoop (candidate : Fl K → Fl K → Option Nat) : Nat → Rand (Fl K) Nat
  | 0 => Rand.fail
  | fuel + 1 => do
    let u ← Rand.float
    let v ← Rand.float
    match candidate u v with
    | some k => pure k
    | none => ptrsLoop candidate fuel

/-- `poisson_sample`, random.rs:21-75. -/
def poissonSample (lib : Libm K) (candidate : Fl K → Fl K → Fl K → Option Nat) (fuel : Nat) (mean : Fl K) :
    Rand (Fl K) Nat :=
  if !mean.isFinite || mean.le (.fin 0) then pure 0
  else if mean.lt (R.ofNat 30) then knuthLoop R (lib.exp mean.neg) fuel 0 (.fin 1)
  else ptrsLoop (candidate mean) fuel

end Floats
end SR
