import Verif.Model.Constraints
import Verif.Model.Random
/-
Model of `pop_member.rs` (the record), `hall_of_fame.rs`, `population.rs`, `migration.rs`,
`adaptive_parsimony.rs` and `selection.rs` of `symbolic_regression/src`.
Scalars and `f64` are `Fl K` (Spec/Float.lean).
-/
namespace SR
variable {K : Type}

/-- `PopMember`, pop_member.rs:13-23. -/
structure Member (K : Type) where
  id : Nat
  parent : Option Nat
  birth : Nat
  expr : PostfixExpr (Fl K)
  plan : EvalPlan
  complexity : Nat
  loss : Fl K
  cost : Fl K

/-- `HallOfFame`, hall_of_fame.rs:7-9: the entry of each complexity. -/
abbrev Hall (K : Type) := List (Option (Member K))

/-- `HallOfFame::new`, hall_of_fame.rs:12-16. -/
def Hall.new (maxComplexity : Nat) : Hall K := List.replicate (maxComplexity + 1) none

/-- The replacement rule for one slot, hall_of_fame.rs:29-41. -/
def Hall.better [LinearOrder K] (m : Member K) : Option (Member K) → Bool
  | none => true
  | some best => m.cost.cmpG best.cost == .lt

/-- `HallOfFame::consider`, hall_of_fame.rs:18-42 (`none`: panic). -/
def Hall.consider [LinearOrder K] (o : CxOptions) (cur : Nat) (h : Hall K) (m : Member K) :
    Option (Hall K) := do
  let ok ← checkConstraints o cur m.expr.nodes
  if !ok then some h
  else if m.complexity = 0 then some h
  else match h[m.complexity]? with
    | none => some h
    | some slot => some (if Hall.better m slot then h.set m.complexity (some m) else h)

/-- `HallOfFame::update_from_members`, hall_of_fame.rs:44-53. -/
def Hall.update [LinearOrder K] (o : CxOptions) (cur : Nat) : Hall K → List (Member K) → Option (Hall K)
  | h, [] => some h
  | h, m :: ms => do
    let h' ← h.consider o cur m
    Hall.update o cur h' ms

/-- `HallOfFame::members`, hall_of_fame.rs:55-57. -/
def Hall.members (h : Hall K) : List (Member K) := h.filterMap id

/-- Loop of `pareto_front`, hall_of_fame.rs:62-67. -/
def paretoLoop [LinearOrder K] : List (Member K) → Fl K → List (Member K)
  | [], _ => []
  | m :: ms, best => if m.loss.lt best then m :: paretoLoop ms m.loss else paretoLoop ms best

/-- `HallOfFame::pareto_front`, hall_of_fame.rs:59-69. -/
def Hall.paretoFront [LinearOrder K] (h : Hall K) : List (Member K) := paretoLoop h.members .pinf

/-- `Population`, population.rs:5-7. -/
abbrev Population (K : Type) := List (Member K)

/-- Loop of `min_by_key` in `oldest_index`, population.rs:23-28: the first least element wins. -/
def oldestLoop : List (Member K) → Nat → Nat × Nat → Nat × Nat
  | [], _, best => best
  | m :: ms, i, best => oldestLoop ms (i + 1) (if m.birth < best.2 then (i, m.birth) else best)

/-- `oldest_index`, population.rs:22-30 (`none`: panic on an empty population). -/
def oldestIndex : Population K → Option Nat
  | [] => none
  | m :: ms => some (oldestLoop ms 1 (0, m.birth)).1

/-- One step of the loop of `two_oldest_indices`, population.rs:36-54. -/
def twoOldestStep (i b : Nat) : Option (Nat × Nat) × Option (Nat × Nat) →
    Option (Nat × Nat) × Option (Nat × Nat)
  | (none, second) => (some (i, b), second)
  | (some (ifst, bf), second) =>
    if b < bf then (some (i, b), some (ifst, bf))
    else match second with
      | none => (some (ifst, bf), if ifst ≠ i then some (i, b) else none)
      | some (is, bs) =>
        (some (ifst, bf), if b < bs ∧ ifst ≠ i then some (i, b) else some (is, bs))

/-- Loop of `two_oldest_indices`, population.rs:35-55. -/
def twoOldestLoop : List (Member K) → Nat → Option (Nat × Nat) × Option (Nat × Nat) →
    Option (Nat × Nat) × Option (Nat × Nat)
  | [], _, st => st
  | m :: ms, i, st => twoOldestLoop ms (i + 1) (twoOldestStep i m.birth st)

/-- `two_oldest_indices`, population.rs:32-59. -/
def twoOldestIndices (p : Population K) : Option (Nat × Nat) :=
  match twoOldestLoop p 0 (none, none) with
  | (some a, some b) => some (a.1, b.1)
  | _ => none

/-- `replace_oldest`, population.rs:61-64. -/
def replaceOldest (p : Population K) (child : Member K) : Option (Population K) := do
  let i ← oldestIndex p
  some (p.set i child)

/-- `replace_two_oldest`, population.rs:66-70. -/
def replaceTwoOldest (p : Population K) (a b : Member K) : Option (Population K) := do
  let (i1, i2) ← twoOldestIndices p
  some ((p.set i1 a).set i2 b)

/-- `slice::sort_by` of the standard library: any implementation of its contract.  The result is always a
rearrangement; for a comparison that is a total preorder on the elements it is the stable sorted order; otherwise
(NaN) the order is unspecified and the call may panic (`none`). -/
structure SortBy where
  run : {α : Type} → (α → α → Ordering) → List α → Option (List α)
  perm : ∀ {α : Type} (c : α → α → Ordering) (l l' : List α), run c l = some l' → l'.Perm l
  sorted : ∀ {α : Type} (c : α → α → Ordering) (l : List α),
    (∀ a ∈ l, ∀ b ∈ l, c b a = (c a b).swap) →
    (∀ a ∈ l, ∀ b ∈ l, ∀ d ∈ l, c a b ≠ .gt → c b d ≠ .gt → c a d ≠ .gt) →
    run c l = some (l.mergeSort fun a b => c a b != .gt)

/-- The contract can be met. -/
def SortBy.merge : SortBy where
  run c l := some (l.mergeSort fun a b => c a b != .gt)
  perm c l l' h := by simp at h; subst h; exact List.mergeSort_perm _ _
  sorted _ _ _ _ := rfl

/-- The cost of a member by index, as compared in `best_sub_pop` (indices are in range). -/
def costAt (p : Population K) (i : Nat) : Fl K := (p[i]?.map (·.cost)).getD .nan

/-- `best_sub_pop`, migration.rs:10-23. -/
def bestSubPop [LinearOrder K] (S : SortBy) (p : Population K) (topn : Nat) : Option (List (Member K)) := do
  let idxs ← S.run (fun i j => (costAt p i).cmpG (costAt p j)) (List.range p.length)
  some ((idxs.take topn).filterMap (p[·]?))

/-- The id and birth counters threaded through the search (`next_id`, `next_birth`). -/
structure Counters where
  nextId : Nat
  nextBirth : Nat

/-- The copy of a migrant put into the population, migration.rs:56-61. -/
def migrantCopy (c : Counters) (src : Member K) : Member K :=
  { src with parent := some src.id, id := c.nextId, birth := c.nextBirth }

/-- Loop of `migrate_into`, migration.rs:53-63. -/
def migrateLoop {F : Type} (migrants : List (Member K)) : Nat → Population K → Counters →
    Rand F (Population K × Counters)
  | 0, dst, c => pure (dst, c)
  | n + 1, dst, c => do
    let loc ← Rand.below dst.length
    let src ← choose migrants
    match src with
    | none => Rand.fail
    | some src => migrateLoop migrants n (dst.set loc (migrantCopy c src)) ⟨c.nextId + 1, c.nextBirth + 1⟩

/-- `migrate_into`, migration.rs:25-64.  `poisson` is `poisson_sample`. -/
def migrateInto [Field K] [LinearOrder K] (R : Rounding K) (poisson : Fl K → Rand (Fl K) Nat)
    (dst : Population K) (migrants : List (Member K)) (frac : Fl K) (c : Counters) :
    Rand (Fl K) (Population K × Counters) :=
  if migrants.isEmpty then pure (dst, c)
  else if frac.le (.fin 0) then pure (dst, c)
  else if dst.isEmpty then pure (dst, c)
  else
    let mean := R.mul (R.ofNat dst.length) frac
    if !mean.isFinite then pure (dst, c)
    else do
      let n ← poisson mean
      migrateLoop migrants (min (min n dst.length) migrants.length) dst c

section Stats
variable [Field K] [LinearOrder K] (R : Rounding K)

/-- `RunningSearchStatistics`, adaptive_parsimony.rs:5-10. -/
structure Stats (K : Type) where
  windowSize : Fl K
  frequencies : List (Fl K)
  normalized : List (Fl K)

/-- `RunningSearchStatistics::new`, adaptive_parsimony.rs:13-21. -/
def Stats.new (maxsize windowSize : Nat) : Stats K :=
  let init := List.replicate maxsize (.fin 1)
  ⟨R.ofNat windowSize, init, init.map fun v => R.div v (R.sum init)⟩

/-- `update_frequencies`, adaptive_parsimony.rs:23-27. -/
def Stats.updateFrequencies (s : Stats K) (size : Nat) : Stats K :=
  if 0 < size ∧ size ≤ s.frequencies.length then
    { s with frequencies := s.frequencies.modify (size - 1) fun v => R.add v (.fin 1) }
  else s

/-- `update_from_population`, adaptive_parsimony.rs:29-33. -/
def Stats.updateFromPopulation (s : Stats K) (sizes : List Nat) : Stats K :=
  sizes.foldl (fun s n => s.updateFrequencies R n) s

/-- The entries above the smallest allowed value 1, adaptive_parsimony.rs:47-52. -/
def above (freqs : List (Fl K)) : List (Fl K) := freqs.filter fun v => Fl.lt (.fin 1) v

/-- The amount subtracted from each of them, adaptive_parsimony.rs:56-61. -/
def windowAmount (freqs : List (Fl K)) (remaining : Fl K) : Fl K :=
  (R.div remaining (R.ofNat (above freqs).length)).min
    (R.sub ((above freqs).foldl Fl.min .pinf) (.fin 1))

/-- Subtract from the entries above 1, adaptive_parsimony.rs:65-67. -/
def subAbove (amount : Fl K) (freqs : List (Fl K)) : List (Fl K) :=
  freqs.map fun v => if Fl.lt (.fin 1) v then R.sub v amount else v

/-- Loop of `move_window`, adaptive_parsimony.rs:46-74; the argument counts down from `max_loops + 1` (the
loop breaks after iteration `max_loops + 1`, line 71). -/
def windowLoop : Nat → List (Fl K) → Fl K → List (Fl K)
  | 0, freqs, _ => freqs
  | fuel + 1, freqs, remaining =>
    if Fl.lt (.fin 0) remaining then
      if (above freqs).isEmpty then freqs
      else
        let amount := windowAmount R freqs remaining
        if Fl.lt (.fin 0) amount then
          let total := R.mul amount (R.ofNat (above freqs).length)
          if total.lt (R.rnd (1 / 1000000)) then subAbove R amount freqs
          else windowLoop fuel (subAbove R amount freqs) (R.sub remaining total)
        else freqs
    else freqs

/-- `move_window`, adaptive_parsimony.rs:35-75. -/
def Stats.moveWindow (s : Stats K) : Stats K :=
  if (R.sum s.frequencies).le s.windowSize then s
  else { s with
    frequencies := windowLoop R 1001 s.frequencies (R.sub (R.sum s.frequencies) s.windowSize) }

/-- `normalize`, adaptive_parsimony.rs:77-89 (after `resize` the two vectors have the same length). -/
def Stats.normalize (s : Stats K) : Stats K :=
  if (R.sum s.frequencies).feq (.fin 0) then { s with normalized := s.normalized.map fun _ => .fin 0 }
  else { s with normalized := s.frequencies.map fun v => R.div v (R.sum s.frequencies) }

/-- `freq`, adaptive_parsimony.rs:91-97. -/
def Stats.freq (s : Stats K) (size : Nat) : Fl K :=
  if size = 0 then R.rnd (1 / 1000000)
  else match s.normalized[size - 1]? with
    | none => R.rnd (1 / 1000000)
    | some v => v.max (R.rnd (1 / 1000000))

/-- The options used by tournament selection, options.rs. -/
structure TourOptions (K : Type) where
  n : Nat
  p : Fl K
  useFrequency : Bool
  scaling : Fl K
  maxsize : Nat

/-- The truncated geometric weights, selection.rs:25-30. -/
def geomWeights (q : Fl K) : Nat → Fl K → List (Fl K)
  | 0, _ => []
  | n + 1, cur => cur :: geomWeights q n (R.mul cur q)

/-- `sample_tournament_place`, selection.rs:11-32. -/
def sampleTournamentPlace (n : Nat) (p : Fl K) : Rand (Fl K) Nat :=
  if n ≤ 1 ∨ Fl.le (.fin 1) p then pure 1
  else if p.le (.fin 0) then Rand.fail
  else
    let q := R.sub (.fin 1) p
    if q.le (.fin 0) then pure 1
    else do
      let i ← weightedIndex R (geomWeights R q n p)
      pure (i + 1)

/-- The adjusted cost of a member, selection.rs:45-55 (`none`: index out of range). -/
def adjustedCost (lib : Libm K) (o : TourOptions K) (s : Stats K) (m : Member K) : Option (Fl K) :=
  if o.useFrequency then
    if 0 < m.complexity ∧ m.complexity ≤ o.maxsize then
      match s.normalized[m.complexity - 1]? with
      | none => none
      | some f => some (R.mul m.cost (lib.exp (R.mul o.scaling f)))
    else some (R.mul m.cost (lib.exp (R.mul o.scaling (.fin 0))))
  else some m.cost

/-- One scored entry, selection.rs:44-57. -/
def scoreIdx (lib : Libm K) (o : TourOptions K) (s : Stats K) (p : Population K) (idx : Nat) :
    Option (Fl K × Nat) := do
  let m ← p[idx]?
  let a ← adjustedCost R lib o s m
  some (a, idx)

/-- `best_of_sample`, selection.rs:34-64. -/
def bestOfSample (S : SortBy) (lib : Libm K) (fuel : Nat) (o : TourOptions K) (s : Stats K)
    (p : Population K) : Rand (Fl K) (Member K) := do
  let indices ← sampleIndices fuel p.length (min o.n p.length)
  let scored ← Rand.lift (indices.mapM (scoreIdx R lib o s p))
  let place ← sampleTournamentPlace R scored.length o.p
  if scored.length = 0 then Rand.fail
  else
    let sorted ← Rand.lift (S.run (fun a b => a.1.cmpG b.1) scored)
    let chosen ← Rand.lift sorted[min (place - 1) (scored.length - 1)]?
    Rand.lift p[chosen.2]?

end Stats
end SR
