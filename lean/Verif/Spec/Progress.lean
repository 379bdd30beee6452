import Verif.Model.Search
/-
Vocabulary for the progress of a search (C46).
-/
namespace SR
variable {K : Type}

/-- From `h` to `h'` no slot of the hall of fame is lost and no cost goes up: a filled slot stays filled, with the same
member or one of strictly smaller cost. -/
structure Hall.Improves [LinearOrder K] (h h' : Hall K) : Prop where
  length : h'.length = h.length
  entry : ∀ (c : Nat) (m : Member K), h[c]? = some (some m) →
    ∃ m', h'[c]? = some (some m') ∧ (m' = m ∨ m'.cost.lt m.cost = true)

/-- From `s` to `s'` the search has only made progress: the hall of fame improves, the best member is the same or has
strictly smaller loss, and the counters of evaluations and of started and completed cycles do not go down. -/
structure Shared.Progress [LinearOrder K] (s s' : Shared K) : Prop where
  hall : Hall.Improves s.hall s'.hall
  best : s'.best = s.best ∨ s'.best.loss.lt s.best.loss = true
  evals : s.totalEvals ≤ s'.totalEvals
  evalsLt : s'.totalEvals < 2 ^ 64
  started : s.counters.started ≤ s'.counters.started
  completed : s.counters.completed ≤ s'.counters.completed
  total : s'.counters.total = s.counters.total

end SR
