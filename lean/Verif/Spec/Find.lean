import Verif.Spec.NoPanic
import Verif.Spec.Reach
/-
Vocabulary for C82: what a search can find.
-/
namespace SR
open Rand
variable {K : Type} [Field K] [LinearOrder K] [E : Env K]

/-- What is asked of the set `S` of possible float draws: zero can be drawn, a draw can call for a mutation rather than a
crossover, for every member a draw can choose the mutation that replaces the whole expression, and the Poisson samplers of
the migrations that are switched on can return.  And of the exponential: it is never negative. -/
structure DrawsOk (S : Fl K → Prop) (o : SOptions K) : Prop where
  zero : S (.fin 0)
  mutate : ∃ u, S u ∧ o.crossoverProbability.lt u = true
  randomize : ∀ (m : Member K) (cur nf : Nat), Reaches S (sampleMutation (conditionWeights o m cur nf o.weights)) .randomize
  exp : ∀ x : Fl K, (E.libm.exp x).lt (.fin 0) = false
  migration : o.migration = true →
    ∃ k, Reaches S (poissonSample E.R E.libm E.ptrs E.fuel (E.R.mul (E.R.ofNat o.populationSize) o.fractionReplaced)) k
  hof : o.hofMigration = true →
    ∃ k, Reaches S (poissonSample E.R E.libm E.ptrs E.fuel (E.R.mul (E.R.ofNat o.populationSize) o.fractionReplacedHof)) k

/-- The tree `t` over the constants `cs` can be looked for under the size limit `cur`: it uses the configured operators (no
more of them than there are 64-bit words) and
the features of the data, its constants can be drawn, it has at most `cur` nodes and the constraints allow it; it has the
loss `l` on the data, the complexity `c` (at least one) and a finite cost. -/
structure Target (S : Fl K → Prop) (o : SOptions K) (d : Dataset K) (ops : List OpId) (cur : Nat) (t : Tree)
    (cs : List (Fl K)) (l : Fl K) (c : Nat) : Prop where
  few : ops.length ≤ 2 ^ 64
  uses : t.Uses ops d.x.rows cs.length
  consts : ∀ i ∈ t.constIdxs, ∃ u1 u2, S u1 ∧ S u2 ∧ cs[i]? = some (normalT u1 u2)
  size : t.size ≤ max cur 1
  allowed : (o.cx.limits cur).Allows t
  loss : exprLoss o d t cs = some l
  complexity : computeComplexity o.cx t.toPostfix = some c
  counted : 1 ≤ c
  cost : (lossToCost E.RT l c o.parsimony o.useBaseline d.baseline).isFinite = true

/-- The hall of fame has an entry of complexity `c` whose cost is at most `v`. -/
def Hall.AtMost (h : Hall K) (c : Nat) (v : Fl K) : Prop := ∃ m, h[c]? = some (some m) ∧ m.cost.le v = true

end SR
