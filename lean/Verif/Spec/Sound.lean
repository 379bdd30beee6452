import Verif.Spec.Evolve
import Verif.Model.Search
import Mathlib.Logic.Relation
/-
Vocabulary for the whole-search theorems: what it means that everything the search holds is sound.
-/
namespace SR
variable {K : Type} [Field K] [LinearOrder K] [E : Env K]

/-- One simplification (constant folding and operator combination, then compression of the constants) turns the first
expression into the second. -/
def SimplifyStep (e e' : PostfixExpr (Fl K)) : Prop :=
  ∃ e0 ch ch', simplifyInPlace E.ops E.cfg E.D strictOpts e = some (e0, ch) ∧ compressConstants e0 = some (e', ch')

/-- A member the search may hold: a well-formed expression over the configured operators and features with its own
plan, carrying the complexity of its expression, a loss that is the loss on the data set of its expression or of one it
was obtained from by simplification, and the cost of that loss and complexity (infinite if there is no loss). -/
structure Member.Sound (o : SOptions K) (d : Dataset K) (ops : List OpId) (N : Nat) (m : Member K) : Prop where
  good : m.Good d ops N
  complexity : computeComplexity o.cx m.expr.nodes = some m.complexity
  loss : ∃ (e0 : PostfixExpr (Fl K)) (t0 : Tree), e0.nodes = t0.toPostfix ∧
    Relation.ReflTransGen SimplifyStep e0 m.expr ∧ m.loss = (exprLoss o d t0 e0.consts).getD .pinf
  cost : m.cost = lossToCost E.RT m.loss m.complexity o.parsimony o.useBaseline d.baseline ∨
    m.loss = .pinf ∧ m.cost = .pinf

/-- A sound hall of fame: one slot for every complexity up to `maxsize`; the entry in slot `c` is a sound member of
complexity `c` (at least 1) that satisfies the constraints. -/
structure Hall.Sound (o : SOptions K) (d : Dataset K) (ops : List OpId) (N : Nat) (h : Hall K) : Prop where
  length : h.length = o.maxsize + 1
  entry : ∀ (c : Nat) (m : Member K), h[c]? = some (some m) →
    m.Sound o d ops N ∧ m.complexity = c ∧ 1 ≤ c ∧ FeasibleExpr o.cx o.maxsize m.expr

/-- A sound population state: the configured number of sound members, and an evaluator of the right size. -/
structure PopState.Sound (o : SOptions K) (d : Dataset K) (ops : List OpId) (N : Nat) (ps : PopState K) : Prop where
  size : ps.pop.length = o.populationSize
  pop : ∀ m ∈ ps.pop, m.Sound o d ops N
  ev : ps.ev.Ready d

/-- A sound search state. -/
structure Shared.Sound (o : SOptions K) (d : Dataset K) (ops : List OpId) (N : Nat) (s : Shared K) : Prop where
  hall : s.hall.Sound o d ops N
  pops : ∀ ps, some ps ∈ s.pops → ps.Sound o d ops N
  bestSub : ∀ l ∈ s.bestSub, ∀ m ∈ l, m.Sound o d ops N
  best : s.best.Sound o d ops N
  bestScored : s.best.Scored o d
  total : s.counters.total = o.niterations * o.populations

/-- A sound task: it works on a sound population under a size limit not above `maxsize`. -/
structure Task.Sound (o : SOptions K) (d : Dataset K) (ops : List OpId) (N : Nat) (t : Task K) : Prop where
  ps : t.ps.Sound o d ops N
  cur : t.cur ≤ o.maxsize

/-- The cost arithmetic is sensible: `0.01` is a positive number, and the parsimony penalty of every complexity is
finite. -/
structure CostsOk (o : SOptions K) : Prop where
  lawful : E.RT.Lawful
  floor : ∃ f, E.RT.rnd (1 / 100) = .fin f ∧ 0 < f
  penalty : ∀ c, c ≤ usizeMax → (E.RT.mul o.parsimony (E.RT.ofNat c)).isFinite = true

/-- The configuration of a whole search: that of evolution at the largest size limit (`EvolSetting`), no mini-batches,
lawful number formats and line search, at least one population with at least one member, and a warm-up schedule that
never exceeds `maxsize`. -/
structure SearchSetting (o : SOptions K) (d : Dataset K) (ops : List OpId) (N : Nat) : Prop where
  evol : EvolSetting o d o.maxsize ops N
  formats : Env.Formats K
  ls : LsOk o
  costs : CostsOk o
  batching : o.batching = false
  populations : 1 ≤ o.populations
  populationSize : 1 ≤ o.populationSize
  init : max o.maxsize 1 ≤ N
  warmup : ∀ remaining c, getCurMaxsize o (o.niterations * o.populations) remaining = some c → c ≤ o.maxsize

end SR
