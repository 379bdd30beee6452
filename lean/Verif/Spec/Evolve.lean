import Verif.Model.Evolve
import Verif.Props.Mutation
import Verif.Spec.Member
import Verif.Spec.Search
/-
Vocabulary for the evolution theorems.
-/
namespace SR
variable {K : Type} [Field K] [LinearOrder K] [E : Env K]

/-- The configuration of a search on a data set: the options use the operators `ops` (arity between 1 and `D`, known
to the operator set), the data set is well formed and not empty, and the size limit `cur` keeps expressions to at most
`N` nodes, with `2N` and `N + D` within the 65535 constants an expression can hold. -/
structure EvolSetting (o : SOptions K) (d : Dataset K) (cur : Nat) (ops : List OpId) (N : Nat) : Prop where
  operators : o.operators = Operators.of E.D ops
  ops_ok : ∀ op ∈ ops, 1 ≤ op.arity ∧ op.arity ≤ E.D ∧ E.ops.known op.arity op.id = true
  cxD : o.cx.D = E.D
  cx : o.cx.WF
  data : d.WF
  rows : 0 < d.x.cols
  nf_pos : 1 ≤ d.x.rows
  nf_le : d.x.rows ≤ 65535
  cur_lt : cur < usizeMax
  maxsize_le : o.maxsize ≤ 65535
  size : ∀ t : Tree, t.Proper → (o.cx.limits cur).Allows t → t.size ≤ N
  room : N + E.D ≤ 65535
  two : 2 * N ≤ 65535

/-- The expression is a tree over the configured operators and the features, with at most `N` nodes and at most `N`
constants. -/
def GoodExpr (ops : List OpId) (nf N : Nat) (e : PostfixExpr (Fl K)) : Prop :=
  ∃ t : Tree, e.nodes = t.toPostfix ∧ t.Uses ops nf e.consts.length ∧ t.size ≤ N ∧ e.consts.length ≤ N

/-- The expression satisfies the constraints with size limit `cur`. -/
def FeasibleExpr (o : CxOptions) (cur : Nat) (e : PostfixExpr (Fl K)) : Prop :=
  ∃ t : Tree, e.nodes = t.toPostfix ∧ (o.limits cur).Allows t

/-- A member with a good expression whose cached plan is the plan of its expression. -/
structure Member.Good (d : Dataset K) (ops : List OpId) (N : Nat) (m : Member K) : Prop where
  expr : GoodExpr ops d.x.rows N m.expr
  plan : PlanOf d m.expr m.plan

/-- A weight vector from which `weighted_index` can draw: finite, non-negative, with a finite positive (rounded) sum. -/
def Samplable (R : Rounding K) (ws : List (Fl K)) : Prop :=
  ∃ total, weightedTotal R ws (.fin 0) = some total ∧ total.isFinite = true ∧ total.le (.fin 0) = false

/-- The member's loss is the loss of its expression on the data set (infinite if it has none), its complexity that of
its nodes, its cost the cost of both. -/
def Member.Scored (o : SOptions K) (d : Dataset K) (m : Member K) : Prop :=
  ∃ t : Tree, m.expr.nodes = t.toPostfix ∧
    computeComplexity o.cx m.expr.nodes = some m.complexity ∧
    m.loss = (exprLoss o d t m.expr.consts).getD .pinf ∧
    m.cost = if (exprLoss o d t m.expr.consts).isSome
      then lossToCost E.RT m.loss m.complexity o.parsimony o.useBaseline d.baseline else .pinf

/-- The weight of a kind of mutation. -/
def MutWeights.of (w : MutWeights K) : Mutation → Fl K
  | .mutateConstant => w.mutateConstant
  | .mutateOperator => w.mutateOperator
  | .mutateFeature => w.mutateFeature
  | .swapOperands => w.swapOperands
  | .rotateTree => w.rotateTree
  | .addNode => w.addNode
  | .insertNode => w.insertNode
  | .deleteNode => w.deleteNode
  | .simplify => w.simplify
  | .randomize => w.randomize
  | .doNothing => w.doNothing
  | .optimize => w.optimize

/-- The tree is a single feature or constant. -/
def Tree.IsLeaf (t : Tree) : Prop := t.opNodes = []

/-- For which expressions (tree `t`, `nc` stored constants, recorded complexity `complexity`), size limit and number of
features a kind of mutation is switched off. -/
def SwitchedOff (o : SOptions K) (cur nFeatures : Nat) (t : Tree) (nc complexity : Nat) : Mutation → Prop
  | .mutateOperator | .deleteNode => t.IsLeaf
  | .swapOperands => ∀ p ∈ t.opNodes, p.2 ≠ 2
  | .mutateConstant => t.IsLeaf ∧ nc = 0
  | .mutateFeature => t.IsLeaf ∧ nc ≠ 0 ∨ ¬ t.IsLeaf ∧ nFeatures ≤ 1
  | .addNode | .insertNode => ¬ t.IsLeaf ∧ cur ≤ complexity
  | .simplify => t.IsLeaf ∨ o.shouldSimplify = false
  | .optimize => nc = 0 ∨ ¬ t.IsLeaf ∧ (o.shouldOptimizeConstants = false ∨ o.optimizerProbability = .fin 0)
  | .rotateTree | .randomize | .doNothing => False

/-- What a generation (mutation of `m`, counters `c`) may return. -/
structure GenSpec (o : SOptions K) (d : Dataset K) (cur : Nat) (ops : List OpId) (N : Nat) (c : Counters) (m : Member K)
    (r : GenOut K) : Prop where
  /-- the evaluator stays usable -/
  ev : r.ev.Ready d
  /-- exactly one identifier and one birth number are used -/
  counters : r.counters.nextId = c.nextId + 1 ∧ r.counters.nextBirth = c.nextBirth + 1
  born : r.baby.id = c.nextId ∧ r.baby.parent = some m.id ∧ r.baby.birth = c.nextBirth
  /-- the child is well formed and its plan is its own -/
  good : r.baby.Good d ops N
  /-- on failure or rejection the child is a copy of the parent -/
  rejected : r.accepted = false → r.baby.expr = m.expr ∧ r.baby.complexity = m.complexity ∧ r.baby.loss = m.loss ∧
    r.baby.cost = m.cost
  /-- an accepted child satisfies the constraints at the current size limit and carries its complexity -/
  feasible : r.accepted = true → FeasibleExpr o.cx cur r.baby.expr ∧
    computeComplexity o.cx r.baby.expr.nodes = some r.baby.complexity
  /-- an accepted child carries the finite loss and cost of its expression on the data set, unless it is the
  simplification of the parent's expression, in which case it keeps the parent's loss -/
  scored : r.accepted = true → (r.baby.Scored o d ∧ r.baby.loss.isFinite = true ∧ r.baby.cost.isFinite = true) ∨
    (∃ e0 ch ch', simplifyInPlace E.ops E.cfg E.D strictOpts m.expr = some (e0, ch) ∧
      compressConstants e0 = some (r.baby.expr, ch')) ∧ r.baby.loss = m.loss ∧
      r.baby.cost = lossToCost E.RT m.loss r.baby.complexity o.parsimony o.useBaseline d.baseline

/-- What a crossover of `m1` and `m2` may return. -/
structure CrossSpec (o : SOptions K) (d : Dataset K) (cur : Nat) (ops : List OpId) (N : Nat) (c : Counters)
    (m1 m2 : Member K) (r : CrossOut K) : Prop where
  ev : r.ev.Ready d
  /-- after ten infeasible tries the parents themselves are returned and nothing is counted -/
  rejected : r.accepted = false → r.baby1 = m1 ∧ r.baby2 = m2 ∧ r.counters = c ∧ r.evals = 0
  /-- otherwise both children are new, well formed, satisfy the constraints and carry their own loss -/
  counters : r.accepted = true → r.counters.nextId = c.nextId + 2 ∧ r.counters.nextBirth = c.nextBirth + 2 ∧ r.evals = 2
  born1 : r.accepted = true → r.baby1.id = c.nextId ∧ r.baby1.parent = some m1.id ∧ r.baby1.birth = c.nextBirth
  born2 : r.accepted = true → r.baby2.id = c.nextId + 1 ∧ r.baby2.parent = some m2.id ∧
    r.baby2.birth = c.nextBirth + 1
  children : r.accepted = true → ∀ b, b = r.baby1 ∨ b = r.baby2 →
    b.Good d ops N ∧ FeasibleExpr o.cx cur b.expr ∧ b.Scored o d

/-- One step of regularised evolution: the population is left alone (allowed only after a failure, when failures are
skipped), or its oldest member is replaced by the child of one of its members, or its two oldest by the children of
two of its members. -/
inductive EvolMove (o : SOptions K) (d : Dataset K) (cur : Nat) (ops : List OpId) (N : Nat) :
    EvolState K → EvolState K → Prop
  | mutFail (st : EvolState K) (m : Member K) (r : GenOut K) : m ∈ st.pop → GenSpec o d cur ops N st.counters m r →
      r.accepted = false → o.skipMutationFailures = true →
      EvolMove o d cur ops N st ⟨st.pop, r.ev, r.counters, st.evals + r.evals⟩
  | mutate (st : EvolState K) (m : Member K) (r : GenOut K) (i : Nat) (old : Member K) : m ∈ st.pop →
      GenSpec o d cur ops N st.counters m r → (r.accepted = true ∨ o.skipMutationFailures = false) →
      st.pop[i]? = some old → (∀ x ∈ st.pop, old.birth ≤ x.birth) →
      EvolMove o d cur ops N st ⟨st.pop.set i r.baby, r.ev, r.counters, st.evals + r.evals⟩
  | crossFail (st : EvolState K) (m1 m2 : Member K) (r : CrossOut K) : m1 ∈ st.pop → m2 ∈ st.pop →
      CrossSpec o d cur ops N st.counters m1 m2 r → r.accepted = false → o.skipMutationFailures = true →
      EvolMove o d cur ops N st ⟨st.pop, r.ev, r.counters, st.evals + r.evals⟩
  | cross (st : EvolState K) (m1 m2 : Member K) (r : CrossOut K) (i1 i2 : Nat) (old1 old2 : Member K) : m1 ∈ st.pop →
      m2 ∈ st.pop → CrossSpec o d cur ops N st.counters m1 m2 r →
      (r.accepted = true ∨ o.skipMutationFailures = false) → i1 ≠ i2 → st.pop[i1]? = some old1 →
      st.pop[i2]? = some old2 → old1.birth ≤ old2.birth →
      (∀ (j : Nat) (x : Member K), j ≠ i1 → st.pop[j]? = some x → old2.birth ≤ x.birth) →
      EvolMove o d cur ops N st
        ⟨(st.pop.set i1 r.baby1).set i2 r.baby2, r.ev, r.counters, st.evals + r.evals⟩

/-- `n` moves. -/
inductive EvolMoves (o : SOptions K) (d : Dataset K) (cur : Nat) (ops : List OpId) (N : Nat) :
    Nat → EvolState K → EvolState K → Prop
  | refl (st : EvolState K) : EvolMoves o d cur ops N 0 st st
  | step {n : Nat} {a b c : EvolState K} : EvolMove o d cur ops N a b → EvolMoves o d cur ops N n b c →
      EvolMoves o d cur ops N (n + 1) a c

/-- The state of an evolving population is usable: every member is well formed, the evaluator is sized for the data. -/
structure EvolState.Ok (d : Dataset K) (ops : List OpId) (N : Nat) (st : EvolState K) : Prop where
  pop : ∀ m ∈ st.pop, m.Good d ops N
  ev : st.ev.Ready d

end SR
