import Verif.Spec.Evolve
/-
Vocabulary for the acceptance rule (C72): simulated annealing and the frequency correction.
-/
namespace SR
variable {K : Type} [Field K] [LinearOrder K] [E : Env K]

/-- The library's `exp` is `e` on numbers, with the IEEE values at the infinities, where `e` is positive, increasing and
`e 0 = 1` (the real exponential, for example). -/
structure ExpLike (l : Libm K) (e : K → K) : Prop where
  fin : ∀ x, l.exp (.fin x) = .fin (e x)
  pinf : l.exp .pinf = .pinf
  ninf : l.exp .ninf = .fin 0
  nan : l.exp .nan = .nan
  pos : ∀ x, 0 < e x
  zero : e 0 = 1
  mono : StrictMono e

/-- The weight of a complexity: its share among the members seen, but at least one millionth; one millionth outside
`1..maxsize`. -/
def sizeWeight (share : List K) (maxsize size : Nat) : K :=
  if 1 ≤ size ∧ size ≤ maxsize then max (share.getD (size - 1) 0) (1 / 1000000) else 1 / 1000000

/-- The textbook acceptance probability of a candidate whose cost exceeds that of its parent by `delta`:
`exp(-delta / (T * alpha))` when annealing, times the ratio of the weights of the two complexities when frequencies are
used. -/
def metropolis (e : K → K) (annealing useFrequency : Bool) (T alpha delta wParent wChild : K) : K :=
  (if annealing then e (-delta / (T * alpha)) else 1) * (if useFrequency then wParent / wChild else 1)

/-- `n` unsuccessful tries of mutation `k`, starting with evaluator `ev` and random stream `g`: each either did not
change the expression, or the result violates the constraints; together they made `evals` loss evaluations. -/
inductive FailedTries (o : SOptions K) (d : Dataset K) (cur : Nat) (T : Fl K) (m : Member K) (k : Mutation) :
    Nat → Evaluator K → Rng (Fl K) → Nat → Evaluator K → Rng (Fl K) → Prop
  | nil (ev : Evaluator K) (g : Rng (Fl K)) : FailedTries o d cur T m k 0 ev g 0 ev g
  | cons {n evals : Nat} {ev ev2 : Evaluator K} {g g1 g2 : Rng (Fl K)} (r : MutOutcome K) :
      k.apply o d cur T m ev g = some (r, g1) →
      (r.mutated = false ∨ ∃ tree ch, compressConstants r.expr = some (tree, ch) ∧ ¬ FeasibleExpr o.cx cur tree) →
      FailedTries o d cur T m k n r.ev g1 evals ev2 g2 →
      FailedTries o d cur T m k (n + 1) ev g (r.evals + evals) ev2 g2

/-- Fewer than ten unsuccessful tries of mutation `k` followed by a successful one, which gave the feasible expression
`tree`, after `evals` loss evaluations in all. -/
def Found (o : SOptions K) (d : Dataset K) (cur : Nat) (T : Fl K) (m : Member K) (k : Mutation) (ev : Evaluator K)
    (g : Rng (Fl K)) (tree : PostfixExpr (Fl K)) (evals : Nat) (g2 : Rng (Fl K)) : Prop :=
  ∃ n ev1 g1 evals1 r ch, n < 10 ∧ FailedTries o d cur T m k n ev g evals1 ev1 g1 ∧
    k.apply o d cur T m ev1 g1 = some (r, g2) ∧ r.mutated = true ∧ compressConstants r.expr = some (tree, ch) ∧
    FeasibleExpr o.cx cur tree ∧ evals = evals1 + r.evals

/-- A new member for the expression `tree`, child of `m`, well formed, with its own scores. -/
structure Candidate (o : SOptions K) (d : Dataset K) (ops : List OpId) (N : Nat) (c : Counters) (m : Member K)
    (tree : PostfixExpr (Fl K)) (b : Member K) : Prop where
  expr : b.expr = tree
  born : b.id = c.nextId ∧ b.parent = some m.id ∧ b.birth = c.nextBirth
  good : b.Good d ops N
  scored : b.Scored o d

/-- The child is a copy of the parent. -/
def CopyOf (m b : Member K) : Prop :=
  b.expr = m.expr ∧ b.complexity = m.complexity ∧ b.loss = m.loss ∧ b.cost = m.cost

/-- How a generation ends that drew mutation `k` and then used the stream from `g` to `g'`, where `accept b u` says that
candidate `b` is accepted when the uniform number drawn is `u`. -/
inductive Verdict (o : SOptions K) (d : Dataset K) (cur : Nat) (ops : List OpId) (N : Nat) (T : Fl K) (ev : Evaluator K)
    (c : Counters) (m : Member K) (accept : Member K → Fl K → Prop) (k : Mutation) (g : Rng (Fl K)) (r : GenOut K) :
    Rng (Fl K) → Prop
  /-- ten unsuccessful tries: the parent stays, no evaluation is counted -/
  | exhausted (ev1 : Evaluator K) (evals : Nat) (g1 : Rng (Fl K)) : FailedTries o d cur T m k 10 ev g evals ev1 g1 →
      r.accepted = false → CopyOf m r.baby → r.evals = 0 → Verdict o d cur ops N T ev c m accept k g r g1
  /-- a simplification is accepted without a test -/
  | simplified (tree : PostfixExpr (Fl K)) (evals : Nat) (g1 : Rng (Fl K)) : k = .simplify →
      Found o d cur T m k ev g tree evals g1 → r.accepted = true → r.baby.expr = tree → r.evals = 0 →
      Verdict o d cur ops N T ev c m accept k g r g1
  /-- a candidate without finite loss and cost is dropped, and its evaluations are not counted -/
  | unscorable (tree : PostfixExpr (Fl K)) (evals : Nat) (b : Member K) (g1 : Rng (Fl K)) : k ≠ .simplify →
      Found o d cur T m k ev g tree evals g1 → Candidate o d ops N c m tree b →
      ¬ (b.loss.isFinite = true ∧ b.cost.isFinite = true) →
      r.accepted = false → CopyOf m r.baby → r.evals = 0 → Verdict o d cur ops N T ev c m accept k g r g1
  /-- the candidate passes the test with the next uniform number -/
  | accepted (tree : PostfixExpr (Fl K)) (evals : Nat) (b : Member K) (g1 : Rng (Fl K)) : k ≠ .simplify →
      Found o d cur T m k ev g tree evals g1 → Candidate o d ops N c m tree b →
      b.loss.isFinite = true → b.cost.isFinite = true → accept b (g1.floats 0) →
      r.accepted = true → r.baby = b → r.evals = evals + 1 → Verdict o d cur ops N T ev c m accept k g r g1.nextFloat
  /-- the candidate fails the test with the next uniform number -/
  | rejected (tree : PostfixExpr (Fl K)) (evals : Nat) (b : Member K) (g1 : Rng (Fl K)) : k ≠ .simplify →
      Found o d cur T m k ev g tree evals g1 → Candidate o d ops N c m tree b →
      b.loss.isFinite = true → b.cost.isFinite = true → ¬ accept b (g1.floats 0) →
      r.accepted = false → CopyOf m r.baby → r.evals = evals + 1 →
      Verdict o d cur ops N T ev c m accept k g r g1.nextFloat

/-- The state of the evolution and the hall of fame after each of the cycles `i, i+1, …` of an iteration, where cycle
`i` runs at temperature `T i`. -/
inductive Cycles (o : SOptions K) (d : Dataset K) (cur : Nat) (s : Stats K) (T : Nat → Fl K) :
    Nat → Nat → EvolState K × Hall K → Rng (Fl K) → EvolState K × Hall K → Rng (Fl K) → Prop
  | nil (i : Nat) (x : EvolState K × Hall K) (g : Rng (Fl K)) : Cycles o d cur s T i 0 x g x g
  | cons {i n : Nat} {st st1 : EvolState K} {h h1 : Hall K} {y : EvolState K × Hall K} {g g1 g2 : Rng (Fl K)} :
      regEvolCycle o d cur (T i) s st g = some (st1, g1) → h.update o.cx cur st1.pop = some h1 →
      Cycles o d cur s T (i + 1) n (st1, h1) g1 y g2 → Cycles o d cur s T i (n + 1) (st, h) g y g2

end SR
