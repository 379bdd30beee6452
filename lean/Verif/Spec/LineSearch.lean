import Verif.Model.Optim
/-
What a line search may do: halve the step while the objective has no value, then shrink it, between two factors, while
the decrease is not sufficient.
-/
namespace SR
variable {K : Type} [Field K] [LinearOrder K]

/-- The point `x + a s`, in floating point. -/
def pointAt (R : Rounding K) (x s : List (Fl K)) (a : Fl K) : List (Fl K) :=
  List.zipWith (fun xi si => R.add xi (R.mul a si)) x s

/-- The objective has the finite value `phi` at the step `a`. -/
def HasValue (obj : Objective K) (R : Rounding K) (x s : List (Fl K)) (a phi : Fl K) : Prop :=
  obj.fOnly (pointAt R x s a) = some phi ∧ phi.isFinite = true

/-- `b` is `a` halved, `k` times, each time because the objective had no finite value there. -/
inductive HalvedFrom (obj : Objective K) (R : Rounding K) (x s : List (Fl K)) : Nat → Fl K → Fl K → Prop
  | done {a} : HalvedFrom obj R x s 0 a a
  | half {k a b} : (∀ phi, ¬ HasValue obj R x s a phi) → HalvedFrom obj R x s k (R.mul a (R.rnd (1 / 2))) b →
      HalvedFrom obj R x s (k + 1) a b

/-- `b` comes from `a` by `k` reductions, each to at least `lo` and at most `hi` times the step, and each because the
decrease at the step was not `enough`. -/
inductive ShrunkFrom (R : Rounding K) (lo hi : Fl K) (enough : Fl K → Prop) : Nat → Fl K → Fl K → Prop
  | done {a} : ShrunkFrom R lo hi enough 0 a a
  | shrink {k a b c} : ¬ enough a → (R.mul lo a).le b = true → b.le (R.mul hi a) = true → Fl.lt (.fin 0) b = true →
      ShrunkFrom R lo hi enough k b c → ShrunkFrom R lo hi enough (k + 1) a c

/-- The sufficient decrease condition at step `a`. -/
def EnoughAt (obj : Objective K) (R : Rounding K) (x s : List (Fl K)) (c1 phi0 dphi0 a : Fl K) : Prop :=
  ∃ phi, HasValue obj R x s a phi ∧ phi.le (R.add phi0 (R.mul (R.mul c1 a) dphi0)) = true

/-- The first step tried: the requested one, but no coordinate moves by more than `maxstep`. -/
def firstStep (R : Rounding K) (maxstep alpha0 : Fl K) (s : List (Fl K)) : Fl K :=
  if maxstep.isFinite = true ∧ Fl.lt (.fin 0) (infNorm s) = true then alpha0.min (R.div maxstep (infNorm s)) else alpha0

/-- `t` is the stationary point of the parabola `phi0 + d x + b x^2`, or half of `a` if it has none. -/
def ParabolaStep (d b a t : K) : Prop := (b ≠ 0 ∧ d + 2 * b * t = 0) ∨ (b = 0 ∧ t = a / 2)

/-- The step suggested by interpolation: the parabola with the value and slope at 0 and the value `phi` at `a`; with
`order` 3 and an earlier step, the cubic that also has the earlier value there, of which the local minimum is taken (its
inflection point if there is none, the parabola if the leading coefficient is negligible). -/
def InterpolatedStep (order : Nat) (phi0 d : K) (prev : Option (K × K)) (a phi t : K) : Prop :=
  match prev with
  | some (a', phi') =>
    if order < 3 then ∃ b, phi0 + d * a + b * a ^ 2 = phi ∧ ParabolaStep d b a t
    else ∃ c b, phi0 + d * a + b * a ^ 2 + c * a ^ 3 = phi ∧ phi0 + d * a' + b * a' ^ 2 + c * a' ^ 3 = phi' ∧
      (|c| ≤ 1 / 2 ^ 52 → ParabolaStep d b a t) ∧
      (1 / 2 ^ 52 < |c| → 0 ≤ b ^ 2 - 3 * c * d → d + 2 * b * t + 3 * c * t ^ 2 = 0 ∧ 0 ≤ 2 * b + 6 * c * t) ∧
      (1 / 2 ^ 52 < |c| → b ^ 2 - 3 * c * d < 0 → 2 * b + 6 * c * t = 0)
  | none => ∃ b, phi0 + d * a + b * a ^ 2 = phi ∧ ParabolaStep d b a t

/-- `c` comes from the step `a`, with value `phi` there, by the textbook backtracking in exact arithmetic: until the
decrease is sufficient, the next step is the interpolated one, brought between `lo` and `hi` times the present one. -/
inductive Backtracks (obj : Objective K) (x s : List (Fl K)) (order : Nat) (c1 lo hi phi0 d : K) :
    Option (K × K) → K → K → K → Prop
  | done {prev a phi} : phi ≤ phi0 + c1 * a * d → Backtracks obj x s order c1 lo hi phi0 d prev a phi a
  | step {prev a phi t phib c} : ¬ phi ≤ phi0 + c1 * a * d → InterpolatedStep order phi0 d prev a phi t →
      HasValue obj (Rounding.exact K) x s (.fin (max (lo * a) (min (hi * a) t))) (.fin phib) →
      Backtracks obj x s order c1 lo hi phi0 d (some (a, phi)) (max (lo * a) (min (hi * a) t)) phib c →
      Backtracks obj x s order c1 lo hi phi0 d prev a phi c

end SR
