import Verif.Model.Options
import Verif.Spec.NoPanic
import Verif.Props.Warmup
import Verif.Proofs.Poisson
/-
Vocabulary for C75: the environment of a Rust program on IEEE floats, and options under which every search returns.
-/
namespace SR

/-- What is assumed of the program's environment: `f64` (and `f32` in the warm-up) are the IEEE formats, the data type `T`
is one of them, `as usize` saturates, square roots are numbers of `T`, the stable sort sorts up to 20 elements by
insertion, and `exp` is accurate to a third on `[-30, 0]` (`exp (-30) > 1.6 * 2 ^ -44`).  `fuel` bounds the number of
iterations the model allows a loop that rejects draws: any bound that is large enough will do. -/
structure RustEnv (E : Env ℚ) : Prop where
  f64 : E.R = binary64
  f32 : E.R32 = binary32
  data : E.RT = binary64 ∨ E.RT = binary32
  floor : ∀ x : ℚ, 0 ≤ x → E.floorUsize (.fin x) = min ⌊x⌋.toNat usizeMax
  sqrt : ∀ v, (E.lossLib.sqrt v).Rep E.RT
  sort : SmallSorts E.sort
  exp : ∀ x : ℚ, -30 ≤ x → x ≤ 0 → ∃ y : ℚ, E.libm.exp (.fin x) = .fin y ∧ pow2 (-44) ≤ y
  fuel : 2 ^ 150 ≤ E.fuel

/-- A number of type `f64` in `[lo, hi]`. -/
def InF64 (lo hi : ℚ) (v : Fl ℚ) : Prop := ∃ x : ℚ, v = .fin x ∧ binary64.rnd x = .fin x ∧ lo ≤ x ∧ x ≤ hi

/-- Options within reasonable ranges: every node counts at least one; sizes, counts and weights are not astronomical; every
tournament has between one and 20 entrants, at least the square root of the population (or it is the whole population);
the selection probability is in `(0, 1]`; one of the kinds of mutation that are always possible has a positive weight; no
mini-batches; and, with the constants of the code for the line search. -/
structure Sensible [E : Env ℚ] (o : SOptions ℚ) : Prop where
  dim : o.cx.D = E.D
  cx : o.cx.WF
  nodes : ∀ x : PNode, 1 ≤ o.cx.weights.node x
  maxsize : 1 ≤ o.maxsize
  maxsize' : 2 * o.maxsize ≤ 65535
  room : o.maxsize + E.D ≤ 65535
  warmup : Fl.lt (.fin 0) o.warmupMaxsizeBy = true → 3 ≤ o.maxsize
  parsimony : ∃ x : ℚ, o.parsimony = .fin x ∧ |x| ≤ 2 ^ 60
  populations : 1 ≤ o.populations
  populationSize : 2 ≤ o.populationSize
  counts : o.niterations * o.populations * o.populationSize < 2 ^ 53
  entrants : 1 ≤ o.tour.n
  entrants' : min o.tour.n o.populationSize ≤ 20
  draw : o.populationSize < o.tour.n * o.tour.n ∨ o.populationSize ≤ o.tour.n
  place : InF64 0 1 o.tour.p
  place' : Fl.lt (.fin 0) o.tour.p = true
  tourMaxsize : o.tour.maxsize = o.maxsize
  weights : ∀ k, InF64 0 (2 ^ 40) (o.weights.of k)
  always : Fl.lt (.fin 0) o.weights.rotateTree = true ∨ Fl.lt (.fin 0) o.weights.randomize = true ∨
    Fl.lt (.fin 0) o.weights.doNothing = true
  batching : o.batching = false
  lineSearch : ∃ sqrt finiteMax, o.lineSearch = BackTracking.default sqrt finiteMax

/-- The two migrations replace fewer than 30 members on average (the sampler then counts how often it can multiply). -/
def FewMigrants (o : SOptions ℚ) : Prop :=
  (binary64.mul (binary64.ofNat o.populationSize) o.fractionReplaced).lt (.fin 30) = true ∧
  (binary64.mul (binary64.ofNat o.populationSize) o.fractionReplacedHof).lt (.fin 30) = true

/-- Streams of draws as the generator makes them: floats are `f64` numbers in `[0, 1)`. -/
def UnitStream (g : Rng (Fl ℚ)) : Prop := ∀ k, UnitDraw (g.floats k)

end SR
