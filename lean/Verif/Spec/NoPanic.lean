import Verif.Spec.Sound
import Verif.Spec.Schedule
import Verif.Proofs.Stats
/-
Vocabulary for C64: under which configuration a search cannot panic.
-/
namespace SR
variable {K : Type} [Field K] [LinearOrder K] [E : Env K]

/-- The sort returns on slices of at most 20 elements whatever the comparison is: the stable sort of the standard library
sorts them by insertion, and only looks for violations of the order laws on longer ones (`slice::sort::stable::sort` of
the toolchain pinned in rust-toolchain.toml). -/
def SmallSorts (S : SortBy) : Prop :=
  ∀ {α : Type} (c : α → α → Ordering) (l : List α), l.length ≤ 20 → ∃ l', S.run c l = some l'

/-- Tournament selection cannot get into trouble: at least one entrant; the entrants are drawn without rejection; the
selection probability is positive, and if it is below one the geometric weights can be drawn from; and, when costs are
scaled by the frequency of the complexity, either the scale factor of every frequency is a positive finite number, or
(when it overflows, and the adjusted cost of a perfect member is not a number) there are at most 20 entrants to sort. -/
structure TourOk (o : SOptions K) : Prop where
  entrants : 1 ≤ o.tour.n
  draw : o.populationSize < min o.tour.n o.populationSize * min o.tour.n o.populationSize ∨ o.populationSize ≤ o.tour.n
  place : min o.tour.n o.populationSize ≤ 1 ∨ Fl.le (.fin 1) o.tour.p = true ∨
    (o.tour.p.le (.fin 0) = false ∧
      ((E.R.sub (.fin 1) o.tour.p).le (.fin 0) = true ∨
        Samplable E.R (geomWeights E.R (E.R.sub (.fin 1) o.tour.p) (min o.tour.n o.populationSize) o.tour.p)))
  maxsize : o.tour.maxsize ≤ o.maxsize
  scale : o.tour.useFrequency = true →
    (∀ f : Fl K, Fl.le (.fin 0) f = true → f.le (.fin 1) = true →
      ∃ x : K, E.libm.exp (E.R.mul o.tour.scaling f) = .fin x ∧ 0 < x) ∨
    (SmallSorts E.sort ∧ min o.tour.n o.populationSize ≤ 20)

/-- Mutation weights that can be drawn from whatever is switched off: numbers of the format, non-negative, with a finite
sum, and one of the kinds of mutation that are never switched off (rotation, a random new tree, nothing) has a positive
weight; and the format has the number eight. -/
structure DrawableWeights (o : SOptions K) : Prop where
  numbers : ∀ w ∈ o.weights.choices.map Prod.snd, ∃ x : K, w = .fin x ∧ E.R.rnd x = .fin x
  drawable : Samplable E.R (o.weights.choices.map Prod.snd)
  always : Fl.lt (.fin 0) o.weights.rotateTree = true ∨ Fl.lt (.fin 0) o.weights.randomize = true ∨
    Fl.lt (.fin 0) o.weights.doNothing = true
  eight : E.R.rnd 8 = .fin 8

/-- A configuration under which a search cannot panic: that of `SearchSetting`; at least two members per population
(crossover replaces two); sensible tournaments; mutation weights that can always be drawn from; a warm-up
schedule that can be computed; and counting the members of all results stays exact.  (Collisions of the hash under which
gradient plans are remembered are allowed.) -/
structure RunSetting (o : SOptions K) (d : Dataset K) (ops : List OpId) (N : Nat) : Prop where
  search : SearchSetting o d ops N
  two : 2 ≤ o.populationSize
  tour : TourOk o
  weights : DrawableWeights o
  warmup : Fl.lt (.fin 0) o.warmupMaxsizeBy = true → 3 ≤ o.maxsize
  counts : E.R.CountsTo (1 + o.niterations * o.populations * o.populationSize)

/-- The Poisson sampler of a migration with replacement fraction `frac` does not return on the stream `g`: it keeps
rejecting. -/
def SamplerStuck (o : SOptions K) (frac : Fl K) (g : Rng (Fl K)) : Prop :=
  poissonSample E.R E.libm E.ptrs E.fuel (E.R.mul (E.R.ofNat o.populationSize) frac) g = none

/-- Applying the result `r` does not return because the sampler of one of its migrations keeps rejecting: that of the
migration between populations on the generator of the population, or that of the migration from the hall of fame on the
generator as the first migration leaves it. -/
def ApplyStuck (o : SOptions K) (s : Shared K) (r : TaskResult K) : Prop :=
  o.migration = true ∧ SamplerStuck o o.fractionReplaced r.ps.rng ∨
  o.hofMigration = true ∧ ∃ (p : Population K × Counters) (g : Rng (Fl K)),
    (if o.migration then
      migrate r.ps.pop (migrationCandidates (s.bestSub.set r.popIdx r.bestSub) r.popIdx) o.fractionReplaced r.ps.counters
    else pure (r.ps.pop, r.ps.counters) : Rand (Fl K) (Population K × Counters)) r.ps.rng = some (p, g) ∧
    SamplerStuck o o.fractionReplacedHof g

end SR
