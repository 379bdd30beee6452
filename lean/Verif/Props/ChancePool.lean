import Verif.Props.ChanceIsolated
import Verif.Props.ChanceTimed
import Verif.Props.Options
/-
C90 on a thread pool: the driver takes one thread, the tasks wait in the queue of the pool, are executed by the other threads, and send
their results through a channel.
-/
namespace SR
open MeasureTheory Chance Rand
open scoped ENNReal

/-- The event that a search on a thread pool with these draws can miss the target: for some number of threads, two or more, started from
inside or outside the pool, it does not start, or some run that can not be continued does not leave the search returned, with an entry
of complexity `c` in the hall of fame that costs at most `v`. -/
def MissedOnSomePool [E : Env ℚ] (o : SOptions ℚ) (d : Dataset ℚ) (orderRng : Rng (Fl ℚ)) (c : ℕ) (v : Fl ℚ) : Set Draws :=
  {ω | ∃ threads inPool, 2 ≤ threads ∧ (Pool.new o d ω.rng orderRng threads inPool = none ∨
    ∃ nw p tr q, Pool.new o d ω.rng orderRng threads inPool = some (nw, p) ∧ PoolRun o d threads nw p tr q ∧
      q.Stuck o d threads nw ∧ ¬ (q.Final o ∧ q.shared.hall.AtMost c v))}

section
variable [E : Env ℚ]
variable {o : SOptions ℚ} {d : Dataset ℚ} {ops : List OpId} {cur : Nat} {t : Tree} {cs : List (Fl ℚ)} {l : Fl ℚ} {c : Nat}
  {ν : Bool → Measure ℕ}

/-- When the driver has returned it does nothing any more. -/
theorem final_stuck {nw : Nat} {q : Par ℚ} (h : q.Final o) (e : ParEvent) (r : Par ℚ) : ¬ ParStep o d nw q e r := by
  intro hs
  obtain ⟨h1, h2⟩ := h
  cases hs with
  | start _ k => exact absurd k (by omega)
  | enter k => rw [h1] at k; cases k
  | leave k => rw [h1] at k; cases k
  | dispatch k => rw [h1] at k; cases k
  | skip k => rw [h1] at k; cases k
  | receive k => rw [h1] at k; cases k

/-- On no pool does the search miss more than under some schedule. -/
theorem missedOnSomePool_sub (P : SensibleSearch o d ops) (orderRng : Rng (Fl ℚ)) (c : ℕ) (v : Fl ℚ) :
    MissedOnSomePool o d orderRng c v ⊆ MissedUnderSome o d orderRng c v := by
  rintro ω ⟨threads, inPool, ht, h⟩
  obtain ⟨nw, p, hnew, hrun⟩ := C75_pool P (fun i => draws_unit ω i) orderRng ht inPool
  rcases h with h | ⟨nw', p', tr, q, g1, g2, g3, g4⟩
  · rw [hnew] at h; cases h
  rw [hnew, Option.some.injEq, Prod.mk.injEq] at g1
  obtain ⟨rfl, rfl⟩ := g1
  have hfin := (hrun tr q g2).2.2 g3
  obtain ⟨nw1, p1, k1, hf, hw, -⟩ := (C63_start P.setting.search ω.rng orderRng threads inPool (by omega)).2 (fun _ => ht)
  rw [hnew, Option.some.injEq, Prod.mk.injEq] at k1
  obtain ⟨rfl, rfl⟩ := k1
  obtain ⟨pending, dead, sent, k2, -⟩ := C63_refines hf g2
  have hpar : Par.new o d ω.rng orderRng = some (p.toPar []) := by
    unfold Pool.new at hnew
    simp only [Option.bind_eq_bind, Option.bind_eq_some_iff, Option.some.injEq, Prod.mk.injEq] at hnew
    obtain ⟨s, e1, nw', -, -, rfl⟩ := hnew
    rw [Par.new, e1]; rfl
  have hfin' : (q.toPar pending).Final o := hfin
  exact .inr ⟨p.toPar [], nw, driverEvents tr, q.toPar pending, hpar, hw, k2, final_stuck hfin', fun h => g4 ⟨hfin, h.2⟩⟩

/-- C90: on thread pools, if the populations do not exchange anything: the probability that there are a number of threads and an
execution on them with which the search does not return, or returns without the target, has the same bound. -/
theorem C90_any_pool (hν : ∀ b, FullLaw (ν b)) (P : SensibleSearch o d ops) (D : DrawsOk GridDraw o) (I : Isolated o)
    (T : Target GridDraw o d ops cur t cs l c) :
    ∃ ε : ℝ≥0∞, ε ≠ 0 ∧ ∀ niterations, niterations * o.populations * o.populationSize < 2 ^ 53 → ∀ a,
      (∀ k limit, a ≤ k → k < niterations * o.populations →
        getCurMaxsize o (niterations * o.populations) (niterations * o.populations - k) = some limit → cur ≤ limit) →
      ∀ orderRng : Rng (Fl ℚ),
        Draws.law ν (MissedOnSomePool { o with niterations := niterations } d orderRng c
          (lossToCost E.RT l c o.parsimony o.useBaseline d.baseline)) ≤ (1 - ε) ^ (niterations * o.populations - a) := by
  obtain ⟨ε, h0, h⟩ := C90_any_schedule hν P D I T
  exact ⟨ε, h0, fun k hk a ha orderRng => (measure_mono (missedOnSomePool_sub (P.niterations hk) orderRng c _)).trans (h k hk a ha orderRng)⟩

end
end SR

namespace SR.Demo
open MeasureTheory Rand
open scoped ENNReal
local instance chancePoolEnv : Env ℚ := rustEnv

/-- C90 (the hypotheses are met): a search with the default options and no exchange, for `x0 + x0`, on any thread pool. -/
example (orderRng : Rng (Fl ℚ)) : ∃ ε : ℝ≥0∞, ε ≠ 0 ∧ ∀ niterations, niterations * 31 * 27 < 2 ^ 53 →
    Draws.law (fun _ => uniformBelow (2 ^ 64))
      (MissedOnSomePool { defaultOpts.isolated with niterations := niterations } data orderRng 3 (.fin 0)) ≤ (1 - ε) ^ (niterations * 31) := by
  obtain ⟨h1, h2⟩ := C75_default (E := rustEnv) (by decide) id 52 (Operators.of rustEnv.D opIds)
  have P : SensibleSearch defaultOpts data opIds := ⟨rustEnv_ok, h1, h2, rfl, by decide, data_wf, by decide, by decide, by decide⟩
  obtain ⟨ε, h0, h⟩ := C90_default_any_schedule (E := rustEnv) (fun _ => uniformBelow_full le_rfl) rustEnv_ok (fun _ => rfl) (by decide) id 52
    (ops := opIds) (by decide) data_wf (by decide) (by decide) (by decide) (o := defaultOpts) rfl defaultTarget
  refine ⟨ε, h0, fun k hk => ?_⟩
  have hv : (lossToCost rustEnv.RT (.fin 0 : Fl ℚ) 3 defaultOpts.parsimony defaultOpts.useBaseline data.baseline) = .fin 0 := by
    decide +kernel
  have := h k hk orderRng
  rw [hv] at this
  exact (measure_mono (missedOnSomePool_sub (P.isolated.niterations hk) orderRng 3 _)).trans this

end SR.Demo
