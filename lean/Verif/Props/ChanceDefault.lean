import Verif.Props.ChanceSearch
import Mathlib.Analysis.SpecificLimits.Basic
/-
C90: a search finds every expression the constraints allow with a probability that tends to one.
-/
namespace SR
open MeasureTheory Chance Rand
open scoped ENNReal
section
variable [E : Env ℚ]
variable {o : SOptions ℚ} {d : Dataset ℚ} {ops : List OpId} {cur : Nat} {t : Tree} {cs : List (Fl ℚ)} {l : Fl ℚ} {c : Nat}
  {ν : Bool → Measure ℕ}

/-- C90: every cycle has a chance: there is a positive number such that, whatever the population, its members, its statistics and
whatever else happened before, a task finds the target with at least that probability. -/
theorem C90_task (hν : ∀ b, FullLaw (ν b)) (P : SensibleSearch o d ops) (D : DrawsOk GridDraw o)
    (T : Target GridDraw o d ops cur t cs l c) :
    ∃ ε : ℝ≥0∞, ε ≠ 0 ∧ ∀ tk : Task ℚ, tk.Steady o d ops o.maxsize → cur ≤ tk.cur → ∀ i,
      ε ≤ Draws.law ν {ω | ∃ r, (tk.on (Draws.rng ω i)).run o d = some r ∧
        r.bestSeen.AtMost c (lossToCost E.RT l c o.parsimony o.useBaseline d.baseline)} := by
  obtain ⟨p, h0, -, L⟩ := luck_exists hν P.setting (fun _ h => h) D T
  refine ⟨p, h0, fun tk ht hcur i => (taskBody_chance hν P.setting D ht (T.mono hcur) (L _ hcur ht.sound.cur) i).trans (measure_mono ?_)⟩
  rintro ω ⟨r, g, hr, hat⟩
  refine ⟨⟨tk.popIdx, tk.cur, r.1.evals, r.2.2.2.1, r.2.2.2.2, ⟨r.1.pop, r.1.ev, r.2.1, g, r.2.2.1, r.1.counters⟩⟩, ?_, hat⟩
  unfold Task.run
  rw [show taskBody o d (tk.on (Draws.rng ω i)) (tk.on (Draws.rng ω i)).ps.rng = some (r, g) from hr]
  rfl

theorem DrawsOk.niterations {S : Fl ℚ → Prop} (D : DrawsOk S o) (k : Nat) : DrawsOk S { o with niterations := k } :=
  ⟨D.zero, D.mutate, D.randomize, D.exp, D.migration, D.hof⟩

theorem Target.niterations {S : Fl ℚ → Prop} (T : Target S o d ops cur t cs l c) (k : Nat) :
    Target S { o with niterations := k } d ops cur t cs l c :=
  ⟨T.few, T.uses, T.consts, T.size, T.allowed, T.loss, T.complexity, T.counted, T.cost⟩

theorem Luck.niterations {p : ℝ≥0∞} (L : Luck ν o d cur t cs p) (k : Nat) : Luck ν { o with niterations := k } d cur t cs p := ⟨L.parts⟩

theorem SensibleSearch.niterations (P : SensibleSearch o d ops) {k : Nat} (h : k * o.populations * o.populationSize < 2 ^ 53) :
    SensibleSearch { o with niterations := k } d ops := by
  obtain ⟨p1, p2, p3, p4, p5, p6, p7, p8, p9⟩ := P
  exact ⟨p1, { p2 with counts := h }, p3, p4, p5, p6, p7, p8, p9⟩

/-- C90: the probability that a search misses the target falls geometrically with the number of cycles in which the size limit
allows the target (from cycle `a` on), at a rate that does not depend on the number of iterations of the search. -/
theorem C90_search (hν : ∀ b, FullLaw (ν b)) (P : SensibleSearch o d ops) (D : DrawsOk GridDraw o)
    (T : Target GridDraw o d ops cur t cs l c) :
    ∃ ε : ℝ≥0∞, ε ≠ 0 ∧ ∀ niterations, niterations * o.populations * o.populationSize < 2 ^ 53 → ∀ a,
      (∀ k limit, a ≤ k → k < niterations * o.populations →
        getCurMaxsize o (niterations * o.populations) (niterations * o.populations - k) = some limit → cur ≤ limit) →
      ∀ (orderRng : Rng (Fl ℚ)) (n : Nat), n ≤ niterations * o.populations →
        Draws.law ν (Missed { o with niterations := niterations } d orderRng n c
          (lossToCost E.RT l c o.parsimony o.useBaseline d.baseline)) ≤ (1 - ε) ^ (n - a) := by
  obtain ⟨p, h0, -, L⟩ := luck_exists hν P.setting (fun _ h => h) D T
  refine ⟨p, h0, fun k hk a ha orderRng n hn => ?_⟩
  exact missed_chance hν (P.niterations hk) (D.niterations k) (T.niterations k) (fun cur' h1 h2 => (L cur' h1 h2).niterations k) ha
    orderRng hn

/-- C90: with the default options, for any operators of the set and on any data set, whatever the number of iterations. -/
theorem C90_default (hν : ∀ b, FullLaw (ν b)) (hE : RustEnv E) (hexp : ∀ x : Fl ℚ, (E.libm.exp x).lt (.fin 0) = false) (hD : E.D ≤ 65505)
    (sqrt : Fl ℚ → Fl ℚ) (finiteMax : Nat) {ops : List OpId}
    (hknown : ∀ op ∈ ops, 1 ≤ op.arity ∧ op.arity ≤ E.D ∧ E.ops.known op.arity op.id = true)
    {d : Dataset ℚ} (hd : d.WF) (hrows : 0 < d.x.cols) (hf : 1 ≤ d.x.rows) (hf' : d.x.rows ≤ 65535)
    {o : SOptions ℚ} (ho : o = { SOptions.default E.D sqrt finiteMax with operators := Operators.of E.D ops })
    (T : Target GridDraw o d ops 30 t cs l c) :
    ∃ ε : ℝ≥0∞, ε ≠ 0 ∧ ∀ niterations, niterations * 31 * 27 < 2 ^ 53 → ∀ (orderRng : Rng (Fl ℚ)) (n : Nat), n ≤ niterations * 31 →
      Draws.law ν (Missed { o with niterations := niterations } d orderRng n c
        (lossToCost E.RT l c o.parsimony o.useBaseline d.baseline)) ≤ (1 - ε) ^ n := by
  obtain ⟨h1, h2⟩ := C75_default hD sqrt finiteMax (Operators.of E.D ops)
  subst ho
  have P : SensibleSearch _ d ops := ⟨hE, h1, h2, rfl, hknown, hd, hrows, hf, hf'⟩
  obtain ⟨ε, h0, h⟩ := C90_search hν P (C82_default_draws hE hexp sqrt finiteMax _) T
  refine ⟨ε, h0, fun k hk orderRng n hn => ?_⟩
  refine (h k hk 0 (fun j limit _ _ hl => ?_) orderRng n hn).trans (by rw [Nat.sub_zero])
  unfold getCurMaxsize at hl
  simp only at hl
  rw [if_neg] at hl
  · exact (Option.some.inj hl).le
  · have : Fl.lt (.fin 0) (lit32 0) = false := by decide +kernel
    show ¬ ((Fl.lt (.fin 0) (lit32 0) && _) = true)
    rw [this]; simp

end

/-! ## The hypotheses are met -/

/-- The uniform law on the numbers below `n`. -/
noncomputable def uniformBelow (n : ℕ) : Measure ℕ := ∑ r ∈ Finset.range n, (n : ℝ≥0∞)⁻¹ • Measure.dirac r

theorem uniformBelow_single {n r : ℕ} (h : r < n) : uniformBelow n {r} = (n : ℝ≥0∞)⁻¹ := by
  unfold uniformBelow
  rw [Measure.finsetSum_apply]
  simp only [Measure.smul_apply, smul_eq_mul]
  rw [Finset.sum_eq_single r]
  · rw [Measure.dirac_apply_of_mem (Set.mem_singleton r), mul_one]
  · intro k _ hk
    rw [Measure.dirac_apply' _ (measurableSet_singleton r)]
    simp [hk]
  · intro hr; exact absurd (Finset.mem_range.mpr h) hr

/-- A generator whose draws are uniform on the 64-bit words, or on more numbers than those, has such laws.  (If the number is also
a multiple of every range the program draws from, each draw from a range is uniform, as the generator promises.) -/
theorem uniformBelow_full {n : ℕ} (h : 2 ^ 64 ≤ n) : FullLaw (uniformBelow n) where
  total := by
    unfold uniformBelow
    rw [Measure.finsetSum_apply]
    simp only [Measure.smul_apply, measure_univ, smul_eq_mul, mul_one, Finset.sum_const, Finset.card_range, nsmul_eq_mul]
    refine ENNReal.mul_inv_cancel ?_ (ENNReal.natCast_ne_top n)
    have : n ≠ 0 := by rintro rfl; norm_num at h
    exact_mod_cast this
  pos r hr := by
    rw [uniformBelow_single (lt_of_lt_of_le hr h)]
    exact ENNReal.inv_ne_zero.mpr (ENNReal.natCast_ne_top n)

end SR

namespace SR.Demo
open MeasureTheory Rand
open scoped ENNReal
local instance chanceEnv : Env ℚ := rustEnv

/-- C90 (the hypotheses are met): a search with the default options for `x0 + x0`. -/
example (orderRng : Rng (Fl ℚ)) : ∃ ε : ℝ≥0∞, ε ≠ 0 ∧ ∀ niterations, niterations * 31 * 27 < 2 ^ 53 → ∀ n, n ≤ niterations * 31 →
    Draws.law (fun _ => uniformBelow (2 ^ 64)) (Missed { defaultOpts with niterations := niterations } data orderRng n 3 (.fin 0)) ≤ (1 - ε) ^ n := by
  obtain ⟨ε, h0, h⟩ := C90_default (E := rustEnv) (fun _ => uniformBelow_full le_rfl) rustEnv_ok (fun _ => rfl) (by decide) id 52 (ops := opIds) (by decide)
    data_wf (by decide) (by decide) (by decide) (o := defaultOpts) rfl defaultTarget
  refine ⟨ε, h0, fun k hk n hn => ?_⟩
  have hv : (lossToCost rustEnv.RT (.fin 0 : Fl ℚ) 3 defaultOpts.parsimony defaultOpts.useBaseline data.baseline) = .fin 0 := by
    decide +kernel
  have := h k hk orderRng n hn
  rwa [hv] at this

end SR.Demo
