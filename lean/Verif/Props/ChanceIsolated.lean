import Verif.Props.ChanceDefault
import Verif.Props.Isolated
import Verif.Props.Cases
/-
C90, with the multi-worker driver: when the populations do not exchange anything, a search finds every expression the constraints
allow with a probability that tends to one, whatever the number of workers and whatever the schedule — even if the schedule is
chosen by somebody who knows all the draws.
-/
namespace SR
open MeasureTheory Chance Rand
open scoped ENNReal

/-- The event that a multi-worker search with these draws can miss the target: it does not start, or for some number of workers some
schedule that can not be continued does not leave the driver returned, with an entry of complexity `c` in the hall of fame that
costs at most `v`. -/
def MissedUnderSome [E : Env ℚ] (o : SOptions ℚ) (d : Dataset ℚ) (orderRng : Rng (Fl ℚ)) (c : ℕ) (v : Fl ℚ) : Set Draws :=
  {ω | Par.new o d ω.rng orderRng = none ∨ ∃ p nw tr q, Par.new o d ω.rng orderRng = some p ∧ 1 ≤ nw ∧ ParRun o d nw p tr q ∧
    (∀ e r, ¬ ParStep o d nw q e r) ∧ ¬ (q.Final o ∧ q.shared.hall.AtMost c v)}

section
variable [E : Env ℚ]
variable {o : SOptions ℚ} {d : Dataset ℚ} {ops : List OpId} {cur : Nat} {t : Tree} {cs : List (Fl ℚ)} {l : Fl ℚ} {c : Nat}
  {ν : Bool → Measure ℕ}

omit E in
theorem Hall.AtMost.congr {h h' : Hall ℚ} {c : Nat} {v : Fl ℚ}
    (e : h.map (Option.map Member.cost) = h'.map (Option.map Member.cost)) (a : h.AtMost c v) : h'.AtMost c v := by
  obtain ⟨m, hm, hle⟩ := a
  have h1 : (h.map (Option.map Member.cost))[c]? = some (some m.cost) := by rw [List.getElem?_map, hm]; rfl
  rw [e, List.getElem?_map, Option.map_eq_some_iff] at h1
  obtain ⟨om, h2, h3⟩ := h1
  rw [Option.map_eq_some_iff] at h3
  obtain ⟨m', rfl, h4⟩ := h3
  exact ⟨m', h2, by rw [h4]; exact hle⟩

/-- Under every schedule the search misses what the step-wise search misses, and nothing else. -/
theorem missedUnderSome_sub {N : Nat} (I : Isolated o) (Q : RunSetting o d ops N) (orderRng : Rng (Fl ℚ)) (c : ℕ) (v : Fl ℚ) :
    MissedUnderSome o d orderRng c v ⊆ Missed o d orderRng (o.niterations * o.populations) c v := by
  rintro ω hω ⟨e, k, e', h1, h2, h3⟩
  obtain ⟨s, hs, -, hfr, -⟩ := C59_init Q.search ω.rng
  have hnew : Par.new o d ω.rng orderRng = some ⟨s, orderRng, .idle, 0, [], 0, 0, []⟩ := by rw [Par.new, hs]; rfl
  rcases hω with h | ⟨p, nw, tr, q, g1, g2, g3, g4, g5⟩
  · rw [hnew] at h; cases h
  · obtain ⟨p', a1, -, a3⟩ := C64_completes Q I.migration I.hofMigration ω.rng orderRng g2
    have hp : p' = p := by rw [g1] at a1; exact (Option.some.inj a1).symm
    subst hp
    have hfin := (a3 tr q g3).2.2 g4
    have he : e = ⟨s, orderRng, 0, [], 0, false⟩ := by rw [Engine.new, hs] at h1; exact (Option.some.inj h1).symm
    subst he
    have h0' : Engine.Fresh o o.populations (⟨s, orderRng, 0, [], 0, false⟩ : Engine ℚ) := ⟨hfr, rfl, rfl, rfl⟩
    have hr := (C45_run_to_completion h0' _ le_rfl).1 k e' h2
    have same := C98_stepwise I Q.search g1 h1 g3 hfin hr
    exact g5 ⟨hfin, h3.congr same.hall.symm⟩

/-- C90: with the multi-worker driver, if the populations do not exchange anything: the probability that there are a number of workers
and a schedule with which the search does not end, or ends without the target, falls geometrically with the number of cycles in
which the size limit allows the target. -/
theorem C90_any_schedule (hν : ∀ b, FullLaw (ν b)) (P : SensibleSearch o d ops) (D : DrawsOk GridDraw o) (I : Isolated o)
    (T : Target GridDraw o d ops cur t cs l c) :
    ∃ ε : ℝ≥0∞, ε ≠ 0 ∧ ∀ niterations, niterations * o.populations * o.populationSize < 2 ^ 53 → ∀ a,
      (∀ k limit, a ≤ k → k < niterations * o.populations →
        getCurMaxsize o (niterations * o.populations) (niterations * o.populations - k) = some limit → cur ≤ limit) →
      ∀ orderRng : Rng (Fl ℚ),
        Draws.law ν (MissedUnderSome { o with niterations := niterations } d orderRng c
          (lossToCost E.RT l c o.parsimony o.useBaseline d.baseline)) ≤ (1 - ε) ^ (niterations * o.populations - a) := by
  obtain ⟨ε, h0, h⟩ := C90_search hν P D T
  refine ⟨ε, h0, fun k hk a ha orderRng => ?_⟩
  have I' : Isolated { o with niterations := k } := ⟨I.migration, I.hofMigration, I.tournament, I.acceptance⟩
  exact (measure_mono (missedUnderSome_sub I' (P.niterations hk).setting orderRng c _)).trans (h k hk a ha orderRng _ le_rfl)

/-- The same options with everything the populations exchange switched off. -/
def SOptions.isolated (o : SOptions ℚ) : SOptions ℚ :=
  { o with migration := false, hofMigration := false, useFrequency := false, tour := { o.tour with useFrequency := false } }

omit E in
theorem SOptions.isolated_ok (o : SOptions ℚ) : Isolated o.isolated := ⟨rfl, rfl, rfl, rfl⟩

theorem DrawsOk.isolated {S : Fl ℚ → Prop} (D : DrawsOk S o) : DrawsOk S o.isolated :=
  ⟨D.zero, D.mutate, D.randomize, D.exp, (fun h => nomatch h), (fun h => nomatch h)⟩

theorem Target.isolated {S : Fl ℚ → Prop} (T : Target S o d ops cur t cs l c) : Target S o.isolated d ops cur t cs l c :=
  ⟨T.few, T.uses, T.consts, T.size, T.allowed, T.loss, T.complexity, T.counted, T.cost⟩

theorem SensibleSearch.isolated (P : SensibleSearch o d ops) : SensibleSearch o.isolated d ops := by
  obtain ⟨p1, p2, p3, p4, p5, p6, p7, p8, p9⟩ := P
  exact ⟨p1, { p2 with }, p3, p4, p5, p6, p7, p8, p9⟩

/-- C90: so it is with the default options and the exchange switched off, whatever the number of iterations. -/
theorem C90_default_any_schedule (hν : ∀ b, FullLaw (ν b)) (hE : RustEnv E) (hexp : ∀ x : Fl ℚ, (E.libm.exp x).lt (.fin 0) = false)
    (hD : E.D ≤ 65505) (sqrt : Fl ℚ → Fl ℚ) (finiteMax : Nat) {ops : List OpId}
    (hknown : ∀ op ∈ ops, 1 ≤ op.arity ∧ op.arity ≤ E.D ∧ E.ops.known op.arity op.id = true)
    {d : Dataset ℚ} (hd : d.WF) (hrows : 0 < d.x.cols) (hf : 1 ≤ d.x.rows) (hf' : d.x.rows ≤ 65535)
    {o : SOptions ℚ} (ho : o = { SOptions.default E.D sqrt finiteMax with operators := Operators.of E.D ops })
    (T : Target GridDraw o d ops 30 t cs l c) :
    ∃ ε : ℝ≥0∞, ε ≠ 0 ∧ ∀ niterations, niterations * 31 * 27 < 2 ^ 53 → ∀ orderRng : Rng (Fl ℚ),
      Draws.law ν (MissedUnderSome { o.isolated with niterations := niterations } d orderRng c
        (lossToCost E.RT l c o.parsimony o.useBaseline d.baseline)) ≤ (1 - ε) ^ (niterations * 31) := by
  obtain ⟨h1, h2⟩ := C75_default hD sqrt finiteMax (Operators.of E.D ops)
  subst ho
  have P : SensibleSearch _ d ops := ⟨hE, h1, h2, rfl, hknown, hd, hrows, hf, hf'⟩
  obtain ⟨ε, h0, h⟩ := C90_any_schedule hν P.isolated (C82_default_draws hE hexp sqrt finiteMax _).isolated (SOptions.isolated_ok _) T.isolated
  refine ⟨ε, h0, fun k hk orderRng => ?_⟩
  refine (h k hk 0 (fun j limit _ _ hl => ?_) orderRng).trans (by rw [Nat.sub_zero]; rfl)
  unfold getCurMaxsize at hl
  simp only at hl
  rw [if_neg] at hl
  · exact (Option.some.inj hl).le
  · have : Fl.lt (.fin 0) (lit32 0) = false := by decide +kernel
    show ¬ ((Fl.lt (.fin 0) (lit32 0) && _) = true)
    rw [this]; simp

end
end SR

namespace SR.Demo
open MeasureTheory Rand
open scoped ENNReal
local instance chanceIsoEnv : Env ℚ := rustEnv

/-- C90 (the hypotheses are met): a search with the default options and no exchange, for `x0 + x0`, with any number of workers. -/
example (orderRng : Rng (Fl ℚ)) : ∃ ε : ℝ≥0∞, ε ≠ 0 ∧ ∀ niterations, niterations * 31 * 27 < 2 ^ 53 →
    Draws.law (fun _ => uniformBelow (2 ^ 64))
      (MissedUnderSome { defaultOpts.isolated with niterations := niterations } data orderRng 3 (.fin 0)) ≤ (1 - ε) ^ (niterations * 31) := by
  obtain ⟨ε, h0, h⟩ := C90_default_any_schedule (E := rustEnv) (fun _ => uniformBelow_full le_rfl) rustEnv_ok (fun _ => rfl) (by decide) id 52
    (ops := opIds) (by decide) data_wf (by decide) (by decide) (by decide) (o := defaultOpts) rfl defaultTarget
  refine ⟨ε, h0, fun k hk => ?_⟩
  have hv : (lossToCost rustEnv.RT (.fin 0 : Fl ℚ) 3 defaultOpts.parsimony defaultOpts.useBaseline data.baseline) = .fin 0 := by
    decide +kernel
  have := h k hk orderRng
  rwa [hv] at this

end SR.Demo
