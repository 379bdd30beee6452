import Verif.Props.Isolated
import Verif.Props.Migration
import Verif.Props.Pool
/-
C98: the same on a thread pool; concrete cases; and the exception.
-/
namespace SR
section
variable {K : Type} [Field K] [LinearOrder K] [E : Env K]
variable {o : SOptions K} {d : Dataset K} {ops : List OpId} {N np : Nat}

/-- C98: for the populations and the number of evaluations nothing has to be assumed but that the populations exchange nothing
(mini-batches, any arithmetic, any data): two runs to the end from the same state have the same. -/
theorem C98_populations (I : Isolated o) {nw nw' : Nat} {p q q' : Par K} {tr tr' : List ParEvent} (h0 : p.Fresh o np)
    (h : ParRun o d nw p tr q) (hf : q.Final o) (h' : ParRun o d nw' p tr' q') (hf' : q'.Final o) :
    q.shared.pops = q'.shared.pops ∧ q.shared.totalEvals = q'.shared.totalEvals := by
  obtain ⟨l, rs, hh, hr⟩ := C98_lives I h0 h hf
  obtain ⟨l', rs', hh', hr'⟩ := C98_lives I h0 h' hf'
  refine ⟨pops_ext ((h0.inv nw).run h).pops ((h0.inv nw').run h').pops fun i hlt => ?_, ?_⟩
  · obtain ⟨ps0, ps, e0, e1, e2⟩ := l i hlt
    obtain ⟨ps0', ps', e0', e1', e2'⟩ := l' i hlt
    rw [e0] at e0'
    cases e0'
    rw [e2] at e2'
    cases e2'
    rw [e1, e1']
  · rw [hh.evals, hh'.evals, evals_perm (results_perm hr hr')]

/-- C98: the same on thread pools: on any two pools, whatever tasks the threads pick and in whatever order they finish, two
searches that return end with the same outcome. -/
theorem C98_pool [IsStrictOrderedRing K] (I : Isolated o) (Q : SearchSetting o d ops N) {seeds : Nat → Rng (Fl K)} {orderRng : Rng (Fl K)}
    {threads threads' nw nw' : Nat} {inPool inPool' : Bool} {p p' q q' : Pool K} {tr tr' : List PoolEvent}
    (hnew : Pool.new o d seeds orderRng threads inPool = some (nw, p)) (hnew' : Pool.new o d seeds orderRng threads' inPool' = some (nw', p'))
    (h : PoolRun o d threads nw p tr q) (hf : q.Final o) (h' : PoolRun o d threads' nw' p' tr' q') (hf' : q'.Final o) :
    q.shared.SameOutcome q'.shared := by
  obtain ⟨s, hi, -, hfr, -⟩ := C59_init Q seeds
  have hp : p = ⟨s, orderRng, .idle, 0, [], 0, 0, [], [], []⟩ := by
    rw [Pool.new, hi] at hnew
    simp only [Option.bind_eq_bind, Option.bind_some, Option.bind_eq_some_iff, Option.some.injEq, Prod.mk.injEq] at hnew
    obtain ⟨_, -, -, rfl⟩ := hnew
    rfl
  have hp' : p' = ⟨s, orderRng, .idle, 0, [], 0, 0, [], [], []⟩ := by
    rw [Pool.new, hi] at hnew'
    simp only [Option.bind_eq_bind, Option.bind_some, Option.bind_eq_some_iff, Option.some.injEq, Prod.mk.injEq] at hnew'
    obtain ⟨_, -, -, rfl⟩ := hnew'
    rfl
  subst hp hp'
  have h0 : Pool.Fresh o o.populations (⟨s, orderRng, .idle, 0, [], 0, 0, [], [], []⟩ : Pool K) := ⟨⟨hfr, rfl, rfl, rfl, rfl⟩, rfl, rfl, rfl⟩
  obtain ⟨pd, -, -, r, -⟩ := C63_refines h0 h
  obtain ⟨pd', -, -, r', -⟩ := C63_refines h0 h'
  exact C98_schedule I Q (seeds := seeds) (orderRng := orderRng) (by rw [Par.new, hi]; rfl) r hf r' hf'

/-- Two tasks run by two workers, received in the order of their dispatch. -/
theorem two_in_order {p : Par K} {s1 s2 s3 s4 : Shared K} {g : Rng (Fl K)} {t0 t1 : Task K} {r0 r1 : TaskResult K} (hn : o.niterations = 1)
    (hp : p.pc = .idle) (hi : p.iter = 0) (he : p.pending = []) (hs : shuffle (List.range p.shared.pops.length) p.orderRng = some ([0, 1], g))
    (d0 : p.shared.dispatch o 0 = some (some t0, s1)) (d1 : s1.dispatch o 1 = some (some t1, s2)) (e0 : t0.run o d = some r0)
    (e1 : t1.run o d = some r1) (a0 : s2.apply o r0 = some s3) (a1 : s3.apply o r1 = some s4) :
    ∃ tr q, ParRun o d 2 p tr q ∧ q.Final o ∧ q.shared = s4 := by
  obtain ⟨s, og, pc, it, ord, nt, fl, pend⟩ := p
  simp only at hp hi he hs d0
  subst hp hi he
  have h1 := ParStep.start (full := d) (nw := 2) (p := ⟨s, og, .idle, 0, ord, nt, fl, []⟩) rfl (by rw [hn]; exact Nat.zero_lt_one) hs
  have h2 := ParStep.enter (o := o) (full := d) (nw := 2) (p := ⟨s, g, .outer, 1, [0, 1], 0, 0, []⟩) rfl (.inl (by simp))
  have h3 := ParStep.dispatch (full := d) (nw := 2) (p := ⟨s, g, .inner, 1, [0, 1], 0, 0, []⟩) rfl (by simp) rfl d0
  have h4 := ParStep.dispatch (full := d) (nw := 2) (p := ⟨s1, g, .inner, 1, [0, 1], 1, 1, [t0]⟩) rfl (by simp) rfl d1
  have h5 := ParStep.receive (nw := 2) (p := ⟨s2, g, .inner, 1, [0, 1], 2, 2, [t0, t1]⟩) (l := []) (r := [t1]) rfl (by simp) rfl e0 a0
  have h6 := ParStep.enter (o := o) (full := d) (nw := 2) (p := ⟨s3, g, .outer, 1, [0, 1], 2, 1, [t1]⟩) rfl (.inr (by simp))
  have h7 := ParStep.receive (nw := 2) (p := ⟨s3, g, .inner, 1, [0, 1], 2, 1, [t1]⟩) (l := []) (r := []) rfl (by simp) rfl e1 a1
  have h8 := ParStep.leave (o := o) (full := d) (nw := 2) (p := ⟨s4, g, .outer, 1, [0, 1], 2, 0, []⟩) rfl (by simp)
  exact ⟨_, _, ((((((((ParRun.refl _).snoc h1).snoc h2).snoc h3).snoc h4).snoc h5).snoc h6).snoc h7).snoc h8, ⟨rfl, hn.le⟩, rfl⟩

/-- Two tasks run by two workers, received in the other order. -/
theorem two_reversed {p : Par K} {s1 s2 s3 s4 : Shared K} {g : Rng (Fl K)} {t0 t1 : Task K} {r0 r1 : TaskResult K} (hn : o.niterations = 1)
    (hp : p.pc = .idle) (hi : p.iter = 0) (he : p.pending = []) (hs : shuffle (List.range p.shared.pops.length) p.orderRng = some ([0, 1], g))
    (d0 : p.shared.dispatch o 0 = some (some t0, s1)) (d1 : s1.dispatch o 1 = some (some t1, s2)) (e0 : t0.run o d = some r0)
    (e1 : t1.run o d = some r1) (a1 : s2.apply o r1 = some s3) (a0 : s3.apply o r0 = some s4) :
    ∃ tr q, ParRun o d 2 p tr q ∧ q.Final o ∧ q.shared = s4 := by
  obtain ⟨s, og, pc, it, ord, nt, fl, pend⟩ := p
  simp only at hp hi he hs d0
  subst hp hi he
  have h1 := ParStep.start (full := d) (nw := 2) (p := ⟨s, og, .idle, 0, ord, nt, fl, []⟩) rfl (by rw [hn]; exact Nat.zero_lt_one) hs
  have h2 := ParStep.enter (o := o) (full := d) (nw := 2) (p := ⟨s, g, .outer, 1, [0, 1], 0, 0, []⟩) rfl (.inl (by simp))
  have h3 := ParStep.dispatch (full := d) (nw := 2) (p := ⟨s, g, .inner, 1, [0, 1], 0, 0, []⟩) rfl (by simp) rfl d0
  have h4 := ParStep.dispatch (full := d) (nw := 2) (p := ⟨s1, g, .inner, 1, [0, 1], 1, 1, [t0]⟩) rfl (by simp) rfl d1
  have h5 := ParStep.receive (nw := 2) (p := ⟨s2, g, .inner, 1, [0, 1], 2, 2, [t0, t1]⟩) (l := [t0]) (r := []) rfl (by simp) rfl e1 a1
  have h6 := ParStep.enter (o := o) (full := d) (nw := 2) (p := ⟨s3, g, .outer, 1, [0, 1], 2, 1, [t0]⟩) rfl (.inr (by simp))
  have h7 := ParStep.receive (nw := 2) (p := ⟨s3, g, .inner, 1, [0, 1], 2, 1, [t0]⟩) (l := []) (r := []) rfl (by simp) rfl e0 a0
  have h8 := ParStep.leave (o := o) (full := d) (nw := 2) (p := ⟨s4, g, .outer, 1, [0, 1], 2, 0, []⟩) rfl (by simp)
  exact ⟨_, _, ((((((((ParRun.refl _).snoc h1).snoc h2).snoc h3).snoc h4).snoc h5).snoc h6).snoc h7).snoc h8, ⟨rfl, hn.le⟩, rfl⟩

end

open Demo

section
local instance instIsoEnv : Env ℚ := env

/-- Two populations, two iterations, constant optimisation, no exchange. -/
def isoOpts : SOptions ℚ :=
  { runOpts false with tour := ⟨2, .fin (9 / 10), false, .fin 20, 3⟩ }

theorem isoSetting : RunSetting isoOpts data opIds 3 where
  search :=
    { evol := { smallEvol 1 (by decide) (by decide) with }
      formats := formats
      ls := ⟨rfl, by have := lsOk.c1; exact this⟩
      costs := costsOk rfl
      batching := rfl
      populations := by decide
      populationSize := by decide
      init := by decide
      warmup := fun _ _ => noWarmup rfl _ _ _ }
  two := by decide
  tour :=
    { entrants := by decide
      draw := by decide
      place := .inr (.inr ⟨by decide +kernel, .inr ⟨.fin (99 / 100), by decide +kernel, rfl, by decide +kernel⟩⟩)
      maxsize := by decide
      scale := fun h => by cases h }
  weights :=
    { numbers := by
        intro w hw
        refine ⟨1, ?_, rfl⟩
        simpa [isoOpts, runOpts, smallOpts, opts, MutWeights.choices] using hw
      drawable := ⟨.fin 12, by decide +kernel, rfl, by decide +kernel⟩
      always := .inl (by decide +kernel)
      eight := rfl }
  warmup := fun h => by
    have : Fl.lt (.fin 0) (isoOpts.warmupMaxsizeBy) = false := by decide
    rw [this] at h; cases h
  counts := ⟨fun _ _ => rfl, fun _ _ _ _ => rfl⟩

/-- C98: for all random numbers, one worker and three workers reach the end, and always with the same outcome. -/
example (seeds : Nat → Rng (Fl ℚ)) (orderRng : Rng (Fl ℚ)) :
    Isolated isoOpts ∧ ∃ p, Par.new isoOpts data seeds orderRng = some p ∧
      (∃ tr q, ParRun isoOpts data 1 p tr q ∧ q.Final isoOpts) ∧ (∃ tr q, ParRun isoOpts data 3 p tr q ∧ q.Final isoOpts) ∧
      ∀ tr q tr' q', ParRun isoOpts data 1 p tr q → q.Final isoOpts → ParRun isoOpts data 3 p tr' q' → q'.Final isoOpts →
        q.shared.SameOutcome q'.shared := by
  have I : Isolated isoOpts := ⟨rfl, rfl, rfl, rfl⟩
  obtain ⟨p, h1, h2, h3⟩ := C64_completes isoSetting rfl rfl seeds orderRng (nw := 1) (by decide)
  obtain ⟨p', h1', h2', h3'⟩ := C64_completes isoSetting rfl rfl seeds orderRng (nw := 3) (by decide)
  rw [h1, Option.some.injEq] at h1'
  subst h1'
  exact ⟨I, p, h1, (h3 [] p (.refl p)).2.1, (h3' [] p (.refl p)).2.1, fun tr q tr' q' a b a' b' => C98_schedule I isoSetting.search h1 a b a' b'⟩

end

section
local instance instIsoMig : Env ℚ := migrationEnv

/-- Two populations with migration between them, and no other influence. -/
def exchangeOpts : SOptions ℚ := { migrationOpts with niterations := 1, tour := ⟨1, .fin 1, false, .fin 0, 7⟩ }

/-- The sizes of the expressions in the populations. -/
def sizesOf (s : Shared ℚ) : List (List Nat) :=
  s.pops.map fun p => (p.map fun ps => ps.pop.map fun (m : Member ℚ) => m.expr.nodes.length).getD []

/-- C98, the exception: with migration the result depends on which worker is faster.  Two populations, one iteration, two workers,
the same seeds: if population 0 is finished first, the second member of population 0 ends as an expression of three nodes, and
otherwise as one of one node. -/
theorem C98_migration_depends_on_schedule :
    ∃ p : Par ℚ, Par.new exchangeOpts data (fun i => gen (5 + i)) (gen 77) = some p ∧
      ∃ tr q tr' q', ParRun exchangeOpts data 2 p tr q ∧ q.Final exchangeOpts ∧ ParRun exchangeOpts data 2 p tr' q' ∧ q'.Final exchangeOpts ∧
        sizesOf q.shared = [[1, 3], [1, 1]] ∧ sizesOf q'.shared = [[1, 1], [1, 1]] := by
  have h : ((Shared.init exchangeOpts data (fun i => gen (5 + i))).bind fun s =>
      (s.dispatch exchangeOpts 0).bind fun x0 => x0.1.bind fun t0 => (x0.2.dispatch exchangeOpts 1).bind fun x1 => x1.1.bind fun t1 =>
      (t0.run exchangeOpts data).bind fun r0 => (t1.run exchangeOpts data).bind fun r1 =>
      (x1.2.apply exchangeOpts r0).bind fun s3 => (s3.apply exchangeOpts r1).bind fun s4 =>
      (x1.2.apply exchangeOpts r1).bind fun s3' => (s3'.apply exchangeOpts r0).map fun s4' => (s.pops.length, sizesOf s4, sizesOf s4')) =
      some (2, [[1, 3], [1, 1]], [[1, 1], [1, 1]]) := by decide +kernel
  simp only [Option.bind_eq_some_iff, Option.map_eq_some_iff, Prod.mk.injEq] at h
  obtain ⟨s, hi, ⟨x0, s1⟩, d0, t0, hx0, ⟨x1, s2⟩, d1, t1, hx1, r0, e0, r1, e1, s3, a0, s4, a1, s3', b1, s4', b0, hl, v, v'⟩ := h
  simp only at hx0 hx1 d1 a0 b1
  subst hx0 hx1
  have hsh : ∃ g, shuffle (List.range 2) (gen 77 : Rng (Fl ℚ)) = some ([0, 1], g) := by
    have : ((shuffle (List.range 2) (gen 77 : Rng (Fl ℚ))).map Prod.fst) = some [0, 1] := by decide +kernel
    obtain ⟨⟨l, g⟩, e, h⟩ := Option.map_eq_some_iff.mp this
    simp only at h
    exact ⟨g, by rw [e, h]⟩
  obtain ⟨g, hsh⟩ := hsh
  refine ⟨⟨s, gen 77, .idle, 0, [], 0, 0, []⟩, by rw [Par.new, hi]; rfl, ?_⟩
  obtain ⟨tr, q, q1, q2, q3⟩ := two_in_order (o := exchangeOpts) (d := data) (p := ⟨s, gen 77, .idle, 0, [], 0, 0, []⟩) rfl rfl rfl rfl
    (by rw [hl]; exact hsh) d0 d1 e0 e1 a0 a1
  obtain ⟨tr', q', q1', q2', q3'⟩ := two_reversed (o := exchangeOpts) (d := data) (p := ⟨s, gen 77, .idle, 0, [], 0, 0, []⟩) rfl rfl rfl rfl
    (by rw [hl]; exact hsh) d0 d1 e0 e1 b1 b0
  exact ⟨tr, q, tr', q', q1, q2, q1', q2', by rw [q3]; exact v, by rw [q3']; exact v'⟩

end
end SR
