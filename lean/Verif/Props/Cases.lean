import Verif.Props.NoPanic
import Verif.Props.OneWorker
import Verif.Props.Progress
import Verif.Props.Best
import Verif.Props.Batch
import Verif.Props.Iterate
import Verif.Props.Binary
import Verif.Props.Identity
/-
Complete executions of the multi-worker driver (C64), and concrete cases in which the hypotheses of theorems about whole searches are
met: C28 (binary64), C42, C44 to C49, C58.
-/
namespace SR
section
variable {K : Type} [Field K] [LinearOrder K] [IsStrictOrderedRing K] [E : Env K]
variable {o : SOptions K} {d : Dataset K} {ops : List OpId} {N : Nat}

/-- C64: without migration the multi-worker search returns, for every number of workers, whatever has happened so far: every execution
can be continued until the driver has returned, it does so after at most `niterations * (3 * populations + 2)` steps of the
driver, and it can not stop anywhere else. -/
theorem C64_completes (Q : RunSetting o d ops N) (hm : o.migration = false) (hh : o.hofMigration = false)
    (seeds : Nat → Rng (Fl K)) (orderRng : Rng (Fl K)) {nw : Nat} (hw : 1 ≤ nw) :
    ∃ p, Par.new o d seeds orderRng = some p ∧ p.Fresh o o.populations ∧ ∀ tr q, ParRun o d nw p tr q →
      tr.length ≤ o.niterations * (3 * o.populations + 2) ∧ (∃ tr' q', ParRun o d nw q tr' q' ∧ q'.Final o) ∧
      ((∀ e r, ¬ ParStep o d nw q e r) → q.Final o) := by
  obtain ⟨s, e, -, hf, -⟩ := C59_init Q.search seeds
  have hfr : Par.Fresh o o.populations ⟨s, orderRng, .idle, 0, [], 0, 0, []⟩ := ⟨hf, rfl, rfl, rfl, rfl⟩
  have hnew : Par.new o d seeds orderRng = some ⟨s, orderRng, .idle, 0, [], 0, 0, []⟩ := by rw [Par.new, e]; rfl
  have hend : ∀ tr q, ParRun o d nw ⟨s, orderRng, .idle, 0, [], 0, 0, []⟩ tr q → (∀ e r, ¬ ParStep o d nw q e r) → q.Final o := by
    intro tr q hr hs
    obtain ⟨h1, h2, h3⟩ := C64_parallel Q hnew hr
    refine C49_returns hw hfr hr hs (fun t ht hn => by have := h1 t ht; rw [hn] at this; cases this) fun hc => ?_
    obtain ⟨t, -, res, -, h | h⟩ := h3 hc
    · rw [hm] at h; cases h.1
    · rw [hh] at h; cases h.1
  refine ⟨_, hnew, hfr, fun tr q hr => ⟨C44_terminates hfr hr, ?_, hend tr q hr⟩⟩
  have hi := (hfr.inv nw).run hr
  obtain ⟨tr', q', h1, h2⟩ := run_maximal hi (.refl q)
  exact ⟨tr', q', by simpa using h1, hend _ _ (hr.trans (by simpa using h1)) h2⟩

end
end SR

namespace SR
open Demo
local instance instCases : Env ℚ := env

/-- C44, C48, C64: with two populations and two iterations, for all random numbers and any number of workers: there is an execution that
returns; it has sixteen driver steps and four results, and the reported best is what C48 says of the results. -/
example (seeds : Nat → Rng (Fl ℚ)) (orderRng : Rng (Fl ℚ)) (nw : Nat) (hw : 1 ≤ nw) :
    ∃ p tr q rs, Par.new (runOpts false) data seeds orderRng = some p ∧ ParRun (runOpts false) data nw p tr q ∧ q.Final (runOpts false) ∧
      tr.length = 16 ∧ q.shared.counters.completed = 4 ∧ q.shared.finished = true ∧
      History (runOpts false) data p.shared rs q.shared q.pending ∧ rs.length = 4 ∧
      BestSpec (runOpts false) data p.shared rs q.shared.best := by
  obtain ⟨p, h1, h2, h3⟩ := C64_completes (runSetting false) rfl rfl seeds orderRng hw
  obtain ⟨-, ⟨tr, q, h4, h5⟩, -⟩ := h3 [] p (.refl p)
  obtain ⟨-, -, -, c1, c2, c3⟩ := C44_complete h2 h4 h5
  obtain ⟨rs, g1, g2, g3⟩ := C48_parallel (runSetting false).search h1 h4
  refine ⟨p, tr, q, rs, h1, h4, h5, c3, c1, c2, g1, ?_, g3⟩
  have : (receives tr).length = 4 := by rw [← (C44_safety h2 h4).2.2.2.2.2.2, c1]; rfl
  rw [← this, ← g2, List.length_map]

/-- C46: the counters and the best of this search, in all its executions. -/
example (seeds : Nat → Rng (Fl ℚ)) (orderRng : Rng (Fl ℚ)) {nw : Nat} (hw : 1 ≤ nw) :
    ∃ p, Par.new (runOpts false) data seeds orderRng = some p ∧ ∀ tr q, ParRun (runOpts false) data nw p tr q →
      p.shared.Progress q.shared := by
  obtain ⟨p, h1, -, -⟩ := C64_completes (runSetting false) rfl rfl seeds orderRng hw
  refine ⟨p, h1, fun tr q h => C46_parallel ?_ h⟩
  obtain ⟨s, e, -, -, ht, -⟩ := C59_init (runSetting false).search seeds
  rw [Par.new, e] at h1
  cases h1
  show s.totalEvals < 2 ^ 64
  rw [ht]
  decide

/-- C45, C46, C47: the step-wise search with the same random numbers: after steps of one, two and five cycles it has done four and is
finished, the counters and the best have progressed, and the search with one worker ends in the same state in every execution. -/
example (seeds : Nat → Rng (Fl ℚ)) (orderRng : Rng (Fl ℚ)) :
    ∃ p e e', Par.new (runOpts false) data seeds orderRng = some p ∧ Engine.new (runOpts false) data seeds orderRng = some e ∧
      e.steps (runOpts false) data [1, 2, 5] = some (4, e') ∧ e'.shared.finished = true ∧ e.shared.Progress e'.shared ∧
      (∃ tr q, ParRun (runOpts false) data 1 p tr q ∧ q.Final (runOpts false)) ∧
      ∀ tr q, ParRun (runOpts false) data 1 p tr q → q.Final (runOpts false) → q.shared = e'.shared := by
  obtain ⟨p, h1, h2, h3⟩ := C64_completes (runSetting false) rfl rfl seeds orderRng (Nat.le_refl 1)
  obtain ⟨-, ⟨tr, q, h4, h5⟩, -⟩ := h3 [] p (.refl p)
  obtain ⟨e, g1, g2⟩ := C64_stepwise_without_migration (runSetting false) rfl rfl seeds orderRng
  obtain ⟨s, hi, -, hf, ht, -⟩ := C59_init (runSetting false).search seeds
  have hp : p.shared = s ∧ p.orderRng = orderRng := by rw [Par.new, hi] at h1; cases h1; exact ⟨rfl, rfl⟩
  have he : e.shared = s ∧ e.orderRng = orderRng ∧ e.Fresh (runOpts false) 2 := by
    rw [Engine.new, hi] at g1; cases g1; exact ⟨rfl, rfl, hf, rfl, rfl, rfl⟩
  obtain ⟨⟨k, e'⟩, hk⟩ := Option.isSome_iff_exists.mp (g2 8)
  have hk' : e.steps (runOpts false) data [1, 2, 5] = some (k, e') := by rw [C45_partition]; exact hk
  obtain ⟨-, -, -, c1, c2⟩ := C45_count he.2.2 [1, 2, 5] k hk' 0 0 rfl
  have c1 : k = 4 := c1
  subst c1
  refine ⟨p, e, e', h1, g1, hk', c2.mpr (by decide), C46_stepwise 8 (by rw [he.1, ht]; decide) hk, ⟨tr, q, h4, h5⟩, fun tr q hr hq => ?_⟩
  obtain ⟨e1, r1, r2⟩ := (C47_same_result (show 1 ≤ 2 by decide) h2 he.2.2 (he.1.trans hp.1.symm) (he.2.1.trans hp.2.symm)).1 tr q hr hq
  obtain ⟨e2, r3, rfl⟩ := (C45_run_to_completion he.2.2 8 (by decide)).2 e1 r1
  rw [hk] at r3
  cases r3
  exact r2.symm

/-- C42: a batch of three rows of the two rows of the data: any three can be drawn. -/
example (idx : Nat → Nat) (h : ∀ i, i < 3 → idx i < 2) :
    ∃ (b : Dataset ℚ) (g : Rng (Fl ℚ)) (b' : Dataset ℚ) (g' : Rng (Fl ℚ)), BatchShape data b ∧ b.x.cols = 3 ∧
      resampleFrom data b g = some (b', g') ∧ ∀ i, i < 3 → SameRow data b' i (idx i) := by
  have hb : BatchShape data (⟨⟨1, 3, fun _ _ => .fin 0⟩, [.fin 0, .fin 0, .fin 0], none, none⟩ : Dataset ℚ) :=
    ⟨rfl, rfl, (fun w h => by cases h), rfl⟩
  obtain ⟨g, b', g', h1, h2⟩ := C42_reaches data_wf (by decide) hb idx h
  exact ⟨_, g, b', g', hb, rfl, h1, h2⟩

/-- C58: a population of one member, on which simplification and optimisation are run: every outcome is a member rescored on the data. -/
example : ∃ m : Member ℚ, Member.fromExpr 5 none 7 expr 1 = some m ∧
    Rand.Post (optimizeAndSimplify opts data data (DContext.new 2) ⟨[m], Evaluator.new 2, ⟨10, 10⟩, 0⟩) fun r =>
      ∃ m', r.1.pop = [m'] ∧ Finished opts data opIds 7 m m' := by
  obtain ⟨m, h1, h2, h3, -⟩ := C55_from_expr data expr tree setting 5 7 none
  have hg : m.Good data opIds 7 := by
    refine ⟨⟨tree, by rw [h3]; rfl, ?_, by decide, by rw [h3]; decide⟩, h2⟩
    rw [h3]
    simp only [tree, Tree.Uses, expr, data, Tree.all_op, List.length_cons, List.length_nil]
    exact ⟨by decide, by simp⟩
  refine ⟨m, h1, (C58_rescored evolSetting data data_wf rfl (by decide) (DContext.new 2) _ (by simpa using hg)
    (by simp [Evaluator.new, Buf.WF, Buf.zeros])).mono fun r hr => ?_⟩
  obtain ⟨a, -⟩ := hr
  cases hp : r.1.pop with
  | nil => rw [hp] at a; cases a
  | cons x l =>
    rw [hp] at a
    obtain ⟨b, c⟩ := List.forall₂_cons.mp a
    cases c
    exact ⟨x, rfl, b⟩

/-- C28 in binary64: up to a million thousand million records of the same size, a move of the window and a normalisation. -/
example (maxsize window n : Nat) (hn : n ≤ 10 ^ 15) :
    (statsAfter binary64 maxsize window [.updateAll (List.replicate n 3), .moveWindow, .normalize]).frequencies.length = maxsize :=
  (C28_binary64 maxsize window _ (by simp only [List.map_cons, List.map_nil, StatsOp.records, List.length_replicate, List.sum_cons, List.sum_nil]; omega)).1

end SR
