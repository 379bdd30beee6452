import Verif.Props.Batch
import Verif.Props.Evolve
import Verif.Props.SearchSound
/-
C57: mini-batches of a size other than the number of rows.
-/
namespace SR
variable {K : Type} [Field K] [LinearOrder K] [E : Env K]
variable {o : SOptions K} {d : Dataset K}

/-- What evolution on a data set that does not match the prediction buffer amounts to: nothing is evaluated (no
evaluation is counted, the evaluator is untouched) and every loss in the population is one that was there before. -/
structure NothingEvaluated (st st' : EvolState K) : Prop where
  ev : st'.ev = st.ev
  evals : st'.evals = st.evals
  losses : ∀ m ∈ st'.pop, ∃ m0 ∈ st.pop, m.loss = m0.loss

theorem evalPlan_mismatch {T : Type} [Scalar T] {ops : OpSet T} {out : List T} {plan : EvalPlan} {consts : List T}
    {X : Mat T} {scratch : Buf T} {opts : EvalOptions} (h : out.length ≠ X.cols) :
    evalPlanArrayInto ops out plan consts X scratch opts = none := by
  unfold evalPlanArrayInto
  simp only [if_neg h]

/-- C57: evaluating a member panics unless the prediction buffer has exactly as many entries as the data set has
rows. -/
theorem C57_evaluate {ev : Evaluator K} (h : ev.yhat.length ≠ d.x.cols) (m : Member K) : m.evaluate o d ev = none := by
  unfold Member.evaluate
  rw [evalPlan_mismatch h]
  rfl

theorem lossOnly_mismatch {ev : Evaluator K} (h : ev.yhat.length ≠ d.x.cols) (plan : EvalPlan)
    (e : PostfixExpr (Fl K)) : lossOnly o d plan e ev = none := by
  unfold lossOnly
  rw [evalPlan_mismatch h]
  rfl

theorem optimizeConstants_mismatch {ev : Evaluator K} (h : ev.yhat.length ≠ d.x.cols) (ctx : DContext (Fl K)) (nb : Nat)
    (m : Member K) : Rand.Post (optimizeConstants o d ev ctx nb m) fun r => r.evals = 0 ∧ r.ev = ev := by
  unfold optimizeConstants
  split
  · exact Rand.Post.pure ⟨rfl, rfl⟩
  · split
    · exact Rand.Post.pure ⟨rfl, rfl⟩
    · rw [lossOnly_mismatch h]
      exact Rand.Post.bind (P := fun _ => False) (Rand.Post.lift (by simp)) (by simp)

theorem apply_mismatch {ev : Evaluator K} (h : ev.yhat.length ≠ d.x.cols) (cur : Nat) (temp : Fl K) (m : Member K)
    (c : Mutation) : Rand.Post (c.apply o d cur temp m ev) fun r => r.evals = 0 ∧ r.ev = ev := by
  cases c
  case doNothing => exact Rand.Post.pure ⟨rfl, rfl⟩
  case randomize =>
    exact Rand.Post.bind Rand.Post.true fun _ _ => Rand.Post.bind Rand.Post.true fun _ _ => Rand.Post.pure ⟨rfl, rfl⟩
  case optimize =>
    refine Rand.Post.bind Rand.Post.true fun _ _ => ?_
    exact Rand.Post.bind (optimizeConstants_mismatch h _ _ _) fun r hr => Rand.Post.pure hr
  all_goals exact Rand.Post.bind Rand.Post.true fun _ _ => Rand.Post.pure ⟨rfl, rfl⟩

theorem attempt_mismatch {ev : Evaluator K} (h : ev.yhat.length ≠ d.x.cols) (cur : Nat) (temp : Fl K) (m : Member K)
    (c : Mutation) : ∀ (k n : Nat), Rand.Post (attemptLoop o d cur temp m c k n ev) fun r => r.evals = n ∧ r.ev = ev
  | 0, n => Rand.Post.pure ⟨rfl, rfl⟩
  | k + 1, n => by
    unfold attemptLoop
    refine Rand.Post.bind (apply_mismatch h cur temp m c) fun r hr => ?_
    obtain ⟨h1, h2⟩ := hr
    simp only [h1, h2, Nat.add_zero]
    split
    · exact attempt_mismatch h cur temp m c k n
    · refine Rand.Post.bind Rand.Post.true fun _ _ => Rand.Post.bind Rand.Post.true fun _ _ => ?_
      split
      · exact Rand.Post.pure ⟨rfl, rfl⟩
      · exact attempt_mismatch h cur temp m c k n

theorem parentCopy_loss {c : Counters} {m b : Member K} (h : parentCopy d c m = some b) : b.loss = m.loss := by
  unfold parentCopy at h
  rw [Option.map_eq_some_iff] at h
  obtain ⟨_, -, rfl⟩ := h
  rfl

theorem simplifiedChild_loss {c : Counters} {m b : Member K} {t : PostfixExpr (Fl K)}
    (h : simplifiedChild o d c m t = some b) : b.loss = m.loss := by
  unfold simplifiedChild at h
  simp only [Option.bind_eq_bind, Option.bind_eq_some_iff, Option.some.injEq] at h
  obtain ⟨_, -, _, -, _, -, rfl⟩ := h
  rfl

theorem generation_mismatch {ev : Evaluator K} (h : ev.yhat.length ≠ d.x.cols) (cur : Nat) (temp : Fl K) (s : Stats K)
    (c : Counters) (m : Member K) : Rand.Post (nextGeneration o d cur temp s ev c m) fun r =>
      r.evals = 0 ∧ r.ev = ev ∧ r.baby.loss = m.loss := by
  unfold nextGeneration
  refine Rand.Post.bind Rand.Post.true fun choice _ => ?_
  unfold generationWith
  refine Rand.Post.bind (attempt_mismatch h cur temp m choice 10 0) fun a ha => ?_
  obtain ⟨h1, h2⟩ := ha
  split
  · exact Rand.Post.bind (P := fun b => b.loss = m.loss) (Rand.Post.lift fun _ => parentCopy_loss) fun b hb =>
      Rand.Post.pure ⟨rfl, h2, hb⟩
  · exact Rand.Post.bind (P := fun b => b.loss = m.loss) (Rand.Post.lift fun _ => simplifiedChild_loss) fun b hb =>
      Rand.Post.pure ⟨rfl, h2, hb⟩
  · refine Rand.Post.bind Rand.Post.true fun b _ => ?_
    rw [h2, C57_evaluate h]
    exact Rand.Post.bind (P := fun _ => False) (Rand.Post.lift (by simp)) (by simp)

theorem cross_mismatch {ev : Evaluator K} (h : ev.yhat.length ≠ d.x.cols) (cur : Nat) (c : Counters) (m1 m2 : Member K) :
    ∀ k, Rand.Post (crossLoop o d cur ev c m1 m2 k) fun r =>
      r.evals = 0 ∧ r.ev = ev ∧ r.baby1 = m1 ∧ r.baby2 = m2
  | 0 => Rand.Post.pure ⟨rfl, rfl, rfl, rfl⟩
  | k + 1 => by
    unfold crossLoop
    have hb : ∀ e1 e2, crossBabies o d ev c m1 m2 e1 e2 = none := by
      intro e1 e2
      unfold crossBabies
      cases Member.fromExpr c.nextId (some m1.id) c.nextBirth e1 d.x.rows with
      | none => rfl
      | some b1 =>
        cases Member.fromExpr (c.nextId + 1) (some m2.id) (c.nextBirth + 1) e2 d.x.rows with
        | none => rfl
        | some b2 =>
          simp only [Option.bind_eq_bind, Option.bind_some]
          rw [C57_evaluate h]
          rfl
    refine Rand.Post.bind Rand.Post.true fun e _ => Rand.Post.bind Rand.Post.true fun ok1 _ => ?_
    have hrest : ∀ ok2 : Bool, Rand.Post (if ok2 then Rand.lift (crossBabies o d ev c m1 m2 e.1 e.2)
        else crossLoop o d cur ev c m1 m2 k) fun r => r.evals = 0 ∧ r.ev = ev ∧ r.baby1 = m1 ∧ r.baby2 = m2 := by
      intro ok2
      split
      · rw [hb]; exact Rand.Post.lift (by simp)
      · exact cross_mismatch h cur c m1 m2 k
    simp only
    split
    · exact Rand.Post.bind Rand.Post.true fun ok2 _ => hrest ok2
    · exact Rand.Post.bind Rand.Post.true fun ok2 _ => hrest ok2

omit E [Field K] [LinearOrder K] in
theorem NothingEvaluated.trans {a b c : EvolState K} (h1 : NothingEvaluated a b) (h2 : NothingEvaluated b c) :
    NothingEvaluated a c :=
  ⟨h2.ev.trans h1.ev, h2.evals.trans h1.evals, fun m hm => by
    obtain ⟨x, hx, e⟩ := h2.losses m hm
    obtain ⟨y, hy, e'⟩ := h1.losses x hx
    exact ⟨y, hy, e.trans e'⟩⟩

omit E [Field K] [LinearOrder K] in
theorem NothingEvaluated.refl (a : EvolState K) : NothingEvaluated a a := ⟨rfl, rfl, fun m hm => ⟨m, hm, rfl⟩⟩

theorem evolStep_mismatch {st : EvolState K} (h : st.ev.yhat.length ≠ d.x.cols) (cur : Nat) (temp : Fl K) (s : Stats K) :
    Rand.Post (evolStep o d cur temp s st) (NothingEvaluated st) := by
  unfold evolStep
  refine Rand.Post.bind Rand.Post.true fun u _ => ?_
  split
  · unfold mutationStep
    refine Rand.Post.bind (bestOfSample_mem E.R E.sort E.libm E.fuel o.tour s st.pop) fun m hm => ?_
    refine Rand.Post.bind (generation_mismatch h cur temp s st.counters m) fun r hr => ?_
    obtain ⟨h1, h2, h3⟩ := hr
    simp only
    split
    · exact Rand.Post.pure ⟨h2, by simp [h1], fun m hm => ⟨m, hm, rfl⟩⟩
    · refine Rand.Post.bind (P := fun p => replaceOldest st.pop r.baby = some p) (Rand.Post.lift fun _ h => h)
        fun p hp => ?_
      obtain ⟨i, old, -, e, -⟩ := C29_replace_oldest st.pop
        (fun h0 => by rw [(C29_panics st.pop r.baby r.baby).1.mpr h0] at hp; cases hp) r.baby
      rw [e] at hp; cases hp
      refine Rand.Post.pure ⟨h2, by simp [h1], fun x hx => ?_⟩
      rcases List.mem_or_eq_of_mem_set hx with hx | rfl
      · exact ⟨x, hx, rfl⟩
      · exact ⟨m, hm, h3⟩
  · unfold crossoverStep
    refine Rand.Post.bind (bestOfSample_mem E.R E.sort E.libm E.fuel o.tour s st.pop) fun m1 hm1 => ?_
    refine Rand.Post.bind (bestOfSample_mem E.R E.sort E.libm E.fuel o.tour s st.pop) fun m2 hm2 => ?_
    refine Rand.Post.bind (cross_mismatch h cur st.counters m1 m2 10) fun r hr => ?_
    obtain ⟨h1, h2, h3, h4⟩ := hr
    simp only
    split
    · exact Rand.Post.pure ⟨h2, by simp [h1], fun m hm => ⟨m, hm, rfl⟩⟩
    · refine Rand.Post.bind (P := fun p => replaceTwoOldest st.pop r.baby1 r.baby2 = some p)
        (Rand.Post.lift fun _ h => h) fun p hp => ?_
      obtain ⟨i1, i2, old1, old2, -, -, -, e, -⟩ := C29_replace_two_oldest st.pop (by
        by_contra h0
        rw [(C29_panics st.pop r.baby1 r.baby2).2.mpr (by omega)] at hp; cases hp) r.baby1 r.baby2
      rw [e] at hp; cases hp
      refine Rand.Post.pure ⟨h2, by simp [h1], fun x hx => ?_⟩
      rcases List.mem_or_eq_of_mem_set hx with hx | rfl
      · rcases List.mem_or_eq_of_mem_set hx with hx | rfl
        · exact ⟨x, hx, rfl⟩
        · exact ⟨m1, hm1, by rw [h3]⟩
      · exact ⟨m2, hm2, by rw [h4]⟩

theorem evolLoop_mismatch (cur : Nat) (temp : Fl K) (s : Stats K) : ∀ (k : Nat) {st : EvolState K},
    st.ev.yhat.length ≠ d.x.cols → Rand.Post (evolLoop o d cur temp s k st) (NothingEvaluated st)
  | 0, st, _ => Rand.Post.pure (.refl st)
  | k + 1, st, h => by
    unfold evolLoop
    refine Rand.Post.bind (evolStep_mismatch h cur temp s) fun st1 h1 => ?_
    exact (evolLoop_mismatch cur temp s k (by rw [h1.ev]; exact h)).mono fun st2 h2 => h1.trans h2

theorem srLoop_mismatch (cur : Nat) (s : Stats K) (n : Nat) : ∀ (k : Nat) {st : EvolState K} (best : Hall K),
    st.ev.yhat.length ≠ d.x.cols → Rand.Post (srLoop o d cur s n k st best) fun r => NothingEvaluated st r.1
  | 0, st, best, _ => Rand.Post.pure (.refl st)
  | k + 1, st, best, h => by
    unfold srLoop regEvolCycle
    refine Rand.Post.bind (evolLoop_mismatch cur _ s _ h) fun st1 h1 => ?_
    refine Rand.Post.bind Rand.Post.true fun b _ => ?_
    exact (srLoop_mismatch cur s n k b (by rw [h1.ev]; exact h)).mono fun r h2 => h1.trans h2

/-- C57: an evolution phase whose data set has a different number of rows than the prediction buffer either panics or
has evaluated no expression at all: no evaluation is counted and every loss in the population was there before. -/
theorem C57_evolution {st : EvolState K} (h : st.ev.yhat.length ≠ d.x.cols) (cur : Nat) (s : Stats K) :
    Rand.Post (srCycle o d cur s st) fun r => NothingEvaluated st r.1 := by
  unfold srCycle
  exact Rand.Post.bind Rand.Post.true fun b _ => srLoop_mismatch cur s _ _ b h

/-- C57: a task of a search with mini-batches of a size other than the number of rows (and constant optimisation off)
either panics or counts exactly one evaluation per member of the resulting population, those of the final rescoring:
evolution has evaluated nothing. -/
theorem C57_task {full : Dataset K} (hbat : o.batching = true) (hfull : full.WF) (h0 : 0 < full.x.cols)
    (hsize : max o.batchSize 1 ≠ full.x.cols)
    (hoff : (o.shouldOptimizeConstants && Fl.lt (.fin 0) o.optimizerProbability) = false) {t : Task K}
    (hev : t.ps.ev.yhat.length = full.x.cols) (hbatch : ∀ b, t.ps.batch = some b → BatchShape full b)
    {r : TaskResult K} (hrun : t.run o full = some r) : r.evals = r.ps.pop.length := by
  unfold Task.run at hrun
  rw [Option.map_eq_some_iff] at hrun
  obtain ⟨⟨x, rng⟩, hbody, rfl⟩ := hrun
  show x.1.evals = x.1.pop.length
  have key : Rand.Post (taskBody o full t) fun x => x.1.evals = x.1.pop.length := by
    unfold taskBody
    refine Rand.Post.bind (C42_phase o hbat hfull h0 hbatch).post fun d1 hd1 => ?_
    obtain ⟨-, hc, -⟩ := hd1
    refine Rand.Post.bind (C57_evolution (by rw [hc, hev]; exact Ne.symm hsize) t.cur t.stats) fun st hst => ?_
    refine Rand.Post.bind Rand.Post.true fun d2 _ => ?_
    refine Rand.Post.bind (P := fun x => x.1.evals = x.1.pop.length) ?_ fun x hx =>
      Rand.Post.bind Rand.Post.true fun _ _ => Rand.Post.pure hx
    unfold optimizeAndSimplify optimizePhase
    rw [hoff]
    refine Rand.Post.bind Rand.Post.true fun p _ => ?_
    refine Rand.Post.bind (Rand.Post.pure (P := fun r => r = _) rfl) ?_
    rintro _ rfl
    refine Rand.Post.bind (P := fun _ => True) Rand.Post.true fun y _ => ?_
    refine Rand.Post.pure ?_
    show st.1.evals + y.1.length = y.1.length
    have := hst.evals
    simp only at this
    omega
  exact key _ _ _ hbody

end SR

/-! ### A whole search -/

namespace SR.Demo
open SR
local instance instBatching : Env ℚ := env

/-- The small options with mini-batches of size `n` (the data have two rows). -/
def batchOpts (n : Nat) : SOptions ℚ := { smallOpts 1 with batching := true, batchSize := n }

end SR.Demo

namespace SR
open Demo
local instance instBatching : Env ℚ := env

/-- C57: there is a search with mini-batches of one row that is set up and whose first step panics; with the same
streams it runs when the batch size is the number of rows. -/
theorem C57_whole_search :
    (∃ e, Engine.new (batchOpts 1) data gen (gen 77) = some e ∧ e.step (batchOpts 1) data 1 = none) ∧
    (∃ e e', Engine.new (batchOpts 2) data gen (gen 77) = some e ∧ e.step (batchOpts 2) data 1 = some (1, e')) := by
  constructor
  · have h : ((Engine.new (batchOpts 1) data gen (gen 77)).map fun e => (e.step (batchOpts 1) data 1).isNone) =
      some true := by decide +kernel
    rw [Option.map_eq_some_iff] at h
    obtain ⟨e, h1, h2⟩ := h
    exact ⟨e, h1, Option.isNone_iff_eq_none.mp h2⟩
  · have h : ((Engine.new (batchOpts 2) data gen (gen 77)).bind fun e => (e.step (batchOpts 2) data 1).map fun r => r.1) =
      some 1 := by decide +kernel
    rw [Option.bind_eq_some_iff] at h
    obtain ⟨e, h1, h⟩ := h
    rw [Option.map_eq_some_iff] at h
    obtain ⟨⟨k, e'⟩, h2, rfl⟩ := h
    exact ⟨e, e', h1, h2⟩

/-- The hypotheses of `C42_phase` and `C57_task` are met: the first task of that search. -/
example : (batchOpts 1).batching = true ∧ data.WF ∧ 0 < data.x.cols ∧ max (batchOpts 1).batchSize 1 ≠ data.x.cols ∧
    ((batchOpts 1).shouldOptimizeConstants && Fl.lt (.fin 0) (batchOpts 1).optimizerProbability) = false ∧
    ((Shared.init (batchOpts 1) data gen).bind fun s => (s.dispatch (batchOpts 1) 0).map fun r =>
      r.1.map fun t => (t.ps.ev.yhat.length, t.ps.batch.isSome, (t.run (batchOpts 1) data).isSome)) =
    some (some (2, false, false)) :=
  ⟨rfl, data_wf, by decide, by decide, rfl, by decide +kernel⟩

/-- A batch of three rows drawn from the two rows of the data. -/
example : (phaseDataset (batchOpts 3) data none (gen 4)).map (fun r => (r.1.1.x.cols, r.1.1.y)) =
    some (3, [.fin 4, .fin 2, .fin 2]) := by decide +kernel

end SR
