import Verif.Props.Batching
import Verif.Proofs.Sound
/-
C69: scores of a search with mini-batches.  C57 shows that only batches with as many rows as the data set work; the rows
are drawn with repetitions, so such a batch is still another data set.
-/
namespace SR
variable {K : Type} [Field K] [LinearOrder K] [E : Env K] [IsStrictOrderedRing K]

/-- A batch of `full`: rows of `full` (with repetitions) with their targets and weights, and the baseline of `full`. -/
structure BatchOf (full b : Dataset K) : Prop where
  shape : BatchShape full b
  baseline : b.baseline = full.baseline
  rows : ∀ i, i < b.x.cols → ∃ s, SameRow full b i s

omit [IsStrictOrderedRing K] in
theorem BatchShape.evolSetting {o : SOptions K} {full b : Dataset K} {cur N : Nat} {ops : List OpId} (h : BatchShape full b)
    (h0 : 0 < b.x.cols) (S : EvolSetting o full cur ops N) : EvolSetting o b cur ops N :=
  ⟨S.operators, S.ops_ok, S.cxD, S.cx, ⟨h.y, h.weights⟩, h0, h.features ▸ S.nf_pos, h.features ▸ S.nf_le, S.cur_lt,
    S.maxsize_le, S.size, S.room, S.two⟩

omit [IsStrictOrderedRing K] in
theorem BatchShape.good {full b : Dataset K} {ops : List OpId} {N : Nat} (h : BatchShape full b) (m : Member K) :
    m.Good b ops N ↔ m.Good full ops N := by
  constructor
  · rintro ⟨h1, h2⟩
    refine ⟨h.features ▸ h1, ?_⟩
    unfold PlanOf at h2 ⊢
    rw [← h.features]; exact h2
  · rintro ⟨h1, h2⟩
    refine ⟨h.features.symm ▸ h1, ?_⟩
    unfold PlanOf at h2 ⊢
    rw [h.features]; exact h2

/-- C69: every task of a search with mini-batches of as many rows as the data set: if it returns, there are a batch `b1`
and moves of regularised evolution on `b1` such that the returned population is the evolved one, simplified and with its
constants optimised; every member of it is well formed and carries the exact loss, cost and complexity of its own
expression on the *full* data.  The hall of fame of the task is filled with members of the populations evolution passed
through. -/
theorem C69_task {o : SOptions K} {full : Dataset K} {ops : List OpId} {N : Nat} (hbat : o.batching = true)
    (hsize : max o.batchSize 1 = full.x.cols) (hF : Env.Formats K) (hls : LsOk o) {t : Task K}
    (S : EvolSetting o full t.cur ops N)
    (hpop : ∀ m ∈ t.ps.pop, m.Good full ops N) (hev : t.ps.ev.Ready full)
    (hbatch : ∀ b, t.ps.batch = some b → BatchShape full b) {r : TaskResult K} (hrun : t.run o full = some r) :
    ∃ (b1 : Dataset K) (j : Nat) (st : EvolState K) (pops : List (Population K)), BatchOf full b1 ∧
      b1.x.cols = full.x.cols ∧
      EvolMoves o b1 t.cur ops N j ⟨t.ps.pop, t.ps.ev, t.ps.counters, 0⟩ st ∧
      List.Forall₂ (Finished o full ops N) st.pop r.ps.pop ∧ (∀ m ∈ r.ps.pop, m.Good full ops N ∧ m.Scored o full) ∧
      r.ps.pop.length = t.ps.pop.length ∧ r.ps.ev.Ready full ∧ (∀ b, r.ps.batch = some b → BatchShape full b) ∧
      (∀ p ∈ pops, ∃ i st1, EvolMoves o b1 t.cur ops N i ⟨t.ps.pop, t.ps.ev, t.ps.counters, 0⟩ st1 ∧ st1.pop = p) ∧
      offerAll o.cx (Hall.new o.maxsize) ((t.ps.pop :: pops).flatten.map fun m => (t.cur, m)) = some r.bestSeen := by
  have hpost : Rand.Post (taskBody o full t) fun x =>
      ∃ (b1 : Dataset K) (j : Nat) (st : EvolState K) (pops : List (Population K)), BatchOf full b1 ∧
      b1.x.cols = full.x.cols ∧
      EvolMoves o b1 t.cur ops N j ⟨t.ps.pop, t.ps.ev, t.ps.counters, 0⟩ st ∧
      List.Forall₂ (Finished o full ops N) st.pop x.1.pop ∧ (∀ m ∈ x.1.pop, m.Good full ops N ∧ m.Scored o full) ∧
      x.1.pop.length = t.ps.pop.length ∧ x.1.ev.Ready full ∧ (∀ b, x.2.2.1 = some b → BatchShape full b) ∧
      (∀ p ∈ pops, ∃ i st1, EvolMoves o b1 t.cur ops N i ⟨t.ps.pop, t.ps.ev, t.ps.counters, 0⟩ st1 ∧ st1.pop = p) ∧
      offerAll o.cx (Hall.new o.maxsize) ((t.ps.pop :: pops).flatten.map fun m => (t.cur, m)) = some x.2.2.2.1 := by
    unfold taskBody
    refine Rand.Post.bind (C42_phase o hbat S.data S.rows hbatch).post ?_
    rintro ⟨d1, batch⟩ ⟨p1, p2, p3, p4, p5⟩
    simp only at p1 p2 p3 p4 p5 ⊢
    have hc : d1.x.cols = full.x.cols := p2.trans hsize
    have S1 : EvolSetting o d1 t.cur ops N := p1.evolSetting (by rw [hc]; exact S.rows) S
    refine Rand.Post.bind (C36_iteration hF hls S1 t.stats ⟨t.ps.pop, t.ps.ev, t.ps.counters, 0⟩
      ⟨fun m hm => (p1.good m).mpr (hpop m hm), ⟨hev.1.trans hc.symm, hev.2⟩⟩) ?_
    rintro ⟨st, seen⟩ ⟨⟨j, pops, g1, g2, g3, g4, g5⟩, hok, hl, -⟩
    simp only at g1 g3 g4 g5 hok hl ⊢
    refine Rand.Post.bind (C42_phase o hbat S.data S.rows p5).post ?_
    rintro ⟨d2, batch'⟩ ⟨q1, q2, q3, q4, q5⟩
    simp only at q1 q2 q3 q4 q5 ⊢
    refine Rand.Post.bind (C58_rescored S d2 ⟨q1.y, q1.weights⟩ q1.features (by rw [q2, hsize]; exact S.rows) t.ps.ctx st
      (fun m hm => (p1.good m).mp (hok.pop m hm)) hok.ev.2) ?_
    rintro ⟨st2, ctx⟩ ⟨k1, k2, k3, k4, k5⟩
    simp only at k1 k2 k3 k4 k5 ⊢
    refine Rand.Post.bind Rand.Post.true fun sub _ => ?_
    refine Rand.Post.pure ⟨d1, j, st, pops, ⟨p1, p3, p4⟩, hc, g1, k1, ?_, ?_, k2, q5, ?_, g5⟩
    · intro m hm
      obtain ⟨i, hi, rfl⟩ := List.mem_iff_getElem.mp hm
      have := List.forall₂_iff_get.mp k1
      have hf := this.2 i (this.1 ▸ hi) hi
      exact ⟨hf.good, hf.scored⟩
    · have := k1.length_eq
      simp only at this ⊢
      omega
    · intro p hp
      obtain ⟨i, st1, -, h1, h2⟩ := g4 p hp
      exact ⟨i, st1, h1, h2⟩
  unfold Task.run at hrun
  rw [Option.map_eq_some_iff] at hrun
  obtain ⟨⟨x, g⟩, h1, rfl⟩ := hrun
  exact hpost _ _ _ h1

end SR

namespace SR
open Demo
local instance instBatchTask : Env ℚ := env

/-- The streams of the witness search below. -/
def batchSeeds (i : Nat) : Rng (Fl ℚ) := gen (19 + i)

/-- C69, exception: a search with mini-batches of as many rows as the data set returns a hall of fame whose only entry
claims the loss 1681/10000; the loss of that very expression on the data is 10781/10000, and that is also the loss of the
reported best. -/
theorem C69_hall_keeps_batch_loss :
    ∃ e e' m, Engine.new (batchOpts 2) data batchSeeds (gen 77) = some e ∧ e.step (batchOpts 2) data 1 = some (1, e') ∧
      e'.shared.hall.members = [m] ∧ m.loss = .fin (1681 / 10000) ∧
      ((m.evaluate (batchOpts 2) data (Evaluator.new 2)).map fun r => (r.1.loss, r.2.1)) =
        some (.fin (10781 / 10000), true) ∧
      e'.shared.best.loss = .fin (10781 / 10000) := by
  have h : ((Engine.new (batchOpts 2) data batchSeeds (gen 77)).bind fun e => (e.step (batchOpts 2) data 1).map fun r =>
      (decide (r.1 = 1 ∧ r.2.shared.best.loss = .fin (10781 / 10000)), r.2.shared.hall.members.map fun m =>
        decide (m.loss = .fin (1681 / 10000) ∧ ((m.evaluate (batchOpts 2) data (Evaluator.new 2)).map fun r =>
          (r.1.loss, r.2.1)) = some (.fin (10781 / 10000), true)))) =
      some (true, [true]) := by decide +kernel
  rw [Option.bind_eq_some_iff] at h
  obtain ⟨e, h1, h⟩ := h
  rw [Option.map_eq_some_iff] at h
  obtain ⟨⟨k, e'⟩, h2, h⟩ := h
  rw [Prod.mk.injEq] at h
  obtain ⟨h3, h4⟩ := h
  obtain ⟨rfl, h3⟩ := of_decide_eq_true h3
  cases hm : e'.shared.hall.members with
  | nil => rw [hm] at h4; cases h4
  | cons m l =>
    rw [hm] at h4
    simp only [List.map_cons, List.cons.injEq] at h4
    obtain ⟨h5, h6⟩ := h4
    obtain ⟨h5, h7⟩ := of_decide_eq_true h5
    cases l with
    | nil => exact ⟨e, e', m, h1, h2, hm, h5, h7, h3⟩
    | cons _ _ => cases h6

/-- The hypotheses of `C69_task` are met by the first task of that search, which returns. -/
example : (batchOpts 2).batching = true ∧ max (batchOpts 2).batchSize 1 = data.x.cols ∧
    ((Shared.init (batchOpts 2) data batchSeeds).bind fun s => (s.dispatch (batchOpts 2) 0).map fun r =>
      r.1.map fun t => (t.ps.ev.yhat.length, t.ps.batch.isSome, (t.run (batchOpts 2) data).isSome)) =
    some (some (2, false, true)) := ⟨rfl, rfl, by decide +kernel⟩

end SR
