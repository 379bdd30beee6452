import Verif.Proofs.Stream
import Verif.Spec.History
import Verif.Model.Pool
import Verif.Props.Best
/-
C74 (random streams).
-/
namespace SR

/-- What is left of the stream `g0` after some draws have been taken from its front. -/
def Rng.RestOf {F : Type} (g0 g : Rng F) : Prop := ∃ i j, g = g0.drop i j

theorem Rng.RestOf.refl {F : Type} (g : Rng F) : g.RestOf g := ⟨0, 0, rfl⟩
theorem Rng.RestOf.trans {F : Type} {a b c : Rng F} (h1 : a.RestOf b) (h2 : b.RestOf c) : a.RestOf c := by
  obtain ⟨i, j, rfl⟩ := h1
  obtain ⟨i', j', rfl⟩ := h2
  exact ⟨i' + i, j' + j, by simp [Rng.drop, Nat.add_assoc]⟩

/-- Whatever holds of every draw of a stream holds of every draw of what is left of it. -/
theorem Rng.RestOf.floats {F : Type} {a b : Rng F} {P : F → Prop} (h : a.RestOf b) (ha : ∀ k, P (a.floats k)) (k : Nat) :
    P (b.floats k) := by
  obtain ⟨i, j, rfl⟩ := h
  exact ha _

section
variable {K : Type} [Field K] [LinearOrder K] [E : Env K]
variable {o : SOptions K} {d : Dataset K}

theorem Rand.Consumes.restOf {F α : Type} {m : Rand F α} [h : m.Consumes] {g g' : Rng F} {a : α} (e : m g = some (a, g')) :
    g.RestOf g' := by
  obtain ⟨i, j, e', -⟩ := h.rest g a g' e
  exact ⟨i, j, e'⟩

/-- Every population that is at home has what is left of its own stream. -/
def Shared.OwnStreams (seeds : Nat → Rng (Fl K)) (s : Shared K) : Prop :=
  ∀ (i : Nat) (ps : PopState K), s.pops[i]? = some (some ps) → (seeds i).RestOf ps.rng

theorem run_stream {t : Task K} {res : TaskResult K} (h : t.run o d = some res) : t.ps.rng.RestOf res.ps.rng := by
  unfold Task.run at h
  cases hb : taskBody o d t t.ps.rng with
  | none => rw [hb] at h; cases h
  | some x =>
    rw [hb] at h
    simp only [Option.map_some, Option.some.injEq] at h
    subst h
    exact Rand.Consumes.restOf hb

/-- C74: what a task returns depends on its captured state and on the draws it takes, and on nothing that comes later in
the stream: if it returns, it has taken `i` integer and `j` float draws, the returned population has the rest of the
stream, and with any other stream that begins with the same draws the task returns the same result (with the rest of
that stream). -/
theorem C74_task {t : Task K} {res : TaskResult K} (h : t.run o d = some res) :
    ∃ i j, res.ps.rng = t.ps.rng.drop i j ∧ ∀ g : Rng (Fl K), t.ps.rng.Agree g i j →
      ({ t with ps := { t.ps with rng := g } } : Task K).run o d =
        some { res with ps := { res.ps with rng := g.drop i j } } := by
  unfold Task.run at h
  cases hb : taskBody o d t t.ps.rng with
  | none => rw [hb] at h; cases h
  | some x =>
    rw [hb] at h
    simp only [Option.map_some, Option.some.injEq] at h
    subst h
    obtain ⟨i, j, e, l⟩ := Rand.Consumes.rest t.ps.rng x.1 x.2 hb
    refine ⟨i, j, e, fun g hg => ?_⟩
    have hl := l g hg
    have : taskBody o d ({ t with ps := { t.ps with rng := g } } : Task K) = taskBody o d t := rfl
    unfold Task.run
    rw [this, hl]
    rfl

theorem run_index {t : Task K} {res : TaskResult K} (h : t.run o d = some res) : res.popIdx = t.popIdx := by
  unfold Task.run at h
  cases hb : taskBody o d t t.ps.rng with
  | none => rw [hb] at h; cases h
  | some x =>
    rw [hb] at h
    simp only [Option.map_some, Option.some.injEq] at h
    subst h
    rfl

theorem dispatch_stream {seeds : Nat → Rng (Fl K)} {s s' : Shared K} {i : Nat} {t : Task K} (hs : s.OwnStreams seeds)
    (h : s.dispatch o i = some (some t, s')) : s'.OwnStreams seeds ∧ (seeds t.popIdx).RestOf t.ps.rng := by
  unfold Shared.dispatch at h
  simp only [Option.bind_eq_bind, Option.bind_eq_some_iff] at h
  obtain ⟨p, hp, h⟩ := h
  cases p with
  | none => simp at h
  | some ps =>
    simp only [Option.bind_eq_some_iff, Option.some.injEq, Prod.mk.injEq] at h
    obtain ⟨cur, -, rfl, rfl⟩ := h
    refine ⟨fun j ps' hj => ?_, hs _ _ hp⟩
    simp only [List.getElem?_set] at hj
    split at hj
    · split at hj <;> simp at hj
    · exact hs j ps' hj

theorem apply_stream {seeds : Nat → Rng (Fl K)} {s s' : Shared K} {r : TaskResult K} (hs : s.OwnStreams seeds)
    (hr : (seeds r.popIdx).RestOf r.ps.rng) (h : s.apply o r = some s') : s'.OwnStreams seeds := by
  unfold Shared.apply at h
  split at h
  · simp only [Option.bind_eq_bind, Option.bind_eq_some_iff, Option.some.injEq] at h
    obtain ⟨hall, -, hb, -, x, hx, rfl⟩ := h
    intro j ps' hj
    simp only [List.getElem?_set] at hj
    split at hj
    · next e =>
      subst e
      split at hj
      · simp only [Option.some.injEq] at hj
        subst hj
        exact hr.trans (Rand.Consumes.restOf hx)
      · simp at hj
    · exact hs j ps' hj
  · cases h

/-- The streams along a history. -/
theorem History.streams {seeds : Nat → Rng (Fl K)} {s0 s : Shared K} {rs : List (TaskResult K)} {pend : List (Task K)}
    (h0 : s0.OwnStreams seeds) (h : History o d s0 rs s pend) :
    s.OwnStreams seeds ∧ (∀ t ∈ pend, (seeds t.popIdx).RestOf t.ps.rng) ∧
      ∀ r ∈ rs, (seeds r.popIdx).RestOf r.ps.rng := by
  induction h with
  | init => exact ⟨h0, by simp, by simp⟩
  | dispatch _ hd ih =>
    obtain ⟨h1, h2, h3⟩ := ih
    obtain ⟨h4, h5⟩ := dispatch_stream h1 hd
    refine ⟨h4, fun t ht => ?_, h3⟩
    rcases List.mem_append.mp ht with ht | ht
    · exact h2 t ht
    · rw [List.mem_singleton.mp ht]; exact h5
  | @apply rs s s' l r t res _ hrun ha ih =>
    obtain ⟨h1, h2, h3⟩ := ih
    have hres : (seeds res.popIdx).RestOf res.ps.rng := by
      rw [run_index hrun]
      exact (h2 t (by simp)).trans (run_stream hrun)
    refine ⟨apply_stream h1 hres ha, fun t ht => h2 t ?_, fun r hr => ?_⟩
    · rcases List.mem_append.mp ht with ht | ht <;> simp [ht]
    · rcases List.mem_append.mp hr with hr | hr
      · exact h3 r hr
      · rw [List.mem_singleton.mp hr]; exact hres

theorem initPops_stream {seeds : Nat → Rng (Fl K)} : ∀ (k i : Nat) (hall hall' : Hall K) (pops : List (PopState K)),
    initPops o d seeds k i hall = some (pops, hall') →
    ∀ (j : Nat) (ps : PopState K), pops[j]? = some ps → (seeds (i + j)).RestOf ps.rng := by
  intro k
  induction k with
  | zero =>
    intro i hall hall' pops h j ps hj
    simp only [initPops, Option.some.injEq, Prod.mk.injEq] at h
    obtain ⟨rfl, -⟩ := h
    simp at hj
  | succ k ih =>
    intro i hall hall' pops h j ps hj
    simp only [initPops, Option.bind_eq_bind, Option.bind_eq_some_iff, Option.some.injEq, Prod.mk.injEq] at h
    obtain ⟨⟨p, hl1⟩, h1, ⟨rest, hl2⟩, h2, rfl, -⟩ := h
    cases j with
    | zero =>
      simp only [List.getElem?_cons_zero, Option.some.injEq] at hj
      subst hj
      unfold initPop at h1
      simp only [Option.map_eq_some_iff] at h1
      obtain ⟨⟨st, g⟩, hm, h1⟩ := h1
      simp only [Prod.mk.injEq] at h1
      obtain ⟨rfl, -⟩ := h1
      exact Rand.Consumes.restOf hm
    | succ j =>
      rw [show i + (j + 1) = i + 1 + j by omega]
      exact ih _ _ _ _ h2 j ps (by simpa using hj)

/-- C74: after the initialisation every population holds what is left of its own stream: that of the seed with its number
added. -/
theorem C74_init {seeds : Nat → Rng (Fl K)} {s : Shared K} (h : Shared.init o d seeds = some s) : s.OwnStreams seeds := by
  unfold Shared.init at h
  simp only [Option.bind_eq_bind, Option.bind_eq_some_iff, Option.some.injEq] at h
  obtain ⟨⟨pops, hall⟩, h1, best, -, sub, -, rfl⟩ := h
  intro i ps hi
  simp only [List.getElem?_map, Option.map_eq_some_iff, Option.some.injEq] at hi
  obtain ⟨ps', hi, rfl⟩ := hi
  have := initPops_stream _ _ _ _ _ h1 i ps' hi
  rwa [Nat.zero_add] at this

/-- C74: in every state the multi-worker driver reaches, under every schedule, the generator of population `i`, at home
or in a task, is what is left of the stream of seed `seed + i`: draws are taken from the front of the own stream only;
and the stream that orders the populations is consumed in the same way. -/
theorem C74_parallel {seeds : Nat → Rng (Fl K)} {orderRng : Rng (Fl K)} {nw : Nat} {p q : Par K} {tr : List ParEvent}
    (hnew : Par.new o d seeds orderRng = some p) (hrun : ParRun o d nw p tr q) :
    q.shared.OwnStreams seeds ∧ (∀ t ∈ q.pending, (seeds t.popIdx).RestOf t.ps.rng) ∧ orderRng.RestOf q.orderRng := by
  unfold Par.new at hnew
  simp only [Option.map_eq_some_iff] at hnew
  obtain ⟨s, hs, rfl⟩ := hnew
  have h0 := C74_init hs
  obtain ⟨rs, hh, -⟩ := ParRun.history rfl hrun
  refine ⟨(hh.streams h0).1, (hh.streams h0).2.1, ?_⟩
  have key : ∀ {p q : Par K} {tr : List ParEvent}, ParRun o d nw p tr q → p.orderRng.RestOf q.orderRng := by
    intro p q tr h
    induction h with
    | refl => exact Rng.RestOf.refl _
    | snoc _ hs ih =>
      refine ih.trans ?_
      cases hs with
      | start _ _ hsh => exact Rand.Consumes.restOf hsh
      | enter => exact Rng.RestOf.refl _
      | leave => exact Rng.RestOf.refl _
      | dispatch => exact Rng.RestOf.refl _
      | skip => exact Rng.RestOf.refl _
      | receive => exact Rng.RestOf.refl _
  exact key hrun

/-- C74: the same for the step-wise driver, after any number of steps. -/
theorem C74_stepwise {seeds : Nat → Rng (Fl K)} {orderRng : Rng (Fl K)} {n k : Nat} {e e' : Engine K}
    (hnew : Engine.new o d seeds orderRng = some e) (hrun : e.step o d n = some (k, e')) :
    e'.shared.OwnStreams seeds := by
  unfold Engine.new at hnew
  simp only [Option.map_eq_some_iff] at hnew
  obtain ⟨s, hs, rfl⟩ := hnew
  obtain ⟨rs, -, hh⟩ := Engine.step_history (s0 := s) .init hrun
  exact (hh.streams (C74_init hs)).1

/-- C74: the same on a thread pool: also for the tasks that wait or run, and for the results on their way. -/
theorem C74_pool {seeds : Nat → Rng (Fl K)} {orderRng : Rng (Fl K)} {threads nw : Nat} {inPool : Bool} {p q : Pool K}
    {tr : List PoolEvent} (hnew : Pool.new o d seeds orderRng threads inPool = some (nw, p))
    (hrun : PoolRun o d threads nw p tr q) :
    q.shared.OwnStreams seeds ∧ (∀ t ∈ q.queue ++ q.running, (seeds t.popIdx).RestOf t.ps.rng) ∧
      (∀ r ∈ q.channel, (seeds r.popIdx).RestOf r.ps.rng) ∧ orderRng.RestOf q.orderRng := by
  unfold Pool.new at hnew
  simp only [Option.bind_eq_bind, Option.bind_eq_some_iff, Option.some.injEq, Prod.mk.injEq] at hnew
  obtain ⟨s, hs, w, -, -, rfl⟩ := hnew
  have h0 := C74_init hs
  have key : ∀ {p q : Pool K} {tr : List PoolEvent}, PoolRun o d threads nw p tr q →
      (p.shared.OwnStreams seeds ∧ (∀ t ∈ p.queue ++ p.running, (seeds t.popIdx).RestOf t.ps.rng) ∧
        (∀ r ∈ p.channel, (seeds r.popIdx).RestOf r.ps.rng) ∧ orderRng.RestOf p.orderRng) →
      (q.shared.OwnStreams seeds ∧ (∀ t ∈ q.queue ++ q.running, (seeds t.popIdx).RestOf t.ps.rng) ∧
        (∀ r ∈ q.channel, (seeds r.popIdx).RestOf r.ps.rng) ∧ orderRng.RestOf q.orderRng) := by
    intro p q tr h hp
    induction h with
    | refl => exact hp
    | @snoc q r tr e _ hs ih =>
      obtain ⟨h1, h2, h3, h4⟩ := ih
      cases hs with
      | start _ _ hsh => exact ⟨h1, h2, h3, h4.trans (Rand.Consumes.restOf hsh)⟩
      | enter => exact ⟨h1, h2, h3, h4⟩
      | leave => exact ⟨h1, h2, h3, h4⟩
      | skip => exact ⟨h1, h2, h3, h4⟩
      | dispatch _ _ _ hd =>
        obtain ⟨a, b⟩ := dispatch_stream h1 hd
        refine ⟨a, fun t ht => ?_, h3, h4⟩
        simp only [List.mem_append, List.mem_singleton] at ht
        rcases ht with (ht | rfl) | ht
        · exact h2 t (by simp [ht])
        · exact b
        · exact h2 t (by simp [ht])
      | receive _ _ hc ha =>
        refine ⟨apply_stream h1 (h3 _ (by rw [hc]; simp)) ha, h2, fun r hr => h3 r (by rw [hc]; simp [hr]), h4⟩
      | take hq =>
        refine ⟨h1, fun t ht => h2 t ?_, h3, h4⟩
        rw [hq]
        simp only [List.mem_append, List.mem_cons] at ht ⊢
        tauto
      | finish hr hrun =>
        refine ⟨h1, fun t ht => h2 t ?_, fun r hr' => ?_, h4⟩
        · rw [hr]
          simp only [List.mem_append, List.mem_cons] at ht ⊢
          tauto
        · simp only [List.mem_append, List.mem_singleton] at hr'
          rcases hr' with hr' | rfl
          · exact h3 r hr'
          · rw [run_index hrun]
            exact (h2 _ (by rw [hr]; simp)).trans (run_stream hrun)
      | die hr =>
        refine ⟨h1, fun t ht => h2 t ?_, h3, h4⟩
        rw [hr]
        simp only [List.mem_append, List.mem_cons] at ht ⊢
        tauto
  exact key hrun ⟨h0, by simp, by simp, Rng.RestOf.refl _⟩

end
end SR

namespace SR
open Demo
local instance instStream : Env ℚ := env

/-- A small search: its first task and the initialisation have taken 36 integer and 13 float draws of the stream of
population 0. -/
example : ((Engine.new (smallOpts 1) data (fun i => gen (3 + i)) (gen 9)).bind fun e =>
    (e.step (smallOpts 1) data 1).bind fun r => r.2.shared.pops[0]?.bind fun p => p.map fun ps =>
      (ps.rng.ints 0 == (gen 3).ints 36 && ps.rng.ints 5 == (gen 3).ints 41 && ps.rng.floats 0 == (gen 3).floats 13 &&
        ps.rng.floats 5 == (gen 3).floats 18)) = some true := by decide +kernel

end SR
