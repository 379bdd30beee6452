import Verif.Spec.Longer
import Verif.Props.Budget
import Verif.Props.Progress
import Verif.Props.NoPanic
/-
C91: a longer search passes through the result of the shorter one.
-/
namespace SR
variable {K : Type} [Field K] [LinearOrder K] [E : Env K]
variable {o : SOptions K} {d : Dataset K} {n : Nat}

/-! ## Nothing but the total number of cycles depends on the number of iterations -/

section
set_option smartUnfolding false
theorem run_niterations (o : SOptions K) (n : Nat) (d : Dataset K) (t : Task K) : t.run { o with niterations := n } d = t.run o d := rfl
theorem apply_niterations (o : SOptions K) (n : Nat) (s : Shared K) (r : TaskResult K) :
    s.apply { o with niterations := n } r = s.apply o r := rfl
theorem initPops_niterations (o : SOptions K) (n : Nat) (d : Dataset K) (seeds : Nat → Rng (Fl K)) (k i : Nat) (h : Hall K) :
    initPops { o with niterations := n } d seeds k i h = initPops o d seeds k i h := rfl
omit [Field K] E in
theorem initBest_niterations (o : SOptions K) (n : Nat) (pops : List (PopState K)) :
    initBest { o with niterations := n } pops = initBest o pops := rfl
end

/-- The same state with another total. -/
def Shared.withTotal (s : Shared K) (T : Nat) : Shared K := { s with counters := { s.counters with total := T } }

omit [Field K] [LinearOrder K] E in
theorem Shared.SameSoFar.eq {s s' : Shared K} (h : s.SameSoFar s') : s' = s.withTotal s'.counters.total := by
  obtain ⟨h1, h2, h3, h4, h5, h6, h7, h8⟩ := h
  obtain ⟨⟨a, b, c⟩, _, _, _, _, _, _⟩ := s
  obtain ⟨⟨a', b', c'⟩, _, _, _, _, _, _⟩ := s'
  simp only at h1 h2 h3 h4 h5 h6 h7 h8
  subst h1 h2 h3 h4 h5 h6 h7 h8
  rfl

omit [Field K] [LinearOrder K] E in
theorem Shared.withTotal_same (s : Shared K) (T : Nat) : s.SameSoFar (s.withTotal T) := ⟨rfl, rfl, rfl, rfl, rfl, rfl, rfl, rfl⟩

theorem init_longer (n : Nat) (seeds : Nat → Rng (Fl K)) : Shared.init { o with niterations := n } d seeds =
    (Shared.init o d seeds).map fun s => s.withTotal (n * o.populations) := by
  unfold Shared.init
  simp only [initPops_niterations, initBest_niterations, Option.bind_eq_bind]
  cases initPops o d seeds o.populations 0 (Hall.new o.maxsize) with
  | none => rfl
  | some x =>
    simp only [Option.bind_some]
    cases initBest o x.1 with
    | none => rfl
    | some b =>
      simp only [Option.bind_some]
      cases x.1.mapM fun ps => bestSubPop E.sort ps.pop o.topn with
      | none => rfl
      | some bs => rfl

theorem cur_longer (hw : Fl.lt (.fin 0) o.warmupMaxsizeBy = false) (T r : Nat) :
    getCurMaxsize { o with niterations := n } T r = some o.maxsize ∧ getCurMaxsize o T r = some o.maxsize := by
  unfold getCurMaxsize
  constructor <;> simp only <;> rw [hw] <;> rfl

theorem dispatch_longer (hw : Fl.lt (.fin 0) o.warmupMaxsizeBy = false) (s : Shared K) (T i : Nat) :
    (s.withTotal T).dispatch { o with niterations := n } i = (s.dispatch o i).map fun x => (x.1, x.2.withTotal T) := by
  unfold Shared.dispatch
  simp only [(cur_longer (n := n) hw _ _).1, (cur_longer (n := n) hw _ _).2, Option.bind_eq_bind]
  show ((s.pops[i]?).bind _) = _
  rcases s.pops[i]? with - | (- | ps) <;> rfl

theorem apply_longer (s : Shared K) (T : Nat) (r : TaskResult K) :
    (s.withTotal T).apply { o with niterations := n } r = (s.apply o r).map fun x => x.withTotal T := by
  rw [apply_niterations]
  unfold Shared.apply
  show (if r.popIdx < s.bestSub.length ∧ r.popIdx < s.pops.length then _ else none) = _
  split
  · simp only [Option.bind_eq_bind]
    show (s.hall.update o.cx r.cur r.bestSeen.members).bind _ = _
    cases s.hall.update o.cx r.cur r.bestSeen.members with
    | none => rfl
    | some h =>
      simp only [Option.bind_some]
      show (absorbMembers o r.cur r.ps.pop (h, s.best)).bind _ = _
      cases absorbMembers o r.cur r.ps.pop (h, s.best) with
      | none => rfl
      | some hb =>
        simp only [Option.bind_some]
        show (migrations o (migrationCandidates (s.bestSub.set r.popIdx r.bestSub) r.popIdx) hb.1.paretoFront r.ps.pop r.ps.counters
          r.ps.rng).bind _ = _
        cases migrations o (migrationCandidates (s.bestSub.set r.popIdx r.bestSub) r.popIdx) hb.1.paretoFront r.ps.pop r.ps.counters
          r.ps.rng <;> rfl
  · rfl

/-! ## The step-wise driver -/

/-- The same driver with another total. -/
def Engine.withTotal (e : Engine K) (T : Nat) (f : Bool) : Engine K := { e with shared := e.shared.withTotal T, progressFinished := f }

omit [Field K] [LinearOrder K] E in
theorem Engine.SameSoFar.eq {e e' : Engine K} (h : e.SameSoFar e') :
    e' = e.withTotal e'.shared.counters.total e'.progressFinished := by
  obtain ⟨h1, h2, h3, h4, h5⟩ := h
  have := h1.eq
  obtain ⟨s, _, _, _, _, _⟩ := e
  obtain ⟨s', _, _, _, _, _⟩ := e'
  simp only at h2 h3 h4 h5 this
  subst h2 h3 h4 h5
  simp only [Engine.withTotal]
  rw [← this]

omit [Field K] [LinearOrder K] E in
theorem Engine.withTotal_same (e : Engine K) (T : Nat) (f : Bool) : e.SameSoFar (e.withTotal T f) :=
  ⟨e.shared.withTotal_same T, rfl, rfl, rfl, rfl⟩

/-- An unfinished iteration is continued, and a finished one followed by the next, whatever the number of iterations. -/
theorem prepare_longer {np : Nat} {e : Engine K} (hi : e.Inv o np) (hnf : e.shared.finished = false) (hle : o.niterations ≤ n) (T : Nat) (f : Bool) :
    (e.withTotal T f).prepare { o with niterations := n } = (e.prepare o).map fun e => e.withTotal T f := by
  unfold Engine.prepare
  have hmid : o.niterations ≤ e.curIter → e.taskOrder ≠ [] ∧ e.nextTask < e.taskOrder.length := by
    intro hit
    obtain ⟨e1, hp, hi1, -, -, hpos, hn⟩ := prepare_spec hi hnf
    unfold Engine.prepare at hp
    rw [if_pos hit, Option.some.injEq] at hp
    subst hp
    have hl := (hi1.running hpos).1.length_eq
    rw [List.length_range] at hl
    refine ⟨?_, by omega⟩
    intro hc; rw [hc] at hl; simp at hl; omega
  show (if n ≤ e.curIter then _ else if e.taskOrder ≠ [] ∧ e.nextTask < e.taskOrder.length then _ else
    (shuffle (List.range e.shared.pops.length) e.orderRng).map _) = _
  by_cases h1 : o.niterations ≤ e.curIter
  · rw [if_pos h1]
    by_cases h2 : n ≤ e.curIter
    · rw [if_pos h2]; rfl
    · rw [if_neg h2, if_pos (hmid h1)]; rfl
  · rw [if_neg h1, if_neg (show ¬ n ≤ e.curIter by omega)]
    by_cases h3 : e.taskOrder ≠ [] ∧ e.nextTask < e.taskOrder.length
    · rw [if_pos h3, if_pos h3]; rfl
    · rw [if_neg h3, if_neg h3]
      cases shuffle (List.range e.shared.pops.length) e.orderRng <;> rfl

theorem stepOne_longer (hw : Fl.lt (.fin 0) o.warmupMaxsizeBy = false) {np : Nat} {e : Engine K} (hi : e.Inv o np)
    (hnf : e.shared.finished = false) (hle : o.niterations ≤ n) {T : Nat} (hT : e.shared.counters.total ≤ T) (f : Bool) :
    ((e.withTotal T f).stepOne { o with niterations := n } d = none ∧ e.stepOne o d = none) ∨
    ∃ b e1 f', e.stepOne o d = some (b, e1) ∧ (e.withTotal T f).stepOne { o with niterations := n } d = some (b, e1.withTotal T f') := by
  have hnf' : (e.withTotal T f).shared.finished = false := by
    unfold Shared.finished at hnf ⊢
    simp only [beq_eq_false_iff_ne, ne_eq, Engine.withTotal, Shared.withTotal] at hnf ⊢
    omega
  obtain ⟨e1, hp, -, hs, -⟩ := prepare_spec hi hnf
  have hp' := prepare_longer hi hnf hle T f
  rw [hp, Option.map_some] at hp'
  unfold Engine.stepOne
  rw [hnf, hnf', hp, hp']
  simp only [Bool.false_eq_true, if_false, Option.bind_eq_bind, Option.bind_some]
  unfold Engine.runNext
  have hnf1 : (e1.withTotal T f).shared.finished = false := by
    show (e1.shared.withTotal T).finished = false
    rw [hs]; exact hnf'
  rw [hnf1, hs, hnf]
  simp only [Bool.false_eq_true, if_false, Option.bind_eq_bind]
  show ((e1.taskOrder[e1.nextTask]?).bind _ = none ∧ _) ∨ ∃ b e2 f', _ ∧ (e1.taskOrder[e1.nextTask]?).bind _ = _
  cases e1.taskOrder[e1.nextTask]? with
  | none => exact .inl ⟨rfl, rfl⟩
  | some i =>
    simp only [Option.bind_some]
    have hd : (e1.withTotal T f).shared.dispatch { o with niterations := n } i = (e.shared.dispatch o i).map fun x => (x.1, x.2.withTotal T) := by
      show (e1.shared.withTotal T).dispatch _ i = _
      rw [dispatch_longer hw, hs]
    rw [hd]
    rcases e.shared.dispatch o i with - | ⟨- | t, s⟩
    · exact .inl ⟨rfl, rfl⟩
    · refine .inr ⟨true, _, f, rfl, ?_⟩
      rw [← hs]; rfl
    · simp only [Option.map_some, Option.bind_some]
      unfold Engine.complete
      simp only [run_niterations, Option.bind_eq_bind]
      cases t.run o d with
      | none => exact .inl ⟨rfl, rfl⟩
      | some r =>
        simp only [Option.bind_some]
        rw [apply_longer]
        cases s.apply o r with
        | none => exact .inl ⟨rfl, rfl⟩
        | some s' =>
          simp only [Option.map_some, Option.bind_some]
          exact .inr ⟨true, _, _, rfl, rfl⟩

theorem step_longer (hw : Fl.lt (.fin 0) o.warmupMaxsizeBy = false) {np : Nat} (hle : o.niterations ≤ n) {T : Nat} :
    ∀ (k : Nat) {e : Engine K} (f : Bool), e.Inv o np → e.shared.counters.completed + k ≤ e.shared.counters.total → e.shared.counters.total ≤ T →
    ((e.withTotal T f).step { o with niterations := n } d k = none ∧ e.step o d k = none) ∨
    ∃ e1 f', e.step o d k = some (k, e1) ∧ (e.withTotal T f).step { o with niterations := n } d k = some (k, e1.withTotal T f') := by
  intro k
  induction k with
  | zero => intro e f _ _ _; exact .inr ⟨e, f, rfl, rfl⟩
  | succ k ih =>
    intro e f hi hk hT
    have hnf : e.shared.finished = false := by
      unfold Shared.finished
      simp only [beq_eq_false_iff_ne, ne_eq]; omega
    rw [step_succ, step_succ]
    rcases stepOne_longer (d := d) hw hi hnf hle hT f with ⟨h1, h2⟩ | ⟨b, e1, f', h1, h2⟩
    · rw [h1, h2]; exact .inl ⟨rfl, rfl⟩
    · obtain ⟨rfl, hi1, hc, -⟩ := stepOne_spec hi hnf h1
      rw [h1, h2]
      simp only [Option.bind_some, if_true]
      have htot : e1.shared.counters.total = e.shared.counters.total := by rw [hi1.total, hi.total]
      rcases ih f' hi1 (by omega) (by omega) with ⟨h3, h4⟩ | ⟨e2, f2, h3, h4⟩
      · rw [h3, h4]; exact .inl ⟨rfl, rfl⟩
      · rw [h3, h4]; exact .inr ⟨e2, f2, rfl, rfl⟩

/-- C91: if the size limit is not warmed up, a search with more iterations, with the same seeds, is in the same state as the shorter
search after every number of cycles the shorter one has - or both panic. -/
theorem C91_stepwise (hw : Fl.lt (.fin 0) o.warmupMaxsizeBy = false) (hle : o.niterations ≤ n) (seeds : Nat → Rng (Fl K)) (orderRng : Rng (Fl K))
    (k : Nat) (hk : k ≤ o.niterations * o.populations) :
    Option.Rel (fun r r' => r.1 = k ∧ r'.1 = k ∧ r.2.SameSoFar r'.2) ((Engine.new o d seeds orderRng).bind fun e => e.step o d k)
      ((Engine.new { o with niterations := n } d seeds orderRng).bind fun e => e.step { o with niterations := n } d k) := by
  unfold Engine.new
  rw [init_longer (o := o) n]
  cases h : Shared.init o d seeds with
  | none => exact .none
  | some s =>
    have hf := (init_budgeted h).2
    have hi : (⟨s, orderRng, 0, [], 0, false⟩ : Engine K).Inv o o.populations := Engine.Fresh.inv ⟨hf, rfl, rfl, rfl⟩
    simp only [Option.map_some, Option.bind_some]
    rcases step_longer (d := d) (T := n * o.populations) hw hle k false hi (by
        show s.counters.completed + k ≤ s.counters.total
        rw [hf.total, hf.completed]; omega) (by
        show s.counters.total ≤ _
        rw [hf.total]; exact Nat.mul_le_mul_right _ hle) with ⟨h1, h2⟩ | ⟨e1, f', h1, h2⟩
    · rw [h2]
      rw [show (⟨s, orderRng, 0, [], 0, false⟩ : Engine K).withTotal (n * o.populations) false =
        ⟨s.withTotal (n * o.populations), orderRng, 0, [], 0, false⟩ from rfl] at h1
      rw [h1]
      exact .none
    · rw [h1]
      rw [show (⟨s, orderRng, 0, [], 0, false⟩ : Engine K).withTotal (n * o.populations) false =
        ⟨s.withTotal (n * o.populations), orderRng, 0, [], 0, false⟩ from rfl] at h2
      rw [h2]
      exact .some ⟨rfl, rfl, e1.withTotal_same _ _⟩

/-! ## The multi-worker driver -/

/-- The same driver with another total. -/
def Par.withTotal (p : Par K) (T : Nat) : Par K := { p with shared := p.shared.withTotal T }

omit [Field K] [LinearOrder K] E in
theorem Par.withTotal_same (p : Par K) (T : Nat) : p.SameSoFar (p.withTotal T) := ⟨p.shared.withTotal_same T, rfl, rfl, rfl, rfl, rfl, rfl, rfl⟩

theorem parStep_longer (hw : Fl.lt (.fin 0) o.warmupMaxsizeBy = false) {nw : Nat} (hle : o.niterations ≤ n) {T : Nat} {p q : Par K} {ev : ParEvent}
    (h : ParStep o d nw p ev q) : ParStep { o with niterations := n } d nw (p.withTotal T) ev (q.withTotal T) := by
  cases h with
  | start h1 h2 h3 => exact .start h1 (show p.iter < n by omega) h3
  | enter h1 h2 => exact .enter h1 h2
  | leave h1 h2 => exact .leave h1 h2
  | dispatch h1 h2 h3 h4 =>
    refine .dispatch (p := p.withTotal T) h1 h2 h3 ?_
    show (p.shared.withTotal T).dispatch _ _ = _
    rw [dispatch_longer hw, h4]; rfl
  | @skip i s h1 h2 h3 h4 =>
    refine .skip (p := p.withTotal T) (s := s.withTotal T) h1 h2 h3 ((dispatch_longer hw p.shared T i).trans ?_)
    rw [h4]; rfl
  | receive h1 h2 h3 h4 h5 =>
    refine .receive (p := p.withTotal T) h1 h2 h3 (by rw [run_niterations]; exact h4) ?_
    show (p.shared.withTotal T).apply _ _ = _
    rw [apply_longer, h5]; rfl

/-- What the longer search does in an iteration that the shorter one has, the shorter one can do. -/
theorem parStep_shorter (hw : Fl.lt (.fin 0) o.warmupMaxsizeBy = false) {nw : Nat} {T : Nat} {p q' : Par K} {ev : ParEvent}
    (h : ParStep { o with niterations := n } d nw (p.withTotal T) ev q') (hi : q'.iter ≤ o.niterations) :
    ∃ q, q' = q.withTotal T ∧ ParStep o d nw p ev q := by
  cases h with
  | @start order rng h1 h2 h3 => exact ⟨_, rfl, .start h1 (show p.iter + 1 ≤ _ from hi) h3⟩
  | enter h1 h2 => exact ⟨_, rfl, .enter h1 h2⟩
  | leave h1 h2 => exact ⟨_, rfl, .leave h1 h2⟩
  | @dispatch i t s h1 h2 h3 h4 =>
    change (p.shared.withTotal T).dispatch _ _ = _ at h4
    rw [dispatch_longer hw, Option.map_eq_some_iff] at h4
    obtain ⟨⟨t', s'⟩, h4, h5⟩ := h4
    simp only [Prod.mk.injEq] at h5
    obtain ⟨rfl, rfl⟩ := h5
    exact ⟨_, rfl, .dispatch h1 h2 h3 h4⟩
  | @skip i s h1 h2 h3 h4 =>
    change (p.shared.withTotal T).dispatch _ _ = _ at h4
    rw [dispatch_longer hw, Option.map_eq_some_iff] at h4
    obtain ⟨⟨t', s'⟩, h4, h5⟩ := h4
    simp only [Prod.mk.injEq] at h5
    obtain ⟨rfl, -⟩ := h5
    exact ⟨_, rfl, .skip h1 h2 h3 h4⟩
  | @receive l r t res s h1 h2 h3 h4 h5 =>
    change (p.shared.withTotal T).apply _ _ = _ at h5
    rw [apply_longer, Option.map_eq_some_iff] at h5
    obtain ⟨s', h5, rfl⟩ := h5
    rw [run_niterations] at h4
    exact ⟨_, rfl, .receive h1 h2 h3 h4 h5⟩

theorem parStep_iter {nw : Nat} {p q : Par K} {ev : ParEvent} (h : ParStep o d nw p ev q) :
    q.iter = p.iter ∨ (p.pc = .idle ∧ q.iter = p.iter + 1) := by
  cases h with
  | start h1 _ _ => exact .inr ⟨h1, rfl⟩
  | enter => exact .inl rfl
  | leave => exact .inl rfl
  | dispatch => exact .inl rfl
  | skip => exact .inl rfl
  | receive => exact .inl rfl

theorem parNew_longer (n : Nat) (seeds : Nat → Rng (Fl K)) (orderRng : Rng (Fl K)) :
    Par.new { o with niterations := n } d seeds orderRng = (Par.new o d seeds orderRng).map fun p => p.withTotal (n * o.populations) := by
  unfold Par.new
  rw [init_longer (o := o) n]
  cases Shared.init o d seeds <;> rfl

/-- C91: whatever the workers do, every execution of the shorter multi-worker search is, event by event, one of the longer search; and
every execution of the longer one is one of the shorter as long as the iteration it is in is one that the shorter one has. -/
theorem C91_parallel (hw : Fl.lt (.fin 0) o.warmupMaxsizeBy = false) (hle : o.niterations ≤ n) (seeds : Nat → Rng (Fl K)) (orderRng : Rng (Fl K))
    (nw : Nat) {p p' : Par K} (hp : Par.new o d seeds orderRng = some p) (hp' : Par.new { o with niterations := n } d seeds orderRng = some p') :
    (∀ tr q, ParRun o d nw p tr q → ∃ q', q.SameSoFar q' ∧ ParRun { o with niterations := n } d nw p' tr q') ∧
    (∀ tr q', ParRun { o with niterations := n } d nw p' tr q' → q'.iter ≤ o.niterations → ∃ q, q.SameSoFar q' ∧ ParRun o d nw p tr q) := by
  rw [parNew_longer (o := o) n, hp, Option.map_some, Option.some.injEq] at hp'
  subst hp'
  constructor
  · intro tr q h
    refine ⟨_, q.withTotal_same (n * o.populations), ?_⟩
    induction h with
    | refl => exact .refl _
    | snoc _ hs ih => exact .snoc ih (parStep_longer hw hle hs)
  · intro tr q' h hi
    suffices hq : ∃ q, q' = q.withTotal (n * o.populations) ∧ ParRun o d nw p tr q by
      obtain ⟨q, rfl, hr⟩ := hq
      exact ⟨q, q.withTotal_same _, hr⟩
    generalize hg : p.withTotal (n * o.populations) = p' at h
    induction h with
    | refl => exact ⟨p, hg.symm, .refl _⟩
    | @snoc q1 q2 tr e h1 hs ih =>
      obtain ⟨q, rfl, hq⟩ := ih (by
        rcases parStep_iter hs with h | ⟨-, h⟩ <;> omega)
      obtain ⟨q', rfl, hq'⟩ := parStep_shorter hw hs hi
      exact ⟨q', rfl, .snoc hq hq'⟩

/-! ## A longer search is never worse -/

/-- C91: a longer search ends with a hall of fame and a best member that are not worse than those of the shorter search. -/
theorem C91_not_worse (hw : Fl.lt (.fin 0) o.warmupMaxsizeBy = false) (hle : o.niterations ≤ n) (seeds : Nat → Rng (Fl K)) (orderRng : Rng (Fl K))
    (hlt : o.populations * o.populationSize < 2 ^ 64) {e e1 e' e2 : Engine K} {k m : Nat} (he : Engine.new o d seeds orderRng = some e)
    (h1 : e.step o d k = some (k, e1)) (he' : Engine.new { o with niterations := n } d seeds orderRng = some e')
    (hk : k ≤ o.niterations * o.populations) {M : Nat} (hm : k ≤ M)
    (h2 : e'.step { o with niterations := n } d M = some (m, e2)) : e1.shared.NotWorse e2.shared := by
  have hrel := C91_stepwise (d := d) hw hle seeds orderRng k hk
  rw [he, he', Option.bind_some, Option.bind_some, h1] at hrel
  obtain ⟨j, rfl⟩ : ∃ j, M = k + j := ⟨M - k, by omega⟩
  rw [C45_compositional] at h2
  rw [Option.bind_eq_some_iff] at h2
  obtain ⟨⟨k', e3⟩, h3, h2⟩ := h2
  rw [h3] at hrel
  cases hrel with
  | some hrel =>
    obtain ⟨-, -, hs⟩ := hrel
    rw [Option.map_eq_some_iff] at h2
    obtain ⟨⟨j', e4⟩, h4, h2⟩ := h2
    simp only [Prod.mk.injEq] at h2
    obtain ⟨-, rfl⟩ := h2
    have hev : e'.shared.totalEvals < 2 ^ 64 := by
      unfold Engine.new at he'
      rw [Option.map_eq_some_iff] at he'
      obtain ⟨s, hs, rfl⟩ := he'
      simp only [Shared.init, Option.bind_eq_bind, Option.bind_eq_some_iff, Option.some.injEq] at hs
      obtain ⟨⟨pops, hall⟩, h1, best, -, bestSub, h3, rfl⟩ := hs
      exact hlt
    have hp := C46_stepwise j (C46_stepwise k hev h3).evalsLt h4
    have hs := hs.shared
    exact ⟨hs.hall ▸ hp.hall, hs.best ▸ hp.best⟩

theorem parRun_idle {nw : Nat} {p q : Par K} {tr : List ParEvent} {N : Nat} (h : ParRun o d nw p tr q) (hp : p.pc = .idle) (hi : p.iter ≤ N)
    (hN : N ≤ q.iter) (hq : N < q.iter ∨ q.pc = .idle) :
    ∃ tr1 tr2 q1, tr = tr1 ++ tr2 ∧ ParRun o d nw p tr1 q1 ∧ ParRun o d nw q1 tr2 q ∧ q1.pc = .idle ∧ q1.iter = N := by
  induction h with
  | refl => exact ⟨[], [], p, rfl, .refl _, .refl _, hp, by omega⟩
  | @snoc q r tr ev h1 hs ih =>
    by_cases hr : r.iter = N
    · exact ⟨tr ++ [ev], [], r, by simp, .snoc h1 hs, .refl _, hq.resolve_left (by omega), hr⟩
    · have key : N ≤ q.iter ∧ (N < q.iter ∨ q.pc = .idle) := by
        rcases parStep_iter hs with h | ⟨h0, h⟩
        · exact ⟨by omega, .inl (by omega)⟩
        · exact ⟨by omega, .inr h0⟩
      obtain ⟨tr1, tr2, q1, rfl, a, b, c⟩ := ih key.1 key.2
      exact ⟨tr1, tr2 ++ [ev], q1, by simp, a, .snoc b hs, c⟩

/-- C91: every complete execution of the longer multi-worker search begins with a complete execution of the shorter one, and ends
with a hall of fame and a best member that are not worse. -/
theorem C91_parallel_not_worse (hw : Fl.lt (.fin 0) o.warmupMaxsizeBy = false) (hle : o.niterations ≤ n) (seeds : Nat → Rng (Fl K))
    (orderRng : Rng (Fl K)) (hlt : o.populations * o.populationSize < 2 ^ 64) (nw : Nat) {p p' : Par K}
    (hp : Par.new o d seeds orderRng = some p) (hp' : Par.new { o with niterations := n } d seeds orderRng = some p') {tr : List ParEvent}
    {q' : Par K} (hr : ParRun { o with niterations := n } d nw p' tr q') (hf : q'.Final { o with niterations := n }) :
    ∃ tr1 tr2 q, tr = tr1 ++ tr2 ∧ ParRun o d nw p tr1 q ∧ q.Final o ∧ q.shared.NotWorse q'.shared := by
  have hfresh : p'.pc = .idle ∧ p'.iter = 0 ∧ p'.shared.totalEvals < 2 ^ 64 := by
    have hp'' := hp'
    unfold Par.new at hp''
    rw [Option.map_eq_some_iff] at hp''
    obtain ⟨s, hs, rfl⟩ := hp''
    simp only [Shared.init, Option.bind_eq_bind, Option.bind_eq_some_iff, Option.some.injEq] at hs
    obtain ⟨⟨pops, hall⟩, h1, best, -, bestSub, h3, rfl⟩ := hs
    exact ⟨rfl, rfl, hlt⟩
  obtain ⟨hpc, hit, hev⟩ := hfresh
  have hn : n ≤ q'.iter := hf.2
  obtain ⟨tr1, tr2, q1, rfl, h1, h2, h3, h4⟩ := parRun_idle (N := o.niterations) hr hpc (by omega) (by omega) (.inr hf.1)
  obtain ⟨q, hs, hq⟩ := (C91_parallel (d := d) hw hle seeds orderRng nw hp hp').2 tr1 q1 h1 h4.le
  refine ⟨tr1, tr2, q, rfl, hq, ⟨hs.pc.symm.trans h3, ?_⟩, ?_⟩
  · rw [← hs.iter, h4]
  · have hprog := C46_parallel (C46_parallel hev h1).evalsLt h2
    exact ⟨hs.shared.hall ▸ hprog.hall, hs.shared.best ▸ hprog.best⟩

end SR

namespace SR.Demo
local instance instLonger : Env ℚ := env

/-- C91, the exception: with a warm-up the limit on the size of the expressions in a cycle depends on how many cycles there will be.
Here the size limit of the second cycle is 5 in a search of two cycles and 4 in one of four. -/
theorem _root_.SR.C91_warmup_differs :
    ∃ o : SOptions ℚ, getCurMaxsize o 2 (2 - 1) = some 5 ∧ getCurMaxsize o 4 (4 - 1) = some 4 :=
  ⟨{ smallOpts 1 with maxsize := 7, warmupMaxsizeBy := .fin 1 }, by decide +kernel, by decide +kernel⟩

/-- C91 applies: for all random numbers, the search of C64 with two iterations and the same search with any larger number of
iterations both get through four cycles, and are then in the same state. -/
example (seeds : Nat → Rng (Fl ℚ)) (orderRng : Rng (Fl ℚ)) (n : Nat) (hn : 2 ≤ n) :
    ∃ e e1 e' e1', Engine.new (runOpts false) data seeds orderRng = some e ∧ e.step (runOpts false) data 4 = some (4, e1) ∧
      Engine.new { runOpts false with niterations := n } data seeds orderRng = some e' ∧
      e'.step { runOpts false with niterations := n } data 4 = some (4, e1') ∧ e1.SameSoFar e1' := by
  have h := C91_stepwise (o := runOpts false) (d := data) (n := n) (by decide) hn seeds orderRng 4 (by decide)
  obtain ⟨e, he, hs⟩ := C64_stepwise_without_migration (runSetting false) rfl rfl seeds orderRng
  obtain ⟨⟨k, e1⟩, h1⟩ := Option.isSome_iff_exists.mp (hs 4)
  rw [he, Option.bind_some, h1] at h
  cases hb : (Engine.new { runOpts false with niterations := n } data seeds orderRng).bind
      fun e => e.step { runOpts false with niterations := n } data 4 with
  | none => rw [hb] at h; cases h
  | some r =>
    rw [hb] at h
    obtain ⟨k', e1'⟩ := r
    cases h with
    | some h =>
      obtain ⟨h2, h3, h4⟩ := h
      simp only at h2 h3 h4
      subst h2 h3
      obtain ⟨e', he', h5⟩ := Option.bind_eq_some_iff.mp hb
      exact ⟨e, e1, e', e1', he, h1, he', h5, h4⟩

end SR.Demo
