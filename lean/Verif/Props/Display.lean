import Verif.Spec.Display
import Verif.Props.Engine
import Verif.Props.Schedule
import Verif.Props.Wrap
import Verif.Proofs.Stats
import Verif.Spec.Demo
import Mathlib.Tactic.Ring
import Mathlib.Tactic.FieldSimp
/-
C80: the progress display tells the truth about the search.
-/
namespace SR
variable {K : Type} [Field K] [LinearOrder K] [E : Env K]
variable {o : SOptions K} {full : Dataset K} {np nw : Nat} {X : DisplayText K}

theorem truncate_eq (s : List Char) (width : Nat) : truncateToWidth s width = s.take (width - 1) := by
  rw [truncateToWidth]
  split
  · next h => rw [List.take_of_length_le h]
  · rfl

theorem formatHall_total (w : Nat) (rows : List (Nat × List Char × List Char)) (n : Nat) :
    ∃ out, formatHall w n rows = some out ∧ ∀ l ∈ out, l.length ≤ max w 80 - 1 := by
  have key : ∀ rows : List (Nat × List Char × List Char), ∃ body : List (List (List Char)),
      rows.mapM (fun r => rowLines (max w 80) (statsText r.1 r.2.1) r.2.2) = some body ∧
      ∀ ls ∈ body, ∀ l ∈ ls, l.length ≤ max w 80 - 1 := by
    intro rows
    induction rows with
    | nil => exact ⟨[], rfl, by simp⟩
    | cons r rows ih =>
      obtain ⟨body, h1, h2⟩ := ih
      obtain ⟨cs, e1, -, e3⟩ := C54_row_cut (max w 80) (statsText r.1 r.2.1) r.2.2
      refine ⟨_ :: body, by rw [List.mapM_cons, e1, h1]; rfl, ?_⟩
      intro ls hls
      rcases List.mem_cons.mp hls with rfl | hls
      · exact e3
      · exact h2 ls hls
  obtain ⟨body, h1, h2⟩ := key (rows.take n)
  refine ⟨_, by unfold formatHall; simp only [h1, Option.bind_eq_bind, Option.bind_some]; rfl, ?_⟩
  intro l hl
  rcases List.mem_cons.mp hl with rfl | hl
  · rw [List.length_replicate]
  rcases List.mem_cons.mp hl with rfl | hl
  · rw [truncate_eq, List.length_take]; omega
  rcases List.mem_append.mp hl with hl | hl
  · obtain ⟨ls, hls, hl⟩ := List.mem_flatten.mp hl
    exact h2 ls hls l hl
  · rw [List.mem_singleton.mp hl, List.length_replicate]

/-- C80: whatever the hall of fame, the numbers, the clock and the terminal, the display never panics. -/
theorem C80_never_panics (d : Display K) (s : Shared K) (k : Tick) : ∃ d', d.applied X s k = some d' := by
  unfold Display.applied Display.onCycle
  split
  · unfold Display.refresh
    split
    · exact ⟨_, rfl⟩
    · obtain ⟨out, h, -⟩ := formatHall_total (max k.width 80) (hallRows X s.hall) usizeMax
      unfold messageLines
      rw [h]
      exact ⟨_, rfl⟩
  · exact ⟨_, rfl⟩

/-- C80: no line of a message is longer than the terminal is wide (or 79 characters, on a narrower terminal). -/
theorem C80_width {start clock evals0 : Nat} {pre : List (Shared K × Tick)} {s : Shared K} {k : Tick}
    {ls : List (List Char)} (h : IsMessage X start clock evals0 pre s k ls) : ∀ l ∈ ls, l.length < max k.width 80 := by
  obtain ⟨table, ht, rfl⟩ := h
  obtain ⟨out, h1, h2⟩ := formatHall_total (max k.width 80)
    (s.hall.paretoFront.map fun m => (m.complexity, X.loss m.loss, X.equation m)) usizeMax
  rw [ht] at h1
  obtain rfl := Option.some.inj h1
  intro l hl
  rcases List.mem_cons.mp hl with rfl | hl
  · rw [List.length_take]; omega
  rcases List.mem_cons.mp hl with rfl | hl
  · have : "Hall of Fame:".toList.length = 13 := by decide
    omega
  · have := h2 l hl; omega

/-! ## The window of speeds -/

theorem speedMarks_snoc (x : Nat × Nat) (l : List (Nat × Nat)) (m y : Nat × Nat)
    (hy : (speedMarks m l).getLast? = some y) :
    speedMarks m (l ++ [x]) = if 1000000000 ≤ x.1 - y.1 then speedMarks m l ++ [x] else speedMarks m l := by
  induction l generalizing m with
  | nil =>
    simp only [speedMarks, List.getLast?_singleton, Option.some.injEq] at hy
    subst hy
    simp only [List.nil_append, speedMarks, List.cons_append]
  | cons z l ih =>
    simp only [List.cons_append, speedMarks] at hy ⊢
    by_cases hz : 1000000000 ≤ z.1 - m.1
    · simp only [if_pos hz] at hy ⊢
      rw [List.getLast?_cons] at hy
      have hne : speedMarks z l ≠ [] := by
        clear hy ih
        induction l generalizing z with
        | nil => simp [speedMarks]
        | cons w l ih => unfold speedMarks; split <;> simp_all
      obtain ⟨v, hv⟩ : ∃ v, (speedMarks z l).getLast? = some v := ⟨_, List.getLast?_eq_some_getLast hne⟩
      rw [hv] at hy
      obtain rfl := Option.some.inj hy
      rw [ih z hv]
      simp only [Option.getD_some]
      split <;> rfl
    · simp only [if_neg hz] at hy ⊢
      exact ih m hy

theorem zipWith_snoc {α β : Type} (f : α → α → β) (x y : α) : ∀ (l : List α) (_ : l.getLast? = some y),
    List.zipWith f (l ++ [x]) (l ++ [x]).tail = List.zipWith f l l.tail ++ [f y x]
  | [], h => by simp at h
  | [a], h => by simp at h; subst h; rfl
  | a :: b :: l, h => by
    have := zipWith_snoc f x y (b :: l) (by rw [List.getLast?_cons_cons] at h; exact h)
    simp only [List.cons_append, List.tail_cons] at this ⊢
    rw [List.zipWith_cons_cons, this]
    rfl

theorem lastN_snoc {α : Type} (n : Nat) (l : List α) (v : α) :
    lastN (n + 1) (l ++ [v]) = if n + 1 < (lastN (n + 1) l ++ [v]).length then (lastN (n + 1) l ++ [v]).tail
      else lastN (n + 1) l ++ [v] := by
  unfold lastN
  simp only [List.length_append, List.length_drop, List.length_cons, List.length_nil]
  by_cases h : n + 1 ≤ l.length
  · rw [if_pos (by omega)]
    rw [List.drop_append_of_le_length (by omega), show l.length + (0 + 1) - (n + 1) = (l.length - (n + 1)) + 1 by omega,
      ← List.drop_drop]
    have hne : l.drop (l.length - (n + 1)) ≠ [] := by
      intro h0
      have := congrArg List.length h0
      rw [List.length_drop] at this
      simp at this; omega
    cases hx : l.drop (l.length - (n + 1)) with
    | nil => exact absurd hx hne
    | cons a b => rfl
  · rw [if_neg (by omega), show l.length + (0 + 1) - (n + 1) = 0 by omega, show l.length - (n + 1) = 0 by omega]
    rfl

/-! ## One cycle -/

/-- `Tells`, with the internal clocks. -/
structure Display.Inv (X : DisplayText K) (start clock evals0 total : Nat) (log : List (Shared K × Tick))
    (d : Display K) : Prop where
  shown : d.shown = true
  length : d.length = total
  pos : d.pos = log.length
  startTime : d.startTime = start
  mark : (speedMarks (clock, evals0) (log.map fun x => (x.2.now, x.1.totalEvals))).getLast? =
    some (d.tracking.lastSpeedTime, d.tracking.evalsLast)
  speeds : d.tracking.speeds = recentSpeeds clock evals0 log
  message :
    (d.message = none ∧ d.tracking.lastMsgUpdate = start ∧ ∀ x ∈ log, x.2.now - start < 500000000 ∧ x.1.left ≠ 0) ∨
    ∃ pre s k post ls, log = pre ++ (s, k) :: post ∧ d.message = some ls ∧ IsMessage X start clock evals0 pre s k ls ∧
      d.tracking.lastMsgUpdate = k.now ∧ ∀ x ∈ post, x.2.now - k.now < 500000000 ∧ x.1.left ≠ 0

theorem Display.Inv.tells {start clock evals0 total : Nat} {log : List (Shared K × Tick)} {d : Display K}
    (h : d.Inv X start clock evals0 total log) : d.Tells X start clock evals0 total log where
  length := h.length
  pos := h.pos
  message := by
    rcases h.message with ⟨h1, -, h3⟩ | ⟨pre, s, k, post, ls, h1, h2, h3, -, h5⟩
    · exact .inl ⟨h1, h3⟩
    · exact .inr ⟨pre, s, k, post, ls, h1, h2, h3, h5⟩

theorem Display.begin_inv (s : Shared K) (start clock : Nat) :
    (Display.begin true true s start clock).Inv X start clock s.totalEvals s.counters.total [] where
  shown := rfl
  length := rfl
  pos := rfl
  startTime := rfl
  mark := rfl
  speeds := rfl
  message := .inl ⟨rfl, rfl, by simp⟩

theorem measure_lastMsg (t : Tracking K) (e n : Nat) : (t.measure e n).lastMsgUpdate = t.lastMsgUpdate := by
  unfold Tracking.measure; split <;> rfl

theorem measure_spec {start clock evals0 total : Nat} {log : List (Shared K × Tick)} {d : Display K}
    (h : d.Inv X start clock evals0 total log) (s : Shared K) (k : Tick) :
    (speedMarks (clock, evals0) ((log ++ [(s, k)]).map fun x => (x.2.now, x.1.totalEvals))).getLast? =
      some ((d.tracking.measure s.totalEvals k.now).lastSpeedTime, (d.tracking.measure s.totalEvals k.now).evalsLast) ∧
    (d.tracking.measure s.totalEvals k.now).speeds = recentSpeeds clock evals0 (log ++ [(s, k)]) := by
  have hm := h.mark
  have hs := h.speeds
  unfold recentSpeeds at hs ⊢
  simp only [List.map_append, List.map_cons, List.map_nil, speedMarks_snoc _ _ _ _ hm] at hs ⊢
  generalize speedMarks (clock, evals0) (log.map fun x => (x.2.now, x.1.totalEvals)) = M at hm hs ⊢
  unfold Tracking.measure
  by_cases hc : 1000000000 ≤ k.now - d.tracking.lastSpeedTime
  · simp only [if_pos hc]
    refine ⟨by simp, ?_⟩
    rw [zipWith_snoc _ _ _ _ hm, lastN_snoc, ← hs]
    rfl
  · simp only [if_neg hc]
    exact ⟨hm, hs⟩

theorem applied_inv {start clock evals0 total : Nat} {log : List (Shared K × Tick)} {d d' : Display K} {s : Shared K}
    {k : Tick} (h : d.Inv X start clock evals0 total log) (ha : d.applied X s k = some d') :
    d'.Inv X start clock evals0 total (log ++ [(s, k)]) ∧ d'.closed = d.closed := by
  obtain ⟨hm, hs⟩ := measure_spec h s k
  unfold Display.applied Display.onCycle at ha
  rw [if_pos h.shown] at ha
  unfold Display.refresh at ha
  simp only [measure_lastMsg] at ha
  by_cases hc : k.now - d.tracking.lastMsgUpdate < 500000000 ∧ s.counters.total - s.counters.completed ≠ 0
  · rw [if_pos hc] at ha
    obtain rfl := Option.some.inj ha
    refine ⟨⟨h.shown, h.length, by simp [h.pos], h.startTime, hm, hs, ?_⟩, rfl⟩
    rcases h.message with ⟨h1, h2, h3⟩ | ⟨pre, s1, k1, post, ls, h1, h2, h3, h4, h5⟩
    · refine .inl ⟨h1, by rw [← h2]; exact measure_lastMsg _ _ _, ?_⟩
      intro x hx
      rcases List.mem_append.mp hx with hx | hx
      · exact h3 x hx
      · obtain rfl := List.mem_singleton.mp hx
        rw [h2] at hc
        exact hc
    · refine .inr ⟨pre, s1, k1, post ++ [(s, k)], ls, by simp [h1], h2, h3, by rw [← h4]; exact measure_lastMsg _ _ _, ?_⟩
      intro x hx
      rcases List.mem_append.mp hx with hx | hx
      · exact h5 x hx
      · obtain rfl := List.mem_singleton.mp hx
        rw [h4] at hc
        exact hc
  · rw [if_neg hc, Option.map_eq_some_iff] at ha
    obtain ⟨ls, hl, rfl⟩ := ha
    refine ⟨⟨h.shown, h.length, by simp [h.pos], h.startTime, hm, hs, .inr ⟨log, s, k, [], ls, rfl, rfl, ?_, rfl, by simp⟩⟩, rfl⟩
    unfold messageLines at hl
    rw [Option.map_eq_some_iff] at hl
    obtain ⟨table, ht, rfl⟩ := hl
    refine ⟨table, ht, ?_⟩
    rw [truncate_eq, truncate_eq, ← hs, h.startTime]
    congr 2
    rw [List.take_of_length_le]
    have : "Hall of Fame:".toList.length = 13 := by decide
    omega

/-! ## The multi-worker driver -/

theorem ParShown.run {p0 p : Par K} {d0 d : Display K} {log : List (Shared K × Tick)}
    (h : ParShown o full nw X p0 d0 p d log) : ∃ tr, ParRun o full nw p0 tr p := by
  induction h with
  | init => exact ⟨_, .refl _⟩
  | quiet _ hs _ ih => obtain ⟨tr, ih⟩ := ih; exact ⟨_, .snoc ih hs⟩
  | cycle _ hs _ ih => obtain ⟨tr, ih⟩ := ih; exact ⟨_, .snoc ih hs⟩

theorem applied_hidden {d d' : Display K} {s : Shared K} {k : Tick} (hd : d.shown = false)
    (h : d.applied X s k = some d') : d' = d := by
  unfold Display.applied Display.onCycle at h
  rw [if_neg (by simp [hd])] at h
  exact (Option.some.inj h).symm

/-- C80: if the progress option is off, or standard error is not a terminal, the display never changes: there is no bar
and no message, during the search or at its end. -/
theorem C80_hidden {p0 p : Par K} {d : Display K} {log : List (Shared K × Tick)} {progress terminal : Bool}
    {start clock : Nat} (hoff : (progress && terminal) = false)
    (h : ParShown o full nw X p0 (Display.begin progress terminal p0.shared start clock) p d log) :
    d = Display.begin progress terminal p0.shared start clock ∧ d.finish = d ∧
    d.shown = false ∧ d.message = none ∧ d.pos = 0 := by
  have hs : (Display.begin (K := K) progress terminal p0.shared start clock).shown = false := hoff
  have key : d = Display.begin progress terminal p0.shared start clock := by
    induction h with
    | init => rfl
    | quiet _ _ _ ih => exact ih
    | cycle _ _ ha ih => subst ih; exact applied_hidden hs ha
  subst key
  refine ⟨rfl, ?_, hs, rfl, rfl⟩
  unfold Display.finish
  rw [if_neg (by simp [hs])]

theorem parShown_inv {p0 p : Par K} {d : Display K} {log : List (Shared K × Tick)} {start clock : Nat}
    (h0 : p0.Fresh o np)
    (h : ParShown o full nw X p0 (Display.begin true true p0.shared start clock) p d log) :
    d.Inv X start clock p0.shared.totalEvals (o.niterations * np) log ∧ d.closed = false ∧
    log.length = p.shared.counters.completed ∧
    ∀ s k, log.getLast? = some (s, k) → s.hall = p.shared.hall ∧ s.totalEvals = p.shared.totalEvals ∧
      s.left = o.niterations * np - log.length := by
  induction h with
  | init =>
    refine ⟨?_, rfl, h0.shared.completed.symm, by simp⟩
    have := Display.begin_inv (X := X) p0.shared start clock
    rwa [h0.shared.total] at this
  | quiet _ hs hq ih =>
    obtain ⟨h1, h2, h3, h4⟩ := ih
    refine ⟨h1, h2, ?_⟩
    cases hs with
    | start => exact ⟨h3, h4⟩
    | enter => exact ⟨h3, h4⟩
    | leave => exact ⟨h3, h4⟩
    | dispatch _ _ _ hd => obtain ⟨-, -, -, -, rfl⟩ := dispatch_task hd; exact ⟨h3, h4⟩
    | skip => exact ⟨h3, h4⟩
    | receive => exact absurd rfl (hq _)
  | cycle hp hs ha ih =>
    obtain ⟨h1, h2, h3, h4⟩ := ih
    obtain ⟨i1, i2⟩ := applied_inv h1 ha
    obtain ⟨tr, hr⟩ := hp.run
    have ht := ((h0.inv nw).run hr).total
    cases hs with
    | receive _ _ _ _ happ =>
      have hc := (apply_result happ).2.2.1
      refine ⟨i1, i2.trans h2, by rw [hc]; simp [h3], ?_⟩
      intro s' k' hl
      simp only [List.getLast?_append, List.getLast?_singleton, Option.some_or, Option.some.injEq, Prod.mk.injEq] at hl
      obtain ⟨rfl, -⟩ := hl
      refine ⟨rfl, rfl, ?_⟩
      unfold Shared.left
      rw [hc, ← ht]
      simp [h3]

/-- C80: at every moment of a run of the multi-worker driver, with whatever workers, completion orders, clock and
terminal: the bar has the length of the search and stands at the number of completed cycles, the message is as `Tells`
says, and the display is open; and the states it was told of are the current ones, one for each completed cycle. -/
theorem C80_parallel {p0 p : Par K} {d : Display K} {log : List (Shared K × Tick)} {start clock : Nat}
    (h0 : p0.Fresh o np)
    (h : ParShown o full nw X p0 (Display.begin true true p0.shared start clock) p d log) :
    d.Tells X start clock p0.shared.totalEvals (o.niterations * np) log ∧ d.closed = false ∧
    log.length = p.shared.counters.completed ∧
    ∀ s k, log.getLast? = some (s, k) → s.hall = p.shared.hall ∧ s.totalEvals = p.shared.totalEvals ∧
      s.left = o.niterations * np - log.length := by
  obtain ⟨h1, h2, h3, h4⟩ := parShown_inv h0 h
  exact ⟨h1.tells, h2, h3, h4⟩

/-- A display whose last cycle was the last of the search shows the message about it. -/
theorem Display.Tells.last {start clock evals0 total : Nat} {log : List (Shared K × Tick)} {d : Display K}
    (h : d.Tells X start clock evals0 total log) {s : Shared K} {k : Tick} (hl : log.getLast? = some (s, k))
    (h0 : s.left = 0) :
    ∃ pre ls, log = pre ++ [(s, k)] ∧ d.message = some ls ∧ IsMessage X start clock evals0 pre s k ls := by
  have hmem : (s, k) ∈ log := List.mem_of_getLast? hl
  rcases h.message with ⟨-, h1⟩ | ⟨pre, s1, k1, post, ls, h1, h2, h3, h4⟩
  · exact absurd h0 (h1 _ hmem).2
  · rcases List.eq_nil_or_concat post with rfl | ⟨post', x, rfl⟩
    · subst h1
      simp only [List.getLast?_append, List.getLast?_singleton, Option.some_or, Option.some.injEq, Prod.mk.injEq] at hl
      obtain ⟨rfl, rfl⟩ := hl
      exact ⟨pre, ls, rfl, h2, h3⟩
    · exfalso
      subst h1
      have hx : x = (s, k) := by
        rw [List.concat_eq_append, ← List.cons_append, ← List.append_assoc, List.getLast?_append] at hl
        simpa using hl
      subst hx
      exact (h4 (s, k) (by simp)).2 h0

/-- C80: when the search is over and something was to be done, the display is closed with the bar at its end, and its
message is about the final state: the hall of fame and the evaluation count that are returned, however fast the last
cycles came after each other. -/
theorem C80_final {p0 p : Par K} {d : Display K} {log : List (Shared K × Tick)} {start clock : Nat}
    (h0 : p0.Fresh o np)
    (h : ParShown o full nw X p0 (Display.begin true true p0.shared start clock) p d log)
    (hf : p.Final o) (hn : 0 < o.niterations * np) :
    d.finish.closed = true ∧ d.finish.pos = o.niterations * np ∧ d.pos = o.niterations * np ∧
    d.finish.length = o.niterations * np ∧
    ∃ pre s k ls, log = pre ++ [(s, k)] ∧ d.finish.message = some ls ∧
      IsMessage X start clock p0.shared.totalEvals pre s k ls ∧
      s.hall = p.shared.hall ∧ s.totalEvals = p.shared.totalEvals := by
  obtain ⟨h1, h2, h3, h4⟩ := parShown_inv h0 h
  obtain ⟨tr, hr⟩ := h.run
  have hc := (C44_complete h0 hr hf).2.2.2.1
  have hfin : d.finish = { d with pos := d.length, closed := true } := by
    unfold Display.finish; rw [if_pos h1.shown]
  have hll : log.length = o.niterations * np := h3.trans hc
  obtain ⟨⟨s, k⟩, hl⟩ : ∃ x, log.getLast? = some x := by
    cases hlog : log.getLast? with
    | some x => exact ⟨x, rfl⟩
    | none =>
      rw [List.getLast?_eq_none_iff] at hlog
      rw [hlog, List.length_nil] at hll
      omega
  obtain ⟨e1, e2, e3⟩ := h4 s k hl
  obtain ⟨pre, ls, g1, g2, g3⟩ := h1.tells.last hl (by rw [e3, hll]; omega)
  rw [hfin]
  exact ⟨rfl, h1.length, h1.pos.trans hll, h1.length, pre, s, k, ls, g1, g2, g3, e1, e2⟩

/-! ## The step-wise driver -/

theorem stepShown_spec {e e' : Engine K} {d d' : Display K} {b : Bool} {k : Tick}
    (h : e.stepShown o full X k d = some (b, e', d')) :
    e.stepOne o full = some (b, e') ∧ ∃ d1,
      (if e.shared.counters.completed < e'.shared.counters.completed then d.applied X e'.shared k else some d) = some d1 ∧
      d' = if e'.progressFinished && !e.progressFinished then d1.finish else d1 := by
  unfold Engine.stepShown at h
  simp only [Option.bind_eq_bind, Option.bind_eq_some_iff, Option.some.injEq, Prod.mk.injEq] at h
  obtain ⟨⟨b1, e1⟩, h1, d2, h2, rfl, rfl, rfl⟩ := h
  unfold Display.afterStep at h2
  rw [Option.map_eq_some_iff] at h2
  obtain ⟨d1, h2, rfl⟩ := h2
  exact ⟨h1, d1, h2, rfl⟩

/-- C80: a display that is off never changes under the step-wise driver either. -/
theorem C80_hidden_stepwise {e0 e : Engine K} {d : Display K} {log : List (Shared K × Tick)} {progress terminal : Bool}
    {start clock : Nat} (hoff : (progress && terminal) = false)
    (h : EngineShown o full X e0 (Display.begin progress terminal e0.shared start clock) e d log) :
    d = Display.begin progress terminal e0.shared start clock ∧ d.shown = false ∧ d.message = none ∧ d.pos = 0 := by
  have hs : (Display.begin (K := K) progress terminal e0.shared start clock).shown = false := hoff
  have key : d = Display.begin progress terminal e0.shared start clock := by
    induction h with
    | init => rfl
    | step _ hst ih =>
      subst ih
      obtain ⟨-, d1, h1, rfl⟩ := stepShown_spec hst
      have : d1 = Display.begin progress terminal e0.shared start clock := by
        split at h1
        · exact applied_hidden hs h1
        · exact (Option.some.inj h1).symm
      subst this
      have hfin : (Display.begin (K := K) progress terminal e0.shared start clock).finish =
          Display.begin progress terminal e0.shared start clock := by
        unfold Display.finish
        rw [if_neg (by simp [hs])]
      rw [hfin]
      split <;> rfl
  subst key
  exact ⟨rfl, hs, rfl, rfl⟩

theorem engineShown_inv {e0 e : Engine K} {d : Display K} {log : List (Shared K × Tick)} {start clock : Nat}
    (h0 : e0.Fresh o np) (hp0 : e0.progressFinished = false)
    (h : EngineShown o full X e0 (Display.begin true true e0.shared start clock) e d log) :
    d.Inv X start clock e0.shared.totalEvals (o.niterations * np) log ∧ d.closed = e.progressFinished ∧
    (e.progressFinished = true → e.shared.finished = true) ∧
    (0 < log.length → e.shared.finished = true → e.progressFinished = true) ∧
    e.Inv o np ∧ log.length = e.shared.counters.completed ∧
    ∀ s k, log.getLast? = some (s, k) → s = e.shared := by
  induction h with
  | init =>
    refine ⟨?_, hp0.symm, by simp [hp0], by simp, h0.inv, h0.shared.completed.symm, by simp⟩
    have := Display.begin_inv (X := X) e0.shared start clock
    rwa [h0.shared.total] at this
  | @step e e' d d' log b k _ hst ih =>
    obtain ⟨h1, h2, h3, h4, h5, h6, h7⟩ := ih
    obtain ⟨hs, d1, ha, rfl⟩ := stepShown_spec hst
    have hfinish : ∀ {l : List (Shared K × Tick)} {x : Display K}, x.Inv X start clock e0.shared.totalEvals (o.niterations * np) l →
        l.length = o.niterations * np → x.finish.Inv X start clock e0.shared.totalEvals (o.niterations * np) l ∧
        x.finish.closed = true := by
      intro l x hx hl
      unfold Display.finish
      rw [if_pos hx.shown]
      exact ⟨⟨hx.shown, hx.length, by rw [hl]; exact hx.length, hx.startTime, hx.mark, hx.speeds, hx.message⟩, rfl⟩
    cases hf : e.shared.finished with
    | true =>
      rw [stepOne_finished hf] at hs
      simp only [Option.some.injEq, Prod.mk.injEq] at hs
      obtain ⟨rfl, rfl⟩ := hs
      simp only [Nat.lt_irrefl, if_false, Option.some.injEq] at ha ⊢
      subst ha
      have hll : log.length = o.niterations * np ∨ o.niterations * np < log.length := by
        have := hf
        unfold Shared.finished at this
        rw [h5.total, beq_iff_eq] at this
        omega
      have hle : e.shared.counters.completed ≤ o.niterations * np := by
        rcases Nat.eq_zero_or_pos e.curIter with hz | hz
        · rw [(h5.fresh hz).2.2]; omega
        · obtain ⟨-, g2, g3⟩ := h5.running hz
          rw [g3]
          have := h5.iter
          calc (e.curIter - 1) * np + e.nextTask ≤ (e.curIter - 1) * np + np := by omega
            _ = e.curIter * np := by
              obtain ⟨c, hc⟩ : ∃ c, e.curIter = c + 1 := ⟨e.curIter - 1, by omega⟩
              rw [hc]; simp [Nat.succ_mul]
            _ ≤ _ := Nat.mul_le_mul_right _ this
      have hll : log.length = o.niterations * np := by omega
      have hinv : ({ e with progressFinished := true } : Engine K).Inv o np :=
        ⟨h5.pops, h5.present, h5.bestSub, h5.total, h5.started, h5.iter, h5.fresh, h5.running⟩
      cases hpf : e.progressFinished with
      | true =>
        simp only [Bool.not_true, Bool.and_false, Bool.false_eq_true, if_false]
        exact ⟨h1, by rw [h2, hpf], fun _ => hf, fun _ _ => trivial, hinv, h6, h7⟩
      | false =>
        simp only [Bool.not_false, Bool.and_true, if_true]
        obtain ⟨g1, g2⟩ := hfinish h1 hll
        exact ⟨g1, g2, fun _ => hf, fun _ _ => trivial, hinv, h6, h7⟩
    | false =>
      obtain ⟨rfl, hi', hc, e1, -, -, -, -, -, -, -, -, -, hee⟩ := stepOne_spec h5 hf hs
      have hpf : e.progressFinished = false := by
        cases hx : e.progressFinished with
        | false => rfl
        | true => rw [h3 hx] at hf; cases hf
      have hlt : e.shared.counters.completed < e'.shared.counters.completed := by omega
      rw [if_pos hlt] at ha ⊢
      obtain ⟨i1, i2⟩ := applied_inv h1 ha
      have hpf' : e'.progressFinished = e'.shared.finished := by
        rw [hee]; simp [hpf]
      have hlen : (log ++ [(e'.shared, k)]).length = e'.shared.counters.completed := by simp [h6, hc]
      have hlast : ∀ s k', (log ++ [(e'.shared, k)]).getLast? = some (s, k') → s = e'.shared := by
        intro s k' hl
        simp only [List.getLast?_append, List.getLast?_singleton, Option.some_or, Option.some.injEq, Prod.mk.injEq] at hl
        exact hl.1.symm
      refine ⟨?_, ?_, fun hx => by rw [← hpf']; exact hx, fun _ hx => by rw [hpf']; exact hx, hi', hlen, hlast⟩
      all_goals
        rw [hpf]
        cases hx : e'.progressFinished with
        | false => simp only [Bool.false_and, Bool.false_eq_true, if_false]; first | exact i1 | exact i2.trans (h2.trans hpf)
        | true =>
          have hfin : e'.shared.finished = true := by rw [← hpf']; exact hx
          have hll : (log ++ [(e'.shared, k)]).length = o.niterations * np := by
            have hnf := hf
            unfold Shared.finished at hfin hnf
            rw [hi'.total, beq_iff_eq] at hfin
            rw [h5.total, beq_eq_false_iff_ne] at hnf
            omega
          obtain ⟨g1, g2⟩ := hfinish i1 hll
          simp only [Bool.not_false, Bool.and_true, if_true]
          first | exact g1 | exact g2

/-- C80: the same at every moment of a run of the step-wise driver: the display is open until the search is finished, and
once cycles were run and the search is finished it is closed, with the bar at its end and the message about the final
state. -/
theorem C80_stepwise {e0 e : Engine K} {d : Display K} {log : List (Shared K × Tick)} {start clock : Nat}
    (h0 : e0.Fresh o np) (hp0 : e0.progressFinished = false)
    (h : EngineShown o full X e0 (Display.begin true true e0.shared start clock) e d log) :
    d.Tells X start clock e0.shared.totalEvals (o.niterations * np) log ∧
    log.length = e.shared.counters.completed ∧
    (∀ s k, log.getLast? = some (s, k) → s = e.shared) ∧
    (e.shared.finished = false → d.closed = false) ∧
    (0 < log.length → e.shared.finished = true →
      d.closed = true ∧ d.pos = d.length ∧ ∃ pre k ls, log = pre ++ [(e.shared, k)] ∧ d.message = some ls ∧
        IsMessage X start clock e0.shared.totalEvals pre e.shared k ls) := by
  obtain ⟨h1, h2, h3, h4, h5, h6, h7⟩ := engineShown_inv h0 hp0 h
  refine ⟨h1.tells, h6, h7, ?_, ?_⟩
  · intro hf
    rw [h2]
    cases hx : e.progressFinished with
    | false => rfl
    | true => rw [h3 hx] at hf; cases hf
  · intro hpos hf
    obtain ⟨⟨s, k⟩, hl⟩ : ∃ x, log.getLast? = some x := by
      cases hlog : log.getLast? with
      | some x => exact ⟨x, rfl⟩
      | none =>
        rw [List.getLast?_eq_none_iff] at hlog
        rw [hlog] at hpos
        simp at hpos
    obtain rfl := h7 s k hl
    have hleft : e.shared.left = 0 := by
      unfold Shared.finished at hf
      exact beq_iff_eq.mp hf
    obtain ⟨pre, ls, g1, g2, g3⟩ := h1.tells.last hl hleft
    have hle : e.shared.counters.completed ≤ o.niterations * np := by
      rcases Nat.eq_zero_or_pos e.curIter with hz | hz
      · rw [(h5.fresh hz).2.2]; omega
      · obtain ⟨-, g2, g3⟩ := h5.running hz
        rw [g3]
        have := h5.iter
        calc (e.curIter - 1) * np + e.nextTask ≤ (e.curIter - 1) * np + np := by omega
          _ = e.curIter * np := by
            obtain ⟨c, hc⟩ : ∃ c, e.curIter = c + 1 := ⟨e.curIter - 1, by omega⟩
            rw [hc]; simp [Nat.succ_mul]
          _ ≤ _ := Nat.mul_le_mul_right _ this
    refine ⟨by rw [h2]; exact h4 hpos hf, ?_, pre, k, ls, g1, g2, g3⟩
    rw [h1.pos, h1.length, h6]
    unfold Shared.left at hleft
    rw [h5.total] at hleft
    omega

/-! ## The speed -/

theorem speedMarks_gaps (m : Nat × Nat) (l : List (Nat × Nat)) :
    (speedMarks m l).head? = some m ∧ (speedMarks m l).IsChain fun a b => 1000000000 ≤ b.1 - a.1 := by
  induction l generalizing m with
  | nil => simp [speedMarks]
  | cons x l ih =>
    unfold speedMarks
    split
    · next h =>
      refine ⟨rfl, ?_⟩
      obtain ⟨h1, h2⟩ := ih x
      cases hx : speedMarks x l with
      | nil => simp
      | cons y ys =>
        rw [hx] at h1 h2
        obtain rfl := Option.some.inj h1
        exact List.isChain_cons_cons.mpr ⟨h, h2⟩
    · exact ih m

/-- C80: the displayed speed averages at most twenty measurements, each over at least a second, the first beginning
when the display was told of the initial evaluations. -/
theorem C80_window (clock evals0 : Nat) (log : List (Shared K × Tick)) :
    (recentSpeeds clock evals0 log).length ≤ 20 ∧
    ∃ ms : List (Nat × Nat), ms.head? = some (clock, evals0) ∧ (ms.IsChain fun a b => 1000000000 ≤ b.1 - a.1) ∧
      (∀ m ∈ ms.tail, ∃ x ∈ log, m = (x.2.now, x.1.totalEvals)) ∧
      recentSpeeds clock evals0 log <:+ List.zipWith speedBetween ms ms.tail := by
  refine ⟨?_, speedMarks (clock, evals0) (log.map fun x => (x.2.now, x.1.totalEvals)), (speedMarks_gaps _ _).1,
    (speedMarks_gaps _ _).2, ?_, ?_⟩
  · unfold recentSpeeds lastN
    simp only [List.length_drop]
    omega
  · have key : ∀ (l : List (Nat × Nat)) (m x : Nat × Nat), x ∈ (speedMarks m l).tail → x ∈ l := by
      intro l
      induction l with
      | nil => intro m x hx; simp [speedMarks] at hx
      | cons y l ih =>
        intro m x hx
        unfold speedMarks at hx
        split at hx
        · rw [List.tail_cons] at hx
          have h1 := (speedMarks_gaps y l).1
          cases hM : speedMarks y l with
          | nil => rw [hM] at hx; simp at hx
          | cons z zs =>
            rw [hM] at hx h1
            obtain rfl := Option.some.inj h1
            rcases List.mem_cons.mp hx with rfl | hx
            · simp
            · exact List.mem_cons_of_mem _ (ih z x (by rw [hM]; exact hx))
        · exact List.mem_cons_of_mem _ (ih m x hx)
    intro m hm
    obtain ⟨x, hx, rfl⟩ := List.mem_map.mp (key _ _ _ hm)
    exact ⟨x, hx, rfl⟩
  · exact List.drop_suffix _ _

/-- C80: in exact arithmetic a measurement is the number of evaluations divided by the seconds. -/
theorem C80_speed [IsStrictOrderedRing K] (hR : E.R = Rounding.exact K) (a b : Nat × Nat) (h : 1000000000 ≤ b.1 - a.1) :
    speedBetween a b = .fin (((b.2 - a.2 : Nat) : K) / (((b.1 - a.1 : Nat) : K) / 1000000000)) := by
  have h9 : (1000000000 : K) ≠ 0 := by norm_num
  have hsum : asSecsF64 (Rounding.exact K) (b.1 - a.1) = .fin (((b.1 - a.1 : Nat) : K) / 1000000000) := by
    have hn : ((b.1 - a.1 : Nat) : K) =
        1000000000 * (((b.1 - a.1) / 1000000000 : Nat) : K) + (((b.1 - a.1) % 1000000000 : Nat) : K) := by
      have := Nat.div_add_mod (b.1 - a.1) 1000000000
      exact_mod_cast this.symm
    unfold asSecsF64
    have ho : ∀ n : Nat, (Rounding.exact K).ofNat n = .fin (n : K) := fun _ => rfl
    rw [ho, ho, ho, show ((1000000000 : Nat) : K) = 1000000000 by norm_cast, exact_div _ _ h9]
    simp only [Rounding.add, Rounding.exact, Fl.fin.injEq]
    rw [hn]
    field_simp
  have hge : (1 : K) ≤ ((b.1 - a.1 : Nat) : K) / 1000000000 := by
    rw [le_div_iff₀ (by norm_num)]
    rw [one_mul]
    exact_mod_cast h
  have hint : speedInterval (Rounding.exact K) (b.1 - a.1) = .fin (((b.1 - a.1 : Nat) : K) / 1000000000) := by
    unfold speedInterval
    rw [hsum]
    simp only [Rounding.exact, Fl.max, Fl.isNan, Bool.false_eq_true, if_false, Fl.lt, decide_eq_true_eq]
    rw [if_neg]
    apply not_lt.mpr
    refine le_trans ?_ hge
    rw [div_le_one (by norm_num)]
    norm_num
  unfold speedBetween
  rw [hR, hint]
  exact exact_div _ _ (by linarith)

/-- C80: and the displayed speed is the mean of the measurements (none before the first). -/
theorem C80_average [IsStrictOrderedRing K] (xs : List K) :
    avgSpeed (Rounding.exact K) (xs.map .fin) = if xs = [] then none else some (.fin (xs.sum / xs.length)) := by
  unfold avgSpeed
  cases xs with
  | nil => rfl
  | cons x xs =>
    rw [if_neg (by simp), if_neg (by simp), exact_sum, List.length_map]
    congr 1
    exact exact_div _ _ (Nat.cast_ne_zero.mpr (by simp))

end SR

namespace SR
open Demo
local instance instDisplayDemo : Env ℚ := env

/-- Texts for the example. -/
def Demo.texts : DisplayText ℚ := ⟨fun _ => "L".toList, fun m => (toString m.expr.nodes.length).toList, fun _ => "S".toList, fun n => (toString n).toList⟩

/-- A whole search with its display: made at 0, told of the initial evaluations at 5 ns, one cycle of two seconds. -/
example : ∃ e0 e d, Engine.new (smallOpts 1) data (fun i => gen (6 + i)) (gen 77) = some e0 ∧
    EngineShown (smallOpts 1) data texts e0 (Display.begin true true e0.shared 0 5) e d
      [(e.shared, ⟨2000000005, 2000000007, 0⟩)] ∧
    e.shared.finished = true ∧ d.closed = true ∧ d.pos = 1 ∧
    d.message.map (·.take 2) = some ["Info: eval/s~S | evals=11 | t=2000000007s".toList, "Hall of Fame:".toList] := by
  have h : ((Engine.new (smallOpts 1) data (fun i => gen (6 + i)) (gen 77)).bind fun e0 =>
      (e0.stepShown (smallOpts 1) data texts ⟨2000000005, 2000000007, 0⟩ (Display.begin true true e0.shared 0 5)).map fun x =>
        (x.2.1.shared.finished, x.2.2.closed, x.2.2.pos, decide (x.2.2.message.map (·.take 2) =
            some ["Info: eval/s~S | evals=11 | t=2000000007s".toList, "Hall of Fame:".toList]),
          decide (e0.shared.counters.completed < x.2.1.shared.counters.completed))) =
      some (true, true, 1, true, true) := by
    decide +kernel
  rw [Option.bind_eq_some_iff] at h
  obtain ⟨e0, h0, h⟩ := h
  rw [Option.map_eq_some_iff] at h
  obtain ⟨⟨b, e, d⟩, h1, h⟩ := h
  simp only [Prod.mk.injEq, decide_eq_true_eq] at h
  obtain ⟨g1, g2, g3, g4, g5⟩ := h
  refine ⟨e0, e, d, h0, ?_, g1, g2, g3, g4⟩
  have := EngineShown.step (.init (o := smallOpts 1) (full := data) (X := texts) (e0 := e0)
    (d0 := Display.begin true true e0.shared 0 5)) h1
  rwa [if_pos g5] at this

end SR
