import Verif.Spec.Progress
import Verif.Props.Engine
import Verif.Props.Hall
/-
C46: progress is monotone, whatever the schedule.
-/
namespace SR
variable {K : Type}

theorem Fl.lt_trans' [LinearOrder K] {a b c : Fl K} (h1 : a.lt b = true) (h2 : b.lt c = true) : a.lt c = true := by
  cases a <;> cases b <;> simp [Fl.lt] at h1 <;> cases c <;> simp [Fl.lt] at h2 ⊢
  exact _root_.lt_trans h1 h2

section
variable [LinearOrder K]

theorem Hall.Improves.refl (h : Hall K) : Hall.Improves h h := ⟨rfl, fun _ m hm => ⟨m, hm, .inl rfl⟩⟩

theorem Hall.Improves.trans {a b c : Hall K} (h1 : Hall.Improves a b) (h2 : Hall.Improves b c) : Hall.Improves a c := by
  refine ⟨h2.length.trans h1.length, fun i m hm => ?_⟩
  obtain ⟨m1, e1, d1⟩ := h1.entry i m hm
  obtain ⟨m2, e2, d2⟩ := h2.entry i m1 e1
  refine ⟨m2, e2, ?_⟩
  rcases d1 with rfl | d1
  · exact d2
  rcases d2 with rfl | d2
  · exact .inr d1
  · exact .inr (Fl.lt_trans' d2 d1)

theorem consider_improves {o : CxOptions} {cur : Nat} {h h' : Hall K} {m : Member K}
    (hh : h.consider o cur m = some h') : Hall.Improves h h' := by
  unfold Hall.consider at hh
  simp only [Option.bind_eq_bind, Option.bind_eq_some_iff] at hh
  obtain ⟨ok, -, hh⟩ := hh
  split at hh
  · simp only [Option.some.injEq] at hh; subst hh; exact .refl h
  split at hh
  · simp only [Option.some.injEq] at hh; subst hh; exact .refl h
  split at hh
  · simp only [Option.some.injEq] at hh; subst hh; exact .refl h
  · next slot hs =>
    simp only [Option.some.injEq] at hh
    split at hh
    · next hb =>
      subst hh
      refine ⟨by simp, fun c b hc => ?_⟩
      by_cases hcm : m.complexity = c
      · subst hcm
        rw [hs] at hc
        simp only [Option.some.injEq] at hc
        subst hc
        refine ⟨m, ?_, .inr ?_⟩
        · rw [List.getElem?_set, if_pos rfl, if_pos (List.getElem?_eq_some_iff.mp hs).1]
        · simpa [Hall.better, Fl.cmpG_lt] using hb
      · exact ⟨b, by rw [List.getElem?_set, if_neg hcm]; exact hc, .inl rfl⟩
    · subst hh; exact .refl h

theorem update_improves {o : CxOptions} {cur : Nat} {ms : List (Member K)} {h h' : Hall K}
    (hh : h.update o cur ms = some h') : Hall.Improves h h' := by
  induction ms generalizing h with
  | nil => simp only [Hall.update, Option.some.injEq] at hh; subst hh; exact .refl h
  | cons m ms ih =>
    simp only [Hall.update, Option.bind_eq_bind, Option.bind_eq_some_iff] at hh
    obtain ⟨h1, e1, e2⟩ := hh
    exact (consider_improves e1).trans (ih e2)

end

variable [Field K] [LinearOrder K] [E : Env K] {o : SOptions K} {full : Dataset K}

omit E in
theorem absorb_progress {cur : Nat} {ms : List (Member K)} {h h' : Hall K} {b b' : Member K}
    (hh : absorbMembers o cur ms (h, b) = some (h', b')) :
    Hall.Improves h h' ∧ (b' = b ∨ b'.loss.lt b.loss = true) := by
  induction ms generalizing h b with
  | nil =>
    simp only [absorbMembers, Option.some.injEq, Prod.mk.injEq] at hh
    obtain ⟨rfl, rfl⟩ := hh
    exact ⟨.refl h, .inl rfl⟩
  | cons m ms ih =>
    simp only [absorbMembers, Option.bind_eq_bind, Option.bind_eq_some_iff] at hh
    obtain ⟨h1, e1, ok, -, hh⟩ := hh
    obtain ⟨i1, i2⟩ := ih hh
    refine ⟨(consider_improves e1).trans i1, ?_⟩
    by_cases hc : (ok && m.loss.lt b.loss) = true
    · rw [if_pos hc] at i2
      have hlt : m.loss.lt b.loss = true := by simp only [Bool.and_eq_true] at hc; exact hc.2
      rcases i2 with rfl | i2
      · exact .inr hlt
      · exact .inr (Fl.lt_trans' i2 hlt)
    · rw [if_neg hc] at i2; exact i2

omit [Field K] E in
theorem Shared.Progress.refl {s : Shared K} (h : s.totalEvals < 2 ^ 64) : s.Progress s :=
  ⟨.refl _, .inl rfl, Nat.le_refl _, h, Nat.le_refl _, Nat.le_refl _, rfl⟩

omit [Field K] E in
theorem Shared.Progress.trans {a b c : Shared K} (h1 : a.Progress b) (h2 : b.Progress c) : a.Progress c := by
  refine ⟨h1.hall.trans h2.hall, ?_, h1.evals.trans h2.evals, h2.evalsLt, h1.started.trans h2.started,
    h1.completed.trans h2.completed, h2.total.trans h1.total⟩
  rcases h1.best with e | d1
  · rw [← e]; exact h2.best
  · rcases h2.best with e | d2
    · rw [e]; exact .inr d1
    · exact .inr (Fl.lt_trans' d2 d1)

theorem apply_progress {s s' : Shared K} {r : TaskResult K} (hlt : s.totalEvals < 2 ^ 64)
    (h : s.apply o r = some s') : s.Progress s' := by
  obtain ⟨-, -, hc, -, -, he, ⟨hall, h1, h2⟩, -⟩ := apply_result h
  obtain ⟨i1, i2⟩ := absorb_progress h2
  refine ⟨(update_improves h1).trans i1, i2, ?_, ?_, ?_, ?_, ?_⟩
  · rw [he]; unfold satAdd64; omega
  · rw [he]; unfold satAdd64; omega
  all_goals rw [hc]
  · exact Nat.le_succ _

theorem dispatch_progress {s s' : Shared K} {i : Nat} {t : Option (Task K)} (hlt : s.totalEvals < 2 ^ 64)
    (h : s.dispatch o i = some (t, s')) : s.Progress s' := by
  cases t with
  | none => rw [(dispatch_skip h).2]; exact .refl hlt
  | some t =>
    obtain ⟨-, -, -, -, rfl⟩ := dispatch_task h
    exact ⟨.refl _, .inl rfl, Nat.le_refl _, hlt, Nat.le_succ _, Nat.le_refl _, rfl⟩

/-- C46: in every run of the multi-worker driver, from any state and under every order of results, the search only
makes progress: no hall-of-fame slot is lost and no cost in it goes up, the best member is only replaced by one of
strictly smaller loss, the evaluation counter never goes down. -/
theorem C46_parallel {nw : Nat} {p q : Par K} {tr : List ParEvent} (hlt : p.shared.totalEvals < 2 ^ 64)
    (h : ParRun o full nw p tr q) : p.shared.Progress q.shared := by
  induction h with
  | refl => exact .refl hlt
  | snoc _ hs ih =>
    refine ih.trans ?_
    have hl := ih.evalsLt
    cases hs with
    | start => exact .refl hl
    | enter => exact .refl hl
    | leave => exact .refl hl
    | dispatch _ _ _ hd => exact dispatch_progress hl hd
    | skip => exact .refl hl
    | receive _ _ _ _ ha => exact apply_progress hl ha

theorem stepOne_progress {e e' : Engine K} {b : Bool} (hlt : e.shared.totalEvals < 2 ^ 64)
    (h : e.stepOne o full = some (b, e')) : e.shared.Progress e'.shared := by
  unfold Engine.stepOne at h
  split at h
  · simp only [Option.some.injEq, Prod.mk.injEq] at h
    obtain ⟨-, rfl⟩ := h
    exact .refl hlt
  simp only [Option.bind_eq_bind, Option.bind_eq_some_iff] at h
  obtain ⟨e1, hp, h⟩ := h
  have hs : e1.shared = e.shared := by
    unfold Engine.prepare at hp
    split at hp
    · simp at hp; rw [hp]
    split at hp
    · simp at hp; rw [hp]
    · rw [Option.map_eq_some_iff] at hp
      obtain ⟨x, -, rfl⟩ := hp; rfl
  unfold Engine.runNext at h
  split at h
  · simp only [Option.some.injEq, Prod.mk.injEq] at h
    obtain ⟨-, rfl⟩ := h
    rw [hs]; exact .refl hlt
  simp only [Option.bind_eq_bind, Option.bind_eq_some_iff] at h
  obtain ⟨i, -, ⟨ot, s⟩, hd, h⟩ := h
  rw [hs] at hd
  have hd' := dispatch_progress hlt hd
  match ot, h with
  | none, h =>
    simp only [Option.some.injEq, Prod.mk.injEq] at h
    obtain ⟨-, rfl⟩ := h
    show e.shared.Progress e1.shared
    rw [hs]; exact .refl hlt
  | some t, h =>
    simp only [Option.bind_eq_some_iff, Option.some.injEq, Prod.mk.injEq] at h
    obtain ⟨e2, hc, -, rfl⟩ := h
    unfold Engine.complete at hc
    simp only [Option.bind_eq_bind, Option.bind_eq_some_iff, Option.some.injEq] at hc
    obtain ⟨r, -, s', ha, rfl⟩ := hc
    exact hd'.trans (apply_progress hd'.evalsLt ha)

/-- C46: the same for the step-wise driver, for any engine and any budget. -/
theorem C46_stepwise (n : Nat) {e e' : Engine K} {k : Nat} (hlt : e.shared.totalEvals < 2 ^ 64)
    (h : e.step o full n = some (k, e')) : e.shared.Progress e'.shared := by
  induction n generalizing e k with
  | zero =>
    simp only [Engine.step, Option.some.injEq, Prod.mk.injEq] at h
    obtain ⟨-, rfl⟩ := h
    exact .refl hlt
  | succ n ih =>
    rw [step_succ, Option.bind_eq_some_iff] at h
    obtain ⟨⟨b, e1⟩, h1, h⟩ := h
    have hp := stepOne_progress hlt h1
    split at h
    · rw [Option.map_eq_some_iff] at h
      obtain ⟨⟨k', e2⟩, h2, h3⟩ := h
      simp only [Prod.mk.injEq] at h3
      obtain ⟨-, rfl⟩ := h3
      exact hp.trans (ih hp.evalsLt h2)
    · simp only [Option.some.injEq, Prod.mk.injEq] at h
      obtain ⟨-, rfl⟩ := h
      exact hp

end SR
