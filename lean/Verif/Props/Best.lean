import Verif.Props.SearchSound
import Verif.Spec.History
import Verif.Props.OneWorker
/-
C48: what the reported best member is.
-/
namespace SR
variable {K : Type} [Field K] [LinearOrder K] [E : Env K]
variable {o : SOptions K} {d : Dataset K} {ops : List OpId} {N : Nat}

/-- Every run of the multi-worker driver has a history: its results are those received, in that order. -/
theorem ParRun.history {nw : Nat} {p q : Par K} {tr : List ParEvent} (hp : p.pending = []) (h : ParRun o d nw p tr q) :
    ∃ rs, History o d p.shared rs q.shared q.pending ∧ rs.map (·.popIdx) = receives tr := by
  induction h with
  | refl => exact ⟨[], by rw [hp]; exact .init, rfl⟩
  | @snoc q r tr e h hs ih =>
    obtain ⟨rs, h1, h2⟩ := ih
    cases hs with
    | start => exact ⟨rs, h1, by simpa [receives] using h2⟩
    | enter => exact ⟨rs, h1, by simpa [receives] using h2⟩
    | leave => exact ⟨rs, h1, by simpa [receives] using h2⟩
    | skip => exact ⟨rs, h1, by simpa [receives] using h2⟩
    | dispatch _ _ _ hd => exact ⟨rs, h1.dispatch hd, by simpa [receives] using h2⟩
    | receive _ _ hpend hrun ha =>
      rw [hpend] at h1
      refine ⟨rs ++ [_], h1.apply hrun ha, ?_⟩
      simp only [receives, List.map_append, List.map_cons, List.map_nil, List.filterMap_append] at h2 ⊢
      rw [h2, (run_popIdx hrun).1]
      rfl

theorem stepOne_history {s0 : Shared K} {rs : List (TaskResult K)} {e e' : Engine K} {b : Bool}
    (h0 : History o d s0 rs e.shared []) (h : e.stepOne o d = some (b, e')) :
    ∃ rs', rs <+: rs' ∧ History o d s0 rs' e'.shared [] := by
  unfold Engine.stepOne at h
  split at h
  · simp only [Option.some.injEq, Prod.mk.injEq] at h
    obtain ⟨-, rfl⟩ := h
    exact ⟨rs, List.prefix_rfl, h0⟩
  simp only [Option.bind_eq_bind, Option.bind_eq_some_iff] at h
  obtain ⟨e1, hp, h⟩ := h
  have hs : e1.shared = e.shared := (prepare_shared hp).1
  unfold Engine.runNext at h
  split at h
  · simp only [Option.some.injEq, Prod.mk.injEq] at h
    obtain ⟨-, rfl⟩ := h
    rw [hs]; exact ⟨rs, List.prefix_rfl, h0⟩
  simp only [Option.bind_eq_bind, Option.bind_eq_some_iff] at h
  obtain ⟨i, -, ⟨ot, s⟩, hd, h⟩ := h
  rw [hs] at hd
  match ot, h with
  | none, h =>
    simp only [Option.some.injEq, Prod.mk.injEq] at h
    obtain ⟨-, rfl⟩ := h
    refine ⟨rs, List.prefix_rfl, ?_⟩
    show History o d _ _ e1.shared _
    rw [hs]; exact h0
  | some t, h =>
    simp only [Option.bind_eq_some_iff, Option.some.injEq, Prod.mk.injEq] at h
    obtain ⟨e2, hc, -, rfl⟩ := h
    unfold Engine.complete at hc
    simp only [Option.bind_eq_bind, Option.bind_eq_some_iff, Option.some.injEq] at hc
    obtain ⟨r, hr, s', ha, rfl⟩ := hc
    exact ⟨rs ++ [r], List.prefix_append _ _, History.apply (l := []) (r := []) (h0.dispatch hd) hr ha⟩

/-- So has every run of the step-wise driver. -/
theorem Engine.step_history {s0 : Shared K} {rs : List (TaskResult K)} {n k : Nat} {e e' : Engine K}
    (h0 : History o d s0 rs e.shared []) (h : e.step o d n = some (k, e')) :
    ∃ rs', rs <+: rs' ∧ History o d s0 rs' e'.shared [] := by
  induction n generalizing e k rs with
  | zero =>
    simp only [Engine.step, Option.some.injEq, Prod.mk.injEq] at h
    obtain ⟨-, rfl⟩ := h
    exact ⟨rs, List.prefix_rfl, h0⟩
  | succ n ih =>
    rw [step_succ, Option.bind_eq_some_iff] at h
    obtain ⟨⟨b, e1⟩, h1, h⟩ := h
    obtain ⟨rs1, hx, hp⟩ := stepOne_history h0 h1
    split at h
    · rw [Option.map_eq_some_iff] at h
      obtain ⟨⟨k', e2⟩, h2, h3⟩ := h
      simp only [Prod.mk.injEq] at h3
      obtain ⟨-, rfl⟩ := h3
      obtain ⟨rs', h4, h5⟩ := ih hp h2
      exact ⟨rs', hx.trans h4, h5⟩
    · simp only [Option.some.injEq, Prod.mk.injEq] at h
      obtain ⟨-, rfl⟩ := h
      exact ⟨rs1, hx, hp⟩

omit [Field K] E in
/-- What absorbing a population does to the best member. -/
theorem absorb_best {cur : Nat} {ms : List (Member K)} {h h' : Hall K} {b b' : Member K}
    (hms : ∀ m ∈ ms, m.loss.isNan = false) (hb : b.loss.isNan = false)
    (he : absorbMembers o cur ms (h, b) = some (h', b')) :
    (b' = b ∨ b' ∈ ms ∧ checkConstraints o.cx cur b'.expr.nodes = some true) ∧ b'.loss.isNan = false ∧
    b'.loss.le b.loss = true ∧
    ∀ m ∈ ms, checkConstraints o.cx cur m.expr.nodes = some true → b'.loss.le m.loss = true := by
  induction ms generalizing h b with
  | nil =>
    simp only [absorbMembers, Option.some.injEq, Prod.mk.injEq] at he
    obtain ⟨-, rfl⟩ := he
    exact ⟨.inl rfl, hb, Fl.le_refl hb, by simp⟩
  | cons m ms ih =>
    simp only [absorbMembers, Option.bind_eq_bind, Option.bind_eq_some_iff] at he
    obtain ⟨h1, -, ok, hok, he⟩ := he
    have hm := hms m (by simp)
    have hmin : (if (ok && m.loss.lt b.loss) = true then m else b).loss.isNan = false ∧
        (if (ok && m.loss.lt b.loss) = true then m else b).loss.le b.loss = true ∧
        (ok = true → (if (ok && m.loss.lt b.loss) = true then m else b).loss.le m.loss = true) := by
      split
      · next h =>
        rw [Bool.and_eq_true] at h
        exact ⟨hm, Fl.le_of_lt h.2, fun _ => Fl.le_refl hm⟩
      · next h =>
        refine ⟨hb, Fl.le_refl hb, fun ho => (Fl.le_iff hb hm).mpr ?_⟩
        subst ho; simpa using h
    obtain ⟨a1, a2, a3, a4⟩ := ih (fun x hx => hms x (by simp [hx])) hmin.1 he
    refine ⟨?_, a2, Fl.le_trans a3 hmin.2.1, ?_⟩
    · rcases a1 with a1 | ⟨a1, a5⟩
      · split at a1
        · next h =>
          rw [Bool.and_eq_true] at h
          rw [a1]; exact .inr ⟨by simp, by rw [hok, h.1]⟩
        · exact .inl a1
      · exact .inr ⟨by simp [a1], a5⟩
    · intro x hx hc
      rcases List.mem_cons.mp hx with rfl | hx
      · rw [hok, Option.some.injEq] at hc
        exact Fl.le_trans a3 (hmin.2.2 hc)
      · exact a4 x hx hc

section
variable [IsStrictOrderedRing K]

/-- Along a history everything stays sound, and so were all results. -/
theorem History.sound (Q : SearchSetting o d ops N) {s0 s : Shared K} {rs : List (TaskResult K)} {pend : List (Task K)}
    (h0 : s0.Sound o d ops N) (h : History o d s0 rs s pend) :
    s.Sound o d ops N ∧ (∀ t ∈ pend, t.Sound o d ops N) ∧ ∀ r ∈ rs, r.Sound o d ops N := by
  induction h with
  | init => exact ⟨h0, by simp, by simp⟩
  | dispatch _ hd ih =>
    obtain ⟨i1, i2, i3⟩ := ih
    obtain ⟨h1, h2⟩ := dispatch_sound Q i1 hd
    refine ⟨h2, fun t ht => ?_, i3⟩
    rcases List.mem_append.mp ht with ht | ht
    · exact i2 t ht
    · rw [List.mem_singleton.mp ht]; exact h1
  | @apply rs s s' l r t res _ hrun ha ih =>
    obtain ⟨i1, i2, i3⟩ := ih
    have ht : t.Sound o d ops N := i2 t (by simp)
    have hres := (task_done Q ht hrun).sound Q.evol ht
    refine ⟨apply_sound Q.evol i1 hres ha, fun x hx => i2 x ?_, fun x hx => ?_⟩
    · rcases List.mem_append.mp hx with hx | hx <;> simp [hx]
    · rcases List.mem_append.mp hx with hx | hx
      · exact i3 x hx
      · rw [List.mem_singleton.mp hx]; exact hres

theorem History.best (Q : SearchSetting o d ops N) {s0 s : Shared K} {rs : List (TaskResult K)} {pend : List (Task K)}
    (h0 : s0.Sound o d ops N) (hb : BestSpec o d s0 [] s0.best) (h : History o d s0 rs s pend) :
    BestSpec o d s0 rs s.best := by
  induction h with
  | init => exact hb
  | dispatch h hd ih =>
    obtain ⟨-, -, -, -, rfl⟩ := dispatch_task hd
    exact ih
  | @apply rs s s' l r t res h hrun ha ih =>
    obtain ⟨k1, k2, k3⟩ := (h.apply hrun ha).sound Q h0
    have hres := k3 res (by simp)
    have hs := (h.sound Q h0).1
    obtain ⟨-, -, -, -, -, -, ⟨hall, -, he⟩, -⟩ := apply_result ha
    obtain ⟨a1, a2, a3, a4⟩ := absorb_best (fun m hm => (hres.ps.pop m hm).loss_not_nan) hs.best.loss_not_nan he
    have hcheck : ∀ m ∈ res.ps.pop, (checkConstraints o.cx res.cur m.expr.nodes = some true ↔
        FeasibleExpr o.cx res.cur m.expr) := by
      intro m hm
      obtain ⟨ok, h1, h2⟩ := checkConstraints_feasible Q.evol hres.cur (hres.ps.pop m hm).good
      rw [h1, Option.some.injEq, h2]
    refine ⟨k1.bestScored, ?_, ?_, fun ps hps m hm hf => Fl.le_trans a3 (ih.initial ps hps m hm hf), ?_⟩
    · rcases a1 with a1 | ⟨a1, a5⟩
      · rw [a1]
        rcases ih.origin with h | ⟨r, hr, h⟩
        · exact .inl h
        · exact .inr ⟨r, by simp [hr], h⟩
      · exact .inr ⟨res, by simp, a1, (hcheck _ a1).mp a5⟩
    · rcases a1 with a1 | ⟨a1, a5⟩
      · rw [a1]; exact ih.feasible
      · exact .inl (FeasibleExpr.mono hres.cur ((hcheck _ a1).mp a5))
    · intro r' hr' m hm hf
      rcases List.mem_append.mp hr' with hr' | hr'
      · exact Fl.le_trans a3 (ih.results r' hr' m hm hf)
      · rw [List.mem_singleton.mp hr'] at hm hf
        exact a4 m hm ((hcheck m hm).mpr hf)

theorem BestSpec.init (Q : SearchSetting o d ops N) {seeds : Nat → Rng (Fl K)} {s : Shared K}
    (h : Shared.init o d seeds = some s) : BestSpec o d s [] s.best := by
  obtain ⟨s', h1, h2, -, -, h5, h6, h7⟩ := C59_init Q seeds
  rw [h, Option.some.injEq] at h1
  subst h1
  refine ⟨h2.bestScored, .inl h5, ?_, h7, by simp⟩
  rcases h6 with h6 | h6
  · exact .inl h6
  · exact .inr ⟨rfl, h6⟩

/-- C48: in every state the multi-worker driver reaches, under every schedule, the best member is as `BestSpec` says,
for the results received so far in the order of their receipt. -/
theorem C48_parallel (Q : SearchSetting o d ops N) {seeds : Nat → Rng (Fl K)} {orderRng : Rng (Fl K)} {nw : Nat}
    {p q : Par K} {tr : List ParEvent} (hnew : Par.new o d seeds orderRng = some p) (hrun : ParRun o d nw p tr q) :
    ∃ rs, History o d p.shared rs q.shared q.pending ∧ rs.map (·.popIdx) = receives tr ∧
      BestSpec o d p.shared rs q.shared.best := by
  rw [Par.new, Option.map_eq_some_iff] at hnew
  obtain ⟨s, hi, rfl⟩ := hnew
  obtain ⟨rs, h1, h2⟩ := hrun.history rfl
  obtain ⟨s', h3, h4, -⟩ := C59_init Q seeds
  rw [hi, Option.some.injEq] at h3
  subst h3
  exact ⟨rs, h1, h2, h1.best Q h4 (BestSpec.init Q hi)⟩

/-- C48: the same for the step-wise driver, for every budget. -/
theorem C48_stepwise (Q : SearchSetting o d ops N) {seeds : Nat → Rng (Fl K)} {orderRng : Rng (Fl K)} {n k : Nat}
    {e e' : Engine K} (hnew : Engine.new o d seeds orderRng = some e) (hrun : e.step o d n = some (k, e')) :
    ∃ rs, History o d e.shared rs e'.shared [] ∧ BestSpec o d e.shared rs e'.shared.best := by
  rw [Engine.new, Option.map_eq_some_iff] at hnew
  obtain ⟨s, hi, rfl⟩ := hnew
  obtain ⟨rs, -, h1⟩ := Engine.step_history .init hrun
  obtain ⟨s', h3, h4, -⟩ := C59_init Q seeds
  rw [hi, Option.some.injEq] at h3
  subst h3
  exact ⟨rs, h1, h1.best Q h4 (BestSpec.init Q hi)⟩

end
end SR

/-! ### Concrete cases, and the exceptions -/

namespace SR.Demo
open SR
local instance instBest : Env ℚ := env

theorem node_weight_pos (cv : Nat) (h : 1 ≤ cv) (n : PNode) : 1 ≤ (smallOpts cv).cx.weights.node n := by
  cases n <;> simp [Weights.node, CxOptions.weights, CxOptions.varCx, smallOpts, cx, h]

theorem smallEvol (cv : Nat) (h : 1 ≤ cv) (h' : cv ≤ 65535) : EvolSetting (smallOpts cv) data 3 opIds 3 where
  operators := evolSetting.operators
  ops_ok := by decide
  cxD := rfl
  cx := by constructor <;> simp [smallOpts, opts, cx, h']
  data := data_wf
  rows := by decide
  nf_pos := by decide
  nf_le := by decide
  cur_lt := by decide
  maxsize_le := by show 3 ≤ 65535; decide
  size t _ ha := by
    refine Nat.le_trans ?_ ha.size
    show t.size ≤ (t.toPostfix.map (smallOpts cv).cx.weights.node).sum
    rw [← length_toPostfix]
    generalize t.toPostfix = l
    induction l with
    | nil => simp
    | cons n l ih =>
      have := node_weight_pos cv h n
      simp only [List.length_cons, List.map_cons, List.sum_cons]
      omega
  room := by decide
  two := by decide

/-- The hypotheses hold for the small options, whatever the complexity of variables. -/
theorem smallSetting (cv : Nat) (h : 1 ≤ cv) (h' : cv ≤ 65535) : SearchSetting (smallOpts cv) data opIds 3 where
  evol := smallEvol cv h h'
  formats := formats
  ls := ⟨rfl, by have := lsOk.c1; exact this⟩
  costs := costsOk rfl
  batching := rfl
  populations := Nat.le_refl 1
  populationSize := by show 1 ≤ 2; decide
  init := by show max 3 1 ≤ 3; decide
  warmup := fun _ _ => noWarmup rfl _ _ _

end SR.Demo

namespace SR
open Demo
local instance instBest' : Env ℚ := env

/-- C48 (exception): the reported best can be worse than the hall of fame.  There is a whole search (default-like
options, one population, one iteration, variables of complexity 1) that ends with a best member of loss 5/2 although
its hall of fame contains a member of loss 0: members that do not survive until the end of the iteration are offered to
the hall of fame only. -/
theorem C48_hall_may_be_better :
    SearchSetting (smallOpts 1) data opIds 3 ∧
    ∃ e e', Engine.new (smallOpts 1) data (fun i => gen (280 + i)) (gen 77) = some e ∧
      e.step (smallOpts 1) data 1 = some (1, e') ∧ e'.shared.finished = true ∧ e'.shared.best.loss = .fin (5 / 2) ∧
      ∃ m ∈ e'.shared.hall.members, m.loss = .fin 0 := by
  refine ⟨smallSetting 1 (by decide) (by decide), ?_⟩
  have h : ((Engine.new (smallOpts 1) data (fun i => gen (280 + i)) (gen 77)).bind fun e =>
      (e.step (smallOpts 1) data 1).map fun r => (r.1, r.2.shared.finished, r.2.shared.best.loss,
        r.2.shared.hall.members.map (·.loss))) = some (1, true, .fin (5 / 2), [.fin (5 / 2), .fin 0]) := by
    decide +kernel
  rw [Option.bind_eq_some_iff] at h
  obtain ⟨e, h1, h⟩ := h
  rw [Option.map_eq_some_iff] at h
  obtain ⟨⟨k, e'⟩, h2, h⟩ := h
  simp only [Prod.mk.injEq] at h
  obtain ⟨rfl, h3, h4, h5⟩ := h
  refine ⟨e, e', h1, h2, h3, h4, ?_⟩
  have : Fl.fin 0 ∈ e'.shared.hall.members.map (·.loss) := by rw [h5]; simp
  obtain ⟨m, hm, he⟩ := List.mem_map.mp this
  exact ⟨m, hm, he⟩

/-- C48 (exception): the reported best can violate the constraints although members that satisfy them were found.
There is a whole search (variables of complexity 10, size limit 3) whose initial members all violate the size limit,
so that the first of them becomes the best; at the end it still is, although two members of the population and one of
the hall of fame satisfy the constraints. -/
theorem C48_fallback_may_stay :
    SearchSetting (smallOpts 10) data opIds 3 ∧
    ∃ e e', Engine.new (smallOpts 10) data (fun i => gen (34 + i)) (gen 77) = some e ∧
      e.step (smallOpts 10) data 1 = some (1, e') ∧ e'.shared.finished = true ∧
      ¬ FeasibleExpr (smallOpts 10).cx 3 e'.shared.best.expr ∧
      (∃ m ∈ e'.shared.hall.members, FeasibleExpr (smallOpts 10).cx 3 m.expr) ∧
      ∃ ps, some ps ∈ e'.shared.pops ∧ ∀ m ∈ ps.pop, FeasibleExpr (smallOpts 10).cx 3 m.expr := by
  have Q := smallSetting 10 (by decide) (by decide)
  refine ⟨Q, ?_⟩
  have h : ((Engine.new (smallOpts 10) data (fun i => gen (34 + i)) (gen 77)).bind fun e =>
      (e.step (smallOpts 10) data 1).map fun r => (r.1, r.2.shared.finished,
        checkConstraints (smallOpts 10).cx 3 r.2.shared.best.expr.nodes,
        r.2.shared.hall.members.length,
        r.2.shared.pops.map fun ps => ps.map fun ps => ps.pop.all fun m =>
          checkConstraints (smallOpts 10).cx 3 m.expr.nodes == some true)) =
      some (1, true, some false, 1, [some true]) := by
    decide +kernel
  rw [Option.bind_eq_some_iff] at h
  obtain ⟨e, h1, h⟩ := h
  rw [Option.map_eq_some_iff] at h
  obtain ⟨⟨k, e'⟩, h2, h⟩ := h
  simp only [Prod.mk.injEq] at h
  obtain ⟨rfl, h3, h4, h5, h6⟩ := h
  have hs := C59_stepwise Q h1 h2
  have hcheck : ∀ m : Member ℚ, m.Sound (smallOpts 10) data opIds 3 → ∀ b,
      checkConstraints (smallOpts 10).cx 3 m.expr.nodes = some b →
      (b = true ↔ FeasibleExpr (smallOpts 10).cx 3 m.expr) := by
    intro m hm b hb
    obtain ⟨ok, g1, g2⟩ := checkConstraints_feasible (cur := 3) Q.evol (by show 3 ≤ 3; decide) hm.good
    rw [hb, Option.some.injEq] at g1
    rw [g1]; exact g2
  refine ⟨e, e', h1, h2, h3, ?_, ?_, ?_⟩
  · intro hf
    exact Bool.false_ne_true ((hcheck _ hs.best false h4).mpr hf)
  · obtain ⟨m, hm⟩ := List.exists_mem_of_length_pos (l := e'.shared.hall.members) (by rw [h5]; decide)
    refine ⟨m, hm, ?_⟩
    unfold Hall.members at hm
    rw [List.mem_filterMap] at hm
    obtain ⟨x, hx, rfl⟩ := hm
    obtain ⟨i, hi, he⟩ := List.mem_iff_getElem.mp hx
    exact (hs.hall.entry i m (by rw [List.getElem?_eq_getElem hi, he])).2.2.2
  · obtain ⟨x, hp, hx⟩ := List.map_eq_singleton_iff.mp h6
    rw [Option.map_eq_some_iff] at hx
    obtain ⟨ps, rfl, hx⟩ := hx
    refine ⟨ps, by rw [hp]; simp, fun m hm => ?_⟩
    have := List.all_eq_true.mp hx m hm
    exact (hcheck m ((hs.pops ps (by rw [hp]; simp)).pop m hm) true (by simpa using this)).mp rfl

end SR
