import Verif.Spec.PageRun
import Verif.Model.PageRun
import Verif.Props.Page
import Verif.Props.WorkerSession
import Verif.Props.PageOptions
/-
C87: on the web page, to initialise and to start is all that is needed.
-/
namespace SR
variable {W : Wasm}

/-! ### The search goes on -/

/-- The object afterwards is what became of the one before. -/
def Obj.GoesOn (x x' : Obj W.Sess) : Prop := ∀ s', x' = .live s' → ∃ s, x = .live s ∧ W.Later s s'

theorem Obj.GoesOn.refl (x : Obj W.Sess) : x.GoesOn x := fun s h => ⟨s, h, .refl s⟩

theorem Obj.GoesOn.trans {x y z : Obj W.Sess} (h : x.GoesOn y) (h' : y.GoesOn z) : x.GoesOn z := fun s hs => by
  obtain ⟨s1, h1, l1⟩ := h' s hs
  obtain ⟨s2, h2, l2⟩ := h s1 h1
  exact ⟨s2, h2, l2.trans l1⟩

theorem Obj.step_goesOn (n : Nat) (x : Obj W.Sess) : x.GoesOn (x.step n).1 := by
  cases x with
  | live s =>
    intro s' h
    cases hs : W.step n s with
    | none => simp only [Obj.step, hs] at h; cases h
    | some r =>
      simp only [Obj.step, hs] at h
      cases h
      exact ⟨s, rfl, .step (p := r.2) hs (.refl _)⟩
  | _ => exact .refl _

theorem Obj.front_goesOn (k : Nat) (x : Obj W.Sess) : x.GoesOn (x.front k).1 := by
  cases x with
  | live s =>
    intro s' h
    cases hs : W.front k s with
    | none => simp only [Obj.front, hs] at h; cases h
    | some r =>
      simp only [Obj.front, hs] at h
      cases h
      exact ⟨_, rfl, .refl _⟩
  | _ => exact .refl _

theorem snapPart_goesOn (now : ℚ) (l : Loop) (x : Obj W.Sess) : x.GoesOn (snapPart now l x).1 := by
  unfold snapPart
  split
  · have := Obj.step_goesOn 0 x
    split <;> (next e => rw [e] at this; exact this)
  · exact .refl _

theorem frontPart_goesOn (now : ℚ) (l : Loop) (x : Obj W.Sess) : x.GoesOn (frontPart now l x).1 := by
  unfold frontPart
  split
  · have := Obj.front_goesOn 10000 x
    split <;> (next e => rw [e] at this; exact this)
  · exact .refl _

theorem body_goesOn (now : ℚ) (l : Loop) (w : Worker W) : w.search.GoesOn (w.body now l).1.search := by
  unfold Worker.body
  have h1 := Obj.step_goesOn 10 w.search
  split
  · next e => rw [e] at h1; exact h1
  · next x _ e =>
    rw [e] at h1
    have h2 := snapPart_goesOn now l x
    split
    · next e => rw [e] at h2; exact h1.trans h2
    · next x l _ e =>
      rw [e] at h2
      have h3 := frontPart_goesOn now l x
      split <;> (next e => rw [e] at h3; exact h1.trans (h2.trans h3))

theorem finish_goesOn (w : Worker W) : w.search.GoesOn w.finish.1.search := by
  unfold Worker.finish
  have h1 := Obj.step_goesOn 0 w.search
  split
  · next e => rw [e] at h1; exact h1
  · next x _ e =>
    rw [e] at h1
    have h2 := Obj.front_goesOn 10000 x
    split <;> (next e => rw [e] at h2; exact h1.trans h2)

theorem loop_goesOn (now : ℚ) (l : Loop) (w : Worker W) : w.search.GoesOn (w.loop now l).1.search := by
  unfold Worker.loop
  split
  · exact .refl _
  · split
    · exact .refl _
    · exact finish_goesOn w
    · exact body_goesOn now l w

/-! ### Initialise -/

/-- The page after the click on Initialise, until it is at rest. -/
inductive Initialising (r : W.Req) (failed : Prop) : Page W → Prop
  | sent {v : View W} {w : Worker W} : v = .cleared .initializing → w.loops = [] → w.inits = [] →
      Initialising r failed ⟨v, [.init r], w, []⟩
  | waiting {v : View W} {w : Worker W} : v = .cleared .initializing → w.loops = [] → w.inits = [r] → w.running = false →
      Initialising r failed ⟨v, [], w, []⟩
  | made {v : View W} {w : Worker W} {s : W.Sess} : v = .cleared .initializing → w.loops = [] → w.inits = [] → w.running = false →
      W.create r = some s → w.search = .live (W.setParetoK 10000 s) →
      Initialising r failed ⟨v, [], w, [.ready (W.split (W.setParetoK 10000 s))]⟩
  | ready {v : View W} {w : Worker W} {s : W.Sess} : v.isReady (W.split (W.setParetoK 10000 s)) → w.loops = [] → w.inits = [] →
      w.running = false → W.create r = some s → w.search = .live (W.setParetoK 10000 s) → Initialising r failed ⟨v, [], w, []⟩
  | refused {v : View W} {w : Worker W} : v = .cleared .initializing → w.loops = [] → w.inits = [] → w.running = false →
      W.create r = none ∨ failed → Initialising r failed ⟨v, [], w, [.error false]⟩
  | error {v : View W} {w : Worker W} : v.status = .error → v.requested = none → w.loops = [] → w.inits = [] → w.running = false →
      W.create r = none ∨ failed → Initialising r failed ⟨v, [], w, []⟩

theorem refresh_none {v : View W} (h : v.requested = none) : v.refresh = none := by
  unfold View.refresh; rw [h]

theorem Initialising.on {r : W.Req} {failed : Prop} {p p' : Page W} (h : Initialising r failed p) {e : PEvent W} (he : e.System)
    (hf : ∀ i, e = .loadFailed i → failed) (hp : p.on e = some p') : Initialising r failed p' := by
  cases e with
  | refresh =>
    have hr : p.view.refresh = none := by
      cases h with
      | sent a _ _ => subst a; rfl
      | waiting a _ _ _ => subst a; rfl
      | made a _ _ _ _ _ => subst a; rfl
      | ready a _ _ _ _ _ => exact refresh_none a.2.2.2.2.2.1
      | refused a _ _ _ _ => subst a; rfl
      | error _ a _ _ _ _ => exact refresh_none a
    simp [Page.on, hr] at hp
  | handle now =>
    cases h with
    | sent a b c =>
      simp only [Page.on, Page.work, Worker.on, Worker.receive, Option.map_some, Option.some.injEq, List.append_nil] at hp
      subst hp
      exact .waiting a b (by simp [c]) rfl
    | _ => cases hp
  | wake i now =>
    have hl : p.worker.loops = [] := by cases h <;> assumption
    simp [Page.on, Page.work, Worker.on, hl] at hp
  | loaded i =>
    cases h with
    | @waiting v w a b c d =>
      simp only [Page.on, Page.work, Worker.on, c, Option.map_map] at hp
      obtain ⟨r', h1, rfl⟩ := Option.map_eq_some_iff.mp hp
      cases i with
      | succ i => cases h1
      | zero =>
        cases h1
        simp only [Function.comp, Worker.loaded, List.nil_append, List.eraseIdx_zero, List.tail_cons]
        cases hc : W.create r with
        | none => exact .refused a b rfl d (.inl hc)
        | some s => exact .made a b rfl d hc rfl
    | sent _ _ c => simp [Page.on, Page.work, Worker.on, c] at hp
    | made _ _ c => simp [Page.on, Page.work, Worker.on, c] at hp
    | ready _ _ c => simp [Page.on, Page.work, Worker.on, c] at hp
    | refused _ _ c => simp [Page.on, Page.work, Worker.on, c] at hp
    | error _ _ _ c => simp [Page.on, Page.work, Worker.on, c] at hp
  | loadFailed i =>
    cases h with
    | @waiting v w a b c d =>
      simp only [Page.on, Page.work, Worker.on, c, Option.map_map] at hp
      obtain ⟨r', h1, rfl⟩ := Option.map_eq_some_iff.mp hp
      cases i with
      | succ i => cases h1
      | zero => exact .refused a b rfl d (.inr (hf _ rfl))
    | sent _ _ c => simp [Page.on, Page.work, Worker.on, c] at hp
    | made _ _ c => simp [Page.on, Page.work, Worker.on, c] at hp
    | ready _ _ c => simp [Page.on, Page.work, Worker.on, c] at hp
    | refused _ _ c => simp [Page.on, Page.work, Worker.on, c] at hp
    | error _ _ _ c => simp [Page.on, Page.work, Worker.on, c] at hp
  | deliver =>
    cases h with
    | made a b c d f g =>
      cases hp
      subst a
      exact .ready ⟨rfl, rfl, rfl, rfl, rfl, rfl, fun _ _ => rfl⟩ b c d f g
    | refused a b c d f =>
      cases hp
      subst a
      exact .error rfl rfl b c d f
    | _ => cases hp
  | _ => cases he

theorem Initialising.run {r : W.Req} {failed : Prop} {p p' : Page W} (h : Initialising r failed p) {es : List (PEvent W)}
    (he : ∀ e ∈ es, e.System) (hf : ∀ i, .loadFailed i ∈ es → failed) (hp : p.run es = some p') : Initialising r failed p' := by
  induction es generalizing p with
  | nil => cases hp; exact h
  | cons e es ih =>
    unfold Page.run at hp
    simp only [Option.bind_eq_bind, Option.bind_eq_some_iff] at hp
    obtain ⟨q, h1, h2⟩ := hp
    exact ih (h.on (he e (by simp)) (fun i hi => hf i (by simp [hi])) h1) (fun e h => he e (by simp [h])) (fun i h => hf i (by simp [h])) h2

/-- C87: Initialise.  On a page at rest the user clicks Initialise and does nothing until the page is at rest again.  Then it is
shown as ready, the worker has a new search made for the request, and the page shows its split and nothing else; or it is shown
as in error, and then the request was refused or the module could not be loaded. -/
theorem C87_ready {p0 p : Page W} {r : W.Req} {es : List (PEvent W)} (h0 : p0.Settled) (he : ∀ e ∈ es, e.System)
    (h : p0.run (.clickInit r :: es) = some p) (hp : p.Settled) :
    (∃ s, W.create r = some s ∧ p.worker.search = .live (W.setParetoK 10000 s) ∧ p.view.isReady (W.split (W.setParetoK 10000 s))) ∨
    (p.view.status = .error ∧ (W.create r = none ∨ ∃ i, .loadFailed i ∈ es)) := by
  obtain ⟨a1, a2, a3, a4, -⟩ := h0.parts
  have h1 : Initialising r (∃ i, .loadFailed i ∈ es) { p0 with view := .cleared .initializing, toWorker := p0.toWorker ++ [.init r] } := by
    rw [a1]
    obtain ⟨v, q, w, m⟩ := p0
    cases a2
    exact .sent rfl a3 a4
  have h2 : Initialising r (∃ i, .loadFailed i ∈ es) p := h1.run he (fun i hi => ⟨i, hi⟩) (by
    unfold Page.run at h
    simpa [Page.on] using h)
  obtain ⟨b1, b2, b3, b4, -⟩ := hp.parts
  cases h2 with
  | sent _ _ _ => cases b1
  | waiting _ _ c _ => rw [show _ = _ from c] at b4; cases b4
  | made _ _ _ _ _ _ => cases b2
  | ready a _ _ _ d f => exact .inl ⟨_, d, f, a⟩
  | refused _ _ _ _ _ => cases b2
  | error a _ _ _ _ d => exact .inr ⟨a, d⟩

/-! ### Start -/

/-- The message to the worker asks for an evaluation. -/
def ToWorker.IsEvaluate : ToWorker W → Prop
  | .evaluate _ _ => True
  | _ => False

/-- The page after the click on Start, until it is at rest.  `looked`: an equation is looked at. -/
structure Running (V : W.Sess → Prop) (s0 : W.Sess) (looked : Prop) (p : Page W) : Prop where
  ok : p.worker.Ok V
  inits : p.worker.inits = []
  later : ∃ s, p.worker.search = .live s ∧ W.Later s0 s
  quiet : ¬ looked → p.view.requested = none ∧ (∀ m ∈ p.toWorker, ¬ m.IsEvaluate) ∧ p.view.status ≠ .error ∧ .error ∉ statuses p.toPage
  posted : ∀ σ ∈ statuses p.toPage, σ = .done ∨ σ = .error
  phase : (∃ ys, p.toWorker = .start :: ys ∧ (∀ m ∈ ys, m.IsEvaluate) ∧ p.worker.loops = [] ∧ p.worker.running = false) ∨
    ((∀ m ∈ p.toWorker, m.IsEvaluate) ∧ p.worker.loops.length = 1 ∧ p.worker.running = true) ∨
    ((∀ m ∈ p.toWorker, m.IsEvaluate) ∧ p.worker.loops = [] ∧ p.worker.running = false ∧
      (∃ s, p.worker.search = .live s ∧ W.finished s = true) ∧
      (.done ∈ statuses p.toPage ∨ p.view.status = .done ∨ p.view.status = .error))

theorem statuses_cons (m : FromWorker W) (ms : List (FromWorker W)) :
    statuses (m :: ms) = m.status.toList ++ statuses ms := by
  unfold statuses
  rw [List.filterMap_cons]
  cases m.status <;> rfl

theorem deliver_requested (v : View W) {m : FromWorker W} (h : m.status ≠ some .idle) : (v.deliver m).requested = v.requested := by
  cases m with
  | error b => cases b <;> rfl
  | resetDone => exact absurd rfl h
  | _ => rfl

theorem page_run_append (a b : List (PEvent W)) (p : Page W) : p.run (a ++ b) = (p.run a).bind fun q => q.run b := by
  induction a generalizing p with
  | nil => rfl
  | cons e a ih =>
    simp only [List.cons_append, Page.run, Option.bind_eq_bind]
    cases p.on e with
    | none => rfl
    | some q => simp only [Option.bind_some]; exact ih q

section
variable {V : W.Sess → Prop} (hV : W.Safe V) {left : W.Sess → Nat} (hL : W.Counts V left)
include hV hL

/-- A pass of the loop of a running worker that has no other loop. -/
theorem running_loop {w : Worker W} {s s0 : W.Sess} (hs : w.search = .live s) (hv : V s) (hl : W.Later s0 s) (hr : w.running = true)
    (hloops : w.loops = []) (hin : w.inits = []) (now : ℚ) (l : Loop) :
    ∃ w' out, w.loop now l = (w', out) ∧ w'.Ok V ∧ w'.inits = [] ∧ (∃ s', w'.search = .live s' ∧ W.Later s0 s') ∧
      ((statuses out = [] ∧ w'.loops.length = 1 ∧ w'.running = true) ∨
        (statuses out = [.done] ∧ w'.loops = [] ∧ w'.running = false ∧ ∃ s', w'.search = .live s' ∧ W.finished s' = true)) := by
  have hu : w.search ≠ .broken := by rw [hs]; simp
  have hv' : ∀ x, w.search = .live x → V x := fun x e => by rw [hs] at e; cases e; exact hv
  rcases e : w.loop now l with ⟨w', out⟩
  have hok := loop_ok hV hu hv' (fun _ => ⟨s, hs⟩) e
  have hgo := loop_goesOn now l w
  rw [e] at hgo
  have hin' := loop_inits e
  refine ⟨w', out, rfl, hok, hin'.trans hin, ?_, ?_⟩
  · rcases loop_posts hV hL hu hv' (fun _ => ⟨s, hs⟩) e with ⟨-, h, -⟩ | ⟨_, s', _, _, -, rfl, -⟩ | ⟨_, s', _, rfl, -⟩
    · rw [hr] at h; cases h
    · obtain ⟨s1, h1, h2⟩ := hgo s' rfl
      rw [hs] at h1; cases h1
      exact ⟨s', rfl, hl.trans h2⟩
    · obtain ⟨s1, h1, h2⟩ := hgo s' rfl
      rw [hs] at h1; cases h1
      exact ⟨s', rfl, hl.trans h2⟩
  · rcases loop_posts hV hL hu hv' (fun _ => ⟨s, hs⟩) e with ⟨-, h, -⟩ | ⟨_, s', _, _, rfl, rfl, -, -, hf, -⟩ | ⟨_, s', _, rfl, -, -, -, ho⟩
    · rw [hr] at h; cases h
    · exact .inr ⟨rfl, hloops, rfl, s', rfl, hf⟩
    · exact .inl ⟨statuses_reports ho, by simp [hloops], hr⟩

/-- An evaluation changes nothing in the worker. -/
theorem evaluate_same {w : Worker W} (hw : w.Ok V) {s : W.Sess} (hs : w.search = .live s) (id : W.Id) (which : Which) (now : ℚ) :
    ∃ m, w.receive now (.evaluate id which) = (w, [m]) ∧ ∀ σ ∈ statuses [m], σ = .error := by
  obtain ⟨r, hr⟩ := hV.evaluate id which s (hw.valid s hs)
  simp only [Worker.receive, Worker.onEvaluate, hs, hr]
  cases r with
  | ok a => exact ⟨_, rfl, by simp [statuses, FromWorker.status]⟩
  | notFound => exact ⟨_, rfl, by simp [statuses, FromWorker.status]⟩
  | error => exact ⟨_, rfl, by simp [statuses, FromWorker.status]⟩

theorem Running.on {s0 : W.Sess} {looked : Prop} {p p' : Page W} (h : Running V s0 looked p) {e : PEvent W}
    (he : e.System ∨ e.IsSelect) (hsel : e.IsSelect → looked) (hp : p.on e = some p') : Running V s0 looked p' := by
  obtain ⟨s, hs, hlater⟩ := h.later
  have ask : ∀ (v : View W) (id : W.Id), looked → v.status = p.view.status →
      Running V s0 looked { p with view := v, toWorker := p.toWorker ++ p.view.evaluations id } := by
    intro v id hlook hst
    have hev : ∀ m ∈ p.view.evaluations id, m.IsEvaluate := fun m hm => by
      obtain ⟨_, rfl⟩ := evaluations_light hm; trivial
    refine ⟨h.ok, h.inits, h.later, fun hq => absurd hlook hq, h.posted, ?_⟩
    rcases h.phase with ⟨ys, a, b, c, d⟩ | ⟨a, b, c⟩ | ⟨a, b, c, d, f⟩
    · refine .inl ⟨ys ++ p.view.evaluations id, by rw [a]; rfl, ?_, c, d⟩
      intro m hm
      exact (List.mem_append.mp hm).elim (b m) (hev m)
    · exact .inr (.inl ⟨fun m hm => (List.mem_append.mp hm).elim (a m) (hev m), b, c⟩)
    · exact .inr (.inr ⟨fun m hm => (List.mem_append.mp hm).elim (a m) (hev m), b, c, d, by rw [hst]; exact f⟩)
  -- the end of a pass
  have pass : ∀ {w : Worker W} {ms : List (ToWorker W)} (now : ℚ) (l : Loop), w.search = .live s → w.running = true → w.loops = [] →
      w.inits = [] → (∀ m ∈ ms, m.IsEvaluate) → (∀ m ∈ ms, m ∈ p.toWorker) →
      Running V s0 looked { p with toWorker := ms, worker := (w.loop now l).1, toPage := p.toPage ++ (w.loop now l).2 } := by
    intro w ms now l hws hr hl hin hms hsub
    obtain ⟨w', out, e, ok, i1, l1, ph⟩ := running_loop hV hL hws (h.ok.valid s hs) hlater hr hl hin now l
    rw [e]
    refine ⟨ok, i1, l1, fun hq => ?_, ?_, ?_⟩
    · obtain ⟨q1, q2, q3, q4⟩ := h.quiet hq
      refine ⟨q1, fun m hm => q2 m (hsub m hm), q3, ?_⟩
      rw [statuses_append]
      rcases ph with ⟨ho, -⟩ | ⟨ho, -⟩ <;> rw [ho] <;> simp [q4]
    · intro σ hσ
      rw [statuses_append] at hσ
      rcases List.mem_append.mp hσ with hσ | hσ
      · exact h.posted σ hσ
      · rcases ph with ⟨ho, -⟩ | ⟨ho, -⟩
        · rw [show statuses _ = [] from ho] at hσ; cases hσ
        · rw [show statuses _ = [.done] from ho] at hσ; exact .inl (List.mem_singleton.mp hσ)
    · rcases ph with ⟨ho, a, b⟩ | ⟨ho, a, b, c⟩
      · exact .inr (.inl ⟨hms, a, b⟩)
      · refine .inr (.inr ⟨hms, a, b, c, .inl ?_⟩)
        rw [statuses_append, ho]
        simp
  cases e with
  | refresh =>
    obtain ⟨m, hm, rfl⟩ := Option.map_eq_some_iff.mp hp
    refine ask _ _ ?_ rfl
    by_contra hq
    have := (h.quiet hq).1
    rw [refresh_none this] at hm
    cases hm
  | select id c =>
    cases hp
    exact ask _ _ (hsel trivial) rfl
  | handle now =>
    cases hq : p.toWorker with
    | nil => simp [Page.on, hq] at hp
    | cons m ms =>
      simp only [Page.on, hq, Page.work, Worker.on, Option.map_some, Option.some.injEq] at hp
      subst hp
      have evalCase : m.IsEvaluate → (∀ x ∈ ms, x.IsEvaluate) ∧ (p.worker.loops.length = 1 ∧ p.worker.running = true ∨
            p.worker.loops = [] ∧ p.worker.running = false ∧ (∃ s, p.worker.search = .live s ∧ W.finished s = true) ∧
            (.done ∈ statuses p.toPage ∨ p.view.status = .done ∨ p.view.status = .error)) →
          Running V s0 looked ⟨p.view, ms, (p.worker.receive now m).1, p.toPage ++ (p.worker.receive now m).2⟩ := by
        rintro hm ⟨hms, hph⟩
        cases m with
        | evaluate id which =>
          obtain ⟨o, e1, e2⟩ := evaluate_same hV hL h.ok hs id which now
          rw [e1]
          have hlook : looked := by
            by_contra hq'
            exact (h.quiet hq').2.1 (.evaluate id which) (by rw [hq]; simp) trivial
          refine ⟨h.ok, h.inits, h.later, fun hq' => absurd hlook hq', ?_, ?_⟩
          · intro σ hσ
            rw [statuses_append] at hσ
            exact (List.mem_append.mp hσ).elim (h.posted σ) fun hσ => .inr (e2 σ hσ)
          · rcases hph with ⟨a, b⟩ | ⟨a, b, c, d⟩
            · exact .inr (.inl ⟨hms, a, b⟩)
            · refine .inr (.inr ⟨hms, a, b, c, ?_⟩)
              rw [statuses_append]
              exact d.imp (fun d => List.mem_append.mpr (.inl d)) (fun d => d)
        | _ => cases hm
      rcases h.phase with ⟨ys, a, b, c, d⟩ | ⟨a, b, c⟩ | ⟨a, b, c, d, f⟩
      · rw [hq] at a
        cases a
        have hstart : p.worker.receive now .start = Worker.loop now ⟨0, 0⟩ { p.worker with running := true } := by
          simp [Worker.receive, hs, d]
        rw [hstart]
        exact pass (w := { p.worker with running := true }) now ⟨0, 0⟩ hs rfl c h.inits b (fun x hx => by rw [hq]; simp [hx])
      · rw [hq] at a
        exact evalCase (a m (by simp)) ⟨fun x hx => a x (by simp [hx]), .inl ⟨b, c⟩⟩
      · rw [hq] at a
        exact evalCase (a m (by simp)) ⟨fun x hx => a x (by simp [hx]), .inr ⟨b, c, d, f⟩⟩
  | wake i now =>
    rcases h.phase with ⟨ys, a, b, c, d⟩ | ⟨a, b, c⟩ | ⟨a, b, c, d, f⟩
    · simp [Page.on, Page.work, Worker.on, c] at hp
    · simp only [Page.on, Page.work, Worker.on] at hp
      obtain ⟨r, hr, rfl⟩ := Option.map_eq_some_iff.mp hp
      obtain ⟨l, hl, rfl⟩ := Option.map_eq_some_iff.mp hr
      obtain ⟨l', hl'⟩ := List.length_eq_one_iff.mp b
      have hi : i = 0 := by
        rw [hl'] at hl
        cases i with
        | zero => rfl
        | succ i => cases hl
      subst hi
      exact pass (w := { p.worker with loops := p.worker.loops.eraseIdx 0 }) now l hs c (by simp [hl']) h.inits a (fun x hx => hx)
    · simp [Page.on, Page.work, Worker.on, b] at hp
  | loaded i => simp [Page.on, Page.work, Worker.on, h.inits] at hp
  | loadFailed i => simp [Page.on, Page.work, Worker.on, h.inits] at hp
  | deliver =>
    cases hq : p.toPage with
    | nil => simp [Page.on, hq] at hp
    | cons m ms =>
      simp only [Page.on, hq, Option.some.injEq] at hp
      subst hp
      have hst := statuses_cons m ms
      have hpost := h.posted
      have hsub : ∀ σ ∈ statuses ms, σ ∈ statuses p.toPage := fun σ hσ => by
        rw [hq, hst]; exact List.mem_append.mpr (.inr hσ)
      obtain ⟨d1, d2⟩ := deliver_status p.view m
      have hreq : (p.view.deliver m).requested = p.view.requested := deliver_requested _ fun hi => by
        have := hpost .idle (by rw [hq, hst, hi]; simp)
        rcases this with h | h <;> cases h
      have hnew : (p.view.deliver m).status = p.view.status ∧ statuses ms = statuses p.toPage ∨
          ((p.view.deliver m).status = .done ∧ .done ∈ statuses p.toPage) ∨
          ((p.view.deliver m).status = .error ∧ .error ∈ statuses p.toPage) := by
        cases hm : m.status with
        | none => exact .inl ⟨d2 hm, by rw [hq, hst, hm]; rfl⟩
        | some σ =>
          have hin : σ ∈ statuses p.toPage := by rw [hq, hst, hm]; simp
          rcases hpost σ hin with rfl | rfl
          · exact .inr (.inl ⟨d1 _ hm, hin⟩)
          · exact .inr (.inr ⟨d1 _ hm, hin⟩)
      refine ⟨h.ok, h.inits, h.later, fun hq' => ?_, fun σ hσ => hpost σ (hsub σ hσ), ?_⟩
      · obtain ⟨q1, q2, q3, q4⟩ := h.quiet hq'
        refine ⟨hreq.trans q1, q2, ?_, fun hx => q4 (hsub _ hx)⟩
        rcases hnew with ⟨e1, -⟩ | ⟨e1, -⟩ | ⟨-, e2⟩
        · rw [e1]; exact q3
        · rw [e1]; simp
        · exact absurd e2 q4
      · rcases h.phase with ⟨ys, a, b, c, d⟩ | ⟨a, b, c⟩ | ⟨a, b, c, d, f⟩
        · exact .inl ⟨ys, a, b, c, d⟩
        · exact .inr (.inl ⟨a, b, c⟩)
        · refine .inr (.inr ⟨a, b, c, d, ?_⟩)
          rcases hnew with ⟨e1, e2⟩ | ⟨e1, -⟩ | ⟨e1, -⟩
          · show _ ∈ statuses ms ∨ (p.view.deliver m).status = _ ∨ (p.view.deliver m).status = _
            rw [e1, e2]; exact f
          · exact .inr (.inl e1)
          · exact .inr (.inr e1)
  | _ => rcases he with he | he <;> cases he

theorem Running.run {s0 : W.Sess} {looked : Prop} {p p' : Page W} (h : Running V s0 looked p) {es : List (PEvent W)}
    (he : ∀ e ∈ es, e.System ∨ e.IsSelect) (hsel : ∀ e ∈ es, e.IsSelect → looked) (hp : p.run es = some p') :
    Running V s0 looked p' := by
  induction es generalizing p with
  | nil => cases hp; exact h
  | cons e es ih =>
    unfold Page.run at hp
    simp only [Option.bind_eq_bind, Option.bind_eq_some_iff] at hp
    obtain ⟨q, h1, h2⟩ := hp
    exact ih (h.on hV hL (he e (by simp)) (hsel e (by simp)) h1) (fun e h => he e (by simp [h])) (fun e h => hsel e (by simp [h])) h2

/-- C87: Start.  On a page at rest whose worker has a search, the user clicks Start and does nothing but look at equations until the
page is at rest again.  Then this search has done all its cycles, and the page is shown as done; or it is shown as in error, but
only if an equation was looked at (whose evaluation failed). -/
theorem C87_done {es0 es : List (PEvent W)} {p0 p : Page W} {s0 : W.Sess} (hr : Page.fresh.run es0 = some p0) (h0 : p0.Settled)
    (hs : p0.worker.search = .live s0) (he : ∀ e ∈ es, e.System ∨ e.IsSelect) (h : p0.run (.clickStart :: es) = some p) (hp : p.Settled) :
    (∃ s, p.worker.search = .live s ∧ W.Later s0 s ∧ W.finished s = true) ∧ p.worker.running = false ∧
    (p.view.status = .done ∨ p.view.status = .error ∧ (p0.view.requested ≠ none ∨ ∃ e ∈ es, e.IsSelect)) := by
  have hok := run_page_ok hV Worker.Ok.fresh hr
  obtain ⟨a1, a2, a3, a4, -⟩ := h0.parts
  have hrun : p0.worker.running = false := by
    cases hb : p0.worker.running with
    | false => rfl
    | true => exact absurd a3 (hok.busy hb).2
  unfold Page.run at h
  simp only [Option.bind_eq_bind, Option.bind_eq_some_iff] at h
  obtain ⟨q, h1, h2⟩ := h
  simp only [Page.on] at h1
  split at h1
  · cases h1
    have start : Running V s0 (p0.view.requested ≠ none ∨ ∃ e ∈ es, e.IsSelect)
        { p0 with view := { p0.view with status := .running }, toWorker := p0.toWorker ++ [.start] } := by
      refine ⟨hok, a4, ⟨s0, hs, .refl s0⟩, fun hq => ?_, ?_, ?_⟩
      · push Not at hq
        refine ⟨hq.1, ?_, by simp, by simp [a2, statuses]⟩
        intro m hm
        simp only [a1, List.nil_append, List.mem_singleton] at hm
        subst hm
        exact fun h => h
      · simp [a2, statuses]
      · exact .inl ⟨[], by simp [a1], by simp, a3, hrun⟩
    have fin := start.run hV hL he (fun e hm hsel => .inr ⟨e, hm, hsel⟩) h2
    obtain ⟨b1, b2, b3, b4, -⟩ := hp.parts
    obtain ⟨s, hs', hl⟩ := fin.later
    rcases fin.phase with ⟨ys, a, -⟩ | ⟨-, a, -⟩ | ⟨-, -, c, ⟨s', hs'', hf⟩, d⟩
    · rw [b1] at a; cases a
    · rw [b3] at a; cases a
    · rw [hs'] at hs''
      cases hs''
      refine ⟨⟨s, hs', hl, hf⟩, c, ?_⟩
      rcases d with d | d | d
      · rw [b2] at d; cases d
      · exact .inl d
      · refine .inr ⟨d, ?_⟩
        by_contra hq
        exact (fin.quiet hq).2.2.1 d
  · cases h1

/-- C87: Initialise and Start.  On a page at rest (the Run tab was not left) the user clicks Initialise, waits until the page is at rest,
clicks Start, and does nothing until it is at rest again.  Then the page is shown as done; the search is the one made for the
request, it has done all its cycles, and the snapshot and the front on the page are the last ones of it. -/
theorem C87_search {es0 es1 es2 : List (PEvent W)} {p0 p1 p : Page W} {r : W.Req} (hr : Page.fresh.run es0 = some p0)
    (he0 : ∀ e ∈ es0, ¬ e.IsRemount) (h0 : p0.Settled) (he1 : ∀ e ∈ es1, e.System) (h1 : p0.run (.clickInit r :: es1) = some p1)
    (hp1 : p1.Settled) (he2 : ∀ e ∈ es2, e.System) (h2 : p1.run (.clickStart :: es2) = some p) (hp : p.Settled) :
    p.view.status = .done ∧ ∃ s s' s'' snap, W.create r = some s ∧ W.Later (W.setParetoK 10000 s) s'' ∧ W.finished s'' = true ∧
      p.worker.search = .live s'' ∧ W.step 0 s' = some (s'', snap) ∧ p.view.snapshot = some snap ∧
      W.front 10000 s'' = some p.view.front := by
  have hst : p1.view.status = .ready ∨ p1.view.status = .paused := by
    unfold Page.run at h2
    simp only [Option.bind_eq_bind, Option.bind_eq_some_iff] at h2
    obtain ⟨q, g, -⟩ := h2
    simp only [Page.on] at g
    split at g
    · assumption
    · cases g
  have hall1 : Page.fresh.run (es0 ++ .clickInit r :: es1) = some p1 := by
    rw [page_run_append, hr]; exact h1
  have hall2 : Page.fresh.run (es0 ++ .clickInit r :: es1 ++ .clickStart :: es2) = some p := by
    rw [page_run_append, hall1]; exact h2
  rcases C87_ready h0 he1 h1 hp1 with ⟨s, hc, hs, hv⟩ | ⟨hst', -⟩
  · obtain ⟨⟨s2, g1, g2, g3⟩, -, g5⟩ := C87_done hV hL hall1 hp1 hs (fun e h => .inl (he2 e h)) h2 hp
    have hdone : p.view.status = .done := by
      rcases g5 with g | ⟨-, g | ⟨e, ge, gs⟩⟩
      · exact g
      · exact absurd hv.2.2.2.2.2.1 g
      · have := he2 e ge
        cases e <;> first | exact False.elim gs | exact False.elim this
    refine ⟨hdone, ?_⟩
    have sys : ∀ e : PEvent W, e.System → ¬ e.IsRemount := fun e h1 h2 => by cases e <;> first | exact False.elim h2 | exact False.elim h1
    obtain ⟨-, -, -, -, -, g6⟩ := C84_settled hV hL hall2 (fun e h => by
      simp only [List.mem_append, List.mem_cons] at h
      rcases h with (h | rfl | h) | rfl | h
      · exact he0 e h
      · exact fun h => h
      · exact sys e (he1 e h)
      · exact fun h => h
      · exact sys e (he2 e h)) hp
    obtain ⟨s', s'', snap, e1, e2, e3, e4, e5⟩ := g6 hdone
    rw [g1] at e1
    cases e1
    exact ⟨s, s', s2, snap, hc, g2, g3, g1, e3, e4, e5⟩
  · rw [hst'] at hst
    rcases hst with h | h <;> cases h

/-- C87: and this can always happen: from a page at rest, for every request that is accepted. -/
theorem C87_possible {es0 : List (PEvent W)} {p0 : Page W} {r : W.Req} {s : W.Sess} (hr : Page.fresh.run es0 = some p0) (h0 : p0.Settled)
    (hc : W.create r = some s) : ∃ es1 es2 p1 p, (∀ e ∈ es1, e.System) ∧ (∀ e ∈ es2, e.System) ∧
      p0.run (.clickInit r :: es1) = some p1 ∧ p1.Settled ∧ p1.run (.clickStart :: es2) = some p ∧ p.Settled ∧ p.view.status = .done := by
  obtain ⟨a1, a2, a3, a4, -⟩ := h0.parts
  have hrun : ∃ p1, p0.run [.clickInit r, .handle 0, .loaded 0, .deliver] = some p1 ∧ p1.Settled := by
    refine ⟨{ p0 with
      view := { (View.cleared .initializing : View W) with status := .ready, split := some (W.split (W.setParetoK 10000 s)) }
      worker := { p0.worker with running := false, search := .live (W.setParetoK 10000 s) } }, ?_, ?_⟩
    · obtain ⟨v, q, w, m⟩ := p0
      obtain ⟨w1, w2, w3, w4⟩ := w
      simp only at a1 a2 a3 a4
      subst a1 a2 a3 a4
      simp [Page.run, Page.on, Page.work, Worker.on, Worker.receive, Worker.loaded, hc, View.deliver]
    · exact Page.settled_of a1 a2 a3 a4 rfl
  obtain ⟨p1, g1, g2⟩ := hrun
  have he1 : ∀ e ∈ [PEvent.handle 0, .loaded 0, .deliver], (e : PEvent W).System := by simp [PEvent.System]
  rcases C87_ready h0 he1 g1 g2 with ⟨s', hc', hs, hv⟩ | ⟨-, h | ⟨i, h⟩⟩
  · have hall1 : Page.fresh.run (es0 ++ [.clickInit r, .handle 0, .loaded 0, .deliver]) = some p1 := by
      rw [page_run_append, hr]; exact g1
    have hstart : p1.on .clickStart = some { p1 with view := { p1.view with status := .running }, toWorker := p1.toWorker ++ [.start] } := by
      simp [Page.on, hv.1]
    have hall2 : Page.fresh.run (es0 ++ [.clickInit r, .handle 0, .loaded 0, .deliver] ++ [.clickStart]) =
        some { p1 with view := { p1.view with status := .running }, toWorker := p1.toWorker ++ [.start] } := by
      rw [page_run_append, hall1]
      simp only [Option.bind_some, Page.run, hstart, Option.bind_eq_bind]
    obtain ⟨es2, p, e1, e2, e3⟩ := C84_rest_reached hV hL hall2
    have hrun2 : p1.run (.clickStart :: es2) = some p := by
      simp only [Page.run, hstart, Option.bind_eq_bind, Option.bind_some]; exact e2
    refine ⟨_, es2, p1, p, he1, e1, g1, g2, hrun2, e3, ?_⟩
    obtain ⟨-, -, g | ⟨-, g | ⟨e, ge, gs⟩⟩⟩ := C87_done hV hL hall1 g2 hs (fun e h => .inl (e1 e h)) hrun2 e3
    · exact g
    · exact absurd hv.2.2.2.2.2.1 g
    · have := e1 e ge
      cases e <;> first | exact False.elim gs | exact False.elim this
  · rw [hc] at h; cases h
  · simp at h

end
end SR

/-! ### The sessions of the page -/

namespace SR
section
variable [E : Env ℚ] {S : OpTable} {ws : Char → Bool} {T : Texts ℚ} {d : SOptions ℚ} {streams : Nat → Streams} {ok : InitMsg → Prop}

/-- If the text of the message can be read, the request is one that can be searched (C86). -/
def InitMsg.Searchable (d : SOptions ℚ) (m : InitMsg) : Prop :=
  ∀ headers rows, sessionRead (effective m.options).columns.hasHeaders m.text = some (headers, rows) →
    (webRequestOf d (effective m.options) m headers rows).Feasible

theorem open_wasmNew (m : InitMsg) :
    Session.open S ws (m.openArgs d streams).request (m.openArgs d streams).splitRng (m.openArgs d streams).seeds
      (m.openArgs d streams).orderRng = wasmNew S ws d streams m := by
  unfold wasmNew InitMsg.openArgs
  cases h : sessionRead (effective m.options).columns.hasHeaders m.text with
  | some t => simp only [h, Option.getD_some]
  | none =>
    simp only [h, Option.getD_none]
    refine (C73_refused _ _ _ _ _ _).mpr (.inr (.inl fun nCols yCol hv => ?_))
    exact hv.nonempty rfl

theorem page_create {m : { m : InitMsg // ok m }} {s : Session ℚ} :
    (pageWasm S ws T d streams ok).create m = some s ↔ wasmNew S ws d streams m.1 = some (some s) := by
  rw [← open_wasmNew, ← Option.join_eq_some_iff]
  rfl

theorem count_lt (o : JsObj) (name : String) {n : Nat} (hn : n < 2 ^ 32) : o.count name n < 2 ^ 32 := by
  unfold JsObj.count JsObj.read
  split
  · exact hn
  · next v _ =>
    cases h : natField wasmUsizeMax v with
    | none => exact hn
    | some k =>
      have := (natField_eq.mp h).2
      have e : wasmUsizeMax = 2 ^ 32 - 1 := rfl
      simp only [Option.getD_some]
      omega

theorem page_runnable (hE : RustEnv E) (hD : E.D = 3) (hS : S.KnownTo E) (hst : ∀ k i, UnitStream ((streams k).seeds i))
    (hp : d.populations < 2 ^ 32) (hp' : d.populationSize < 2 ^ 32) (hok : ∀ m, ok m → m.Searchable d) :
    Runnable S ws (Rq := { m : InitMsg // ok m }) fun m => m.1.openArgs d streams := by
  refine C83_sensible (fun r i => hst _ i) fun m ops s h0 => ?_
  obtain ⟨train, h1, h2⟩ := h0.data
  obtain ⟨t1, t2, t3⟩ := tagged_fields h2
  have hne : ∃ headers rows, sessionRead (effective m.1.options).columns.hasHeaders m.1.text = some (headers, rows) := by
    cases h : sessionRead (effective m.1.options).columns.hasHeaders m.1.text with
    | some t => exact ⟨t.1, t.2, rfl⟩
    | none =>
      obtain ⟨-, -, nCols, yCol, f, cols, hv, -⟩ := h1
      exact absurd (by simp [InitMsg.openArgs, webRequestOf, h]) hv.nonempty
  obtain ⟨headers, rows, hr⟩ := hne
  have hq : (m.1.openArgs d streams).request.Feasible := by
    have := hok m.1 m.2 headers rows hr
    simpa only [InitMsg.openArgs, hr, Option.getD_some] using this
  refine ⟨feasible_search hE hD hS hq h0.operators h0.options h1 t1 t2 t3, ?_⟩
  have e := h0.options.core
  have g1 : s.opts.populations < 2 ^ 32 := by rw [e]; exact count_lt _ _ hp
  have g2 : s.opts.populationSize < 2 ^ 32 := by rw [e]; exact count_lt _ _ hp'
  calc s.opts.populations * s.opts.populationSize ≤ 2 ^ 32 * s.opts.populationSize := Nat.mul_le_mul_right _ g1.le
    _ < 2 ^ 32 * 2 ^ 32 := Nat.mul_lt_mul_of_pos_left g2 (by decide)
    _ = 2 ^ 64 := by decide

/-- What became of a session: the same data and options, reached by calls. -/
theorem later_calls {s0 s s' : (pageWasm S ws T d streams ok).Sess} {cs : List WebCall} {rs : List (WebReply ℚ)}
    (h : (pageWasm S ws T d streams ok).Later s s') (hc : Session.calls (K := ℚ) T cs s0 = some (s, rs)) :
    ∃ cs' rs', Session.calls (K := ℚ) T cs' s0 = some (s', rs') := by
  induction h generalizing cs rs with
  | refl => exact ⟨cs, rs, hc⟩
  | @step n s s' s'' p h1 _ ih =>
    have h1 : Session.step (K := ℚ) T s n = some (s', p) := h1
    have : Session.call (K := ℚ) T s (.step n) = some (s', .snapshot p) := by simp only [Session.call, h1]; rfl
    exact ih (calls_snoc hc this)

/-- C87: the web page.  The user clicks Initialise on a page at rest, with data, operators and options that are accepted; the module is
loaded; and nothing else is done until the page is at rest.  Then Start can be clicked: the page is shown as ready. -/
theorem C87_page_ready (hE : RustEnv E) (hD : E.D = 3) (hS : S.KnownTo E) {p0 p : Page (pageWasm S ws T d streams ok)}
    {m : { m : InitMsg // ok m }} {es : List (PEvent (pageWasm S ws T d streams ok))} (hm : m.1.Searchable d) {headers : List String}
    {rows : List (List (Fl ℚ))} (hr : sessionRead (effective m.1.options).columns.hasHeaders m.1.text = some (headers, rows))
    (hops : ∃ ops, (webRequestOf d (effective m.1.options) m.1 headers rows).Operators S ws ops)
    (hv : ∃ nCols yCol, ValidRequest rows (effective m.1.options).columns nCols yCol)
    (hl : (effective m.1.options).loss.parse ws ≠ none)
    (h0 : p0.Settled) (he : ∀ e ∈ es, e.System) (hload : ∀ i, .loadFailed i ∉ es) (h : p0.run (.clickInit m :: es) = some p)
    (hp : p.Settled) : ∃ s, wasmNew S ws d streams m.1 = some (some s) ∧ p.worker.search = .live { s with paretoK := 10000 } ∧
      p.view.isReady s.split := by
  have ho : ∃ s, wasmNew S ws d streams m.1 = some (some s) := by
    unfold wasmNew
    simp only [hr]
    exact C86_opens hE hD hS (hm _ _ hr) _ _ _ hops hv hl
  obtain ⟨s, hs⟩ := ho
  have hc := (page_create (T := T) (ok := ok)).mpr hs
  rcases C87_ready h0 he h hp with ⟨s', h1, h2, h3⟩ | ⟨-, h1 | ⟨i, h1⟩⟩
  · rw [hc] at h1
    cases h1
    exact ⟨s, hs, h2, h3⟩
  · rw [hc] at h1; cases h1
  · exact absurd h1 (hload i)

/-- C87: the web page.  On a page at rest the user clicks Initialise, waits, clicks Start, and waits.  Then the page is shown as done; the
search it was done by is the one opened for the message, with the options on the page, and it has done all its cycles, as the page
says; its state is the one in which `run_to_completion` ends; the equations on the page are its front. -/
theorem C87_page (hE : RustEnv E) (hD : E.D = 3) (hS : S.KnownTo E) (hst : ∀ k i, UnitStream ((streams k).seeds i))
    (hws : ∀ c, ws c = true → c.isAlpha = false ∧ c ≠ '-' ∧ c ≠ '_') {sqrt : Fl ℚ → Fl ℚ} {finiteMax : Nat}
    (hok : ∀ m, ok m → m.Searchable (SOptions.default 3 sqrt finiteMax))
    {p0 p1 p : Page (pageWasm S ws T (SOptions.default 3 sqrt finiteMax) streams ok)} {m : { m : InitMsg // ok m }}
    {es0 es1 es2 : List (PEvent (pageWasm S ws T (SOptions.default 3 sqrt finiteMax) streams ok))}
    (hr : Page.fresh.run es0 = some p0) (he0 : ∀ e ∈ es0, ¬ e.IsRemount) (h0 : p0.Settled) (he1 : ∀ e ∈ es1, e.System)
    (h1 : p0.run (.clickInit m :: es1) = some p1) (hp1 : p1.Settled) (he2 : ∀ e ∈ es2, e.System)
    (h2 : p1.run (.clickStart :: es2) = some p) (hp : p.Settled) (hm : AllSuit m.1.options) :
    p.view.status = .done ∧ ∃ (s0 s : Session ℚ) (snap : Snapshot ℚ),
      wasmNew S ws (SOptions.default 3 sqrt finiteMax) streams m.1 = some (some s0) ∧
      p.worker.search = .live s ∧ p.view.snapshot = some snap ∧ ShowsCore m.1.options s.opts ∧ s.opts = s0.opts ∧ s.train = s0.train ∧
      s.names = s0.names ∧ (∃ e, s0.engine.RunsTo s0.opts s0.train e ∧ s.engine.shared = e.shared) ∧
      s.snapshot T = some snap ∧ s.bestEquations T 10000 = some p.view.front ∧
      snap.totalCycles = s.opts.niterations * s.opts.populations ∧
      snap.cyclesCompleted = s.opts.niterations * s.opts.populations := by
  have hR := page_runnable (ws := ws) hE hD hS hst (d := SOptions.default 3 sqrt finiteMax) (show 31 < 2 ^ 32 by decide)
    (show 27 < 2 ^ 32 by decide) hok
  have hV := C83_session (T := T) hR
  have hL := C83_session_counts (T := T) hR
  obtain ⟨hd, s0, s', s, snap, hc, hl, hf, hsr, hstep, hsn, hfr⟩ := C87_search hV hL hr he0 h0 he1 h1 hp1 he2 h2 hp
  have hnew := page_create.mp hc
  have hopen := create_open hc
  obtain ⟨-, ⟨ops, N, hop, Q⟩, -⟩ := hR _ s0 hopen
  obtain ⟨cs, rs, hcalls⟩ := later_calls (s0 := s0) (cs := [.setParetoK 10000]) (rs := [.done]) hl rfl
  obtain ⟨a1, a2, a3, -, -, -, k, e⟩ := C73_state hcalls
  obtain ⟨-, b1, b2⟩ := reached hop Q.search hcalls
  obtain ⟨-, -, -, hss, -⟩ := session_step (show Session.step T s' 0 = some (s, snap) from hstep)
  have hcore := (C86_session hws 3 sqrt finiteMax hm hnew).1
  have hfresh : s0.engine.Fresh s0.opts s0.opts.populations := by
    obtain ⟨sh, hi, -, hf, -⟩ := C59_init Q.search (m.1.openArgs (SOptions.default 3 sqrt finiteMax) streams).seeds
    have := hop.engine
    rw [Engine.new, hi] at this
    simp only [Option.map_some, Option.some.injEq] at this
    rw [← this]
    exact ⟨hf, rfl, rfl, rfl⟩
  have hfin : s.engine.shared.counters.total - s.engine.shared.counters.completed = 0 := beq_iff_eq.mp hf
  rw [b1, b2] at hfin
  have hsnap : snap.totalCycles = s.engine.shared.counters.total ∧ snap.cyclesCompleted = s.engine.shared.counters.completed := by
    unfold Session.snapshot at hss
    obtain ⟨b, -, rfl⟩ := Option.map_eq_some_iff.mp hss
    exact ⟨rfl, rfl⟩
  obtain ⟨g1, g2⟩ := hsnap
  refine ⟨hd, s0, s, snap, hnew, hsr, hsn, by rw [a1]; exact hcore, a1, a2, a3, ?_, hss, hfr, ?_, ?_⟩
  · have hge : s0.opts.niterations * s0.opts.populations ≤ askedCycles cs := by omega
    exact ⟨_, (C45_run_to_completion hfresh _ hge).1 _ _ e, rfl⟩
  · rw [g1, b2, a1]
  · rw [g2, b1, a1]
    omega

end
end SR

/-! ### A concrete page -/

namespace SR
open Demo OptDemo
local instance instPageRun : Env ℚ := optEnv

/-- Whatever the streams (of draws as the generator makes them): on a page just loaded the user clicks Initialise with the options
"target column 0, seven iterations", and Start: this can go on until the page is at rest, and whenever it does, the page is shown as
done, and says that 217 of 217 cycles (of 31 populations) are done. -/
theorem OptDemo.page_done (T : Texts ℚ) (sqrt : Fl ℚ → Fl ℚ) (finiteMax : Nat) (streams : Nat → Streams)
    (hst : ∀ k i, UnitStream ((streams k).seeds i)) :
    let W := pageWasm webTable Char.isWhitespace T (SOptions.default 3 sqrt finiteMax) streams (· = msg chosen)
    let m : W.Req := ⟨msg chosen, rfl⟩
    (∃ es1 es2 p1 p, (∀ e ∈ es1, e.System) ∧ (∀ e ∈ es2, e.System) ∧ (Page.fresh : Page W).run (.clickInit m :: es1) = some p1 ∧
      p1.Settled ∧ p1.run (.clickStart :: es2) = some p ∧ p.Settled) ∧
    ∀ es1 es2 p1 p, (∀ e ∈ es1, e.System) → (∀ e ∈ es2, e.System) → (Page.fresh : Page W).run (.clickInit m :: es1) = some p1 →
      p1.Settled → p1.run (.clickStart :: es2) = some p → p.Settled →
      p.view.status = .done ∧ ∃ snap : Snapshot ℚ, p.view.snapshot = some snap ∧ snap.totalCycles = 217 ∧ snap.cyclesCompleted = 217 := by
  intro W m
  have hok : ∀ m, m = msg chosen → m.Searchable (SOptions.default 3 sqrt finiteMax) := by
    rintro _ rfl headers rows hr
    simp only [show (msg chosen).options = chosen from rfl, chosen_effective] at hr ⊢
    rw [chosen_read] at hr
    cases hr
    exact chosen_feasible sqrt finiteMax
  have hfresh : (Page.fresh : Page W).Settled := Page.settled_of rfl rfl rfl rfl rfl
  have hR := page_runnable (ws := Char.isWhitespace) (E := optEnv) optEnv_ok rfl table_known hst
    (d := SOptions.default 3 sqrt finiteMax) (show 31 < 2 ^ 32 by decide) (show 27 < 2 ^ 32 by decide) hok
  obtain ⟨s, hs, h7, h31⟩ := chosen_opens sqrt finiteMax streams
  constructor
  · obtain ⟨es1, es2, p1, p, h⟩ := C87_possible (C83_session (T := T) hR) (C83_session_counts (T := T) hR) (es0 := []) rfl hfresh
      (r := m) (page_create.mpr hs)
    exact ⟨es1, es2, p1, p, h.1, h.2.1, h.2.2.1, h.2.2.2.1, h.2.2.2.2.1, h.2.2.2.2.2.1⟩
  · intro es1 es2 p1 p he1 he2 h1 hp1 h2 hp
    obtain ⟨a, s0, s', snap, b1, -, b3, -, b5, -, -, -, -, -, b9, b10⟩ := C87_page (E := optEnv) optEnv_ok rfl table_known hst white_ok hok
      (es0 := []) (T := T) (m := m) rfl (by simp) hfresh he1 h1 hp1 he2 h2 hp chosen_suit
    rw [show wasmNew webTable Char.isWhitespace (SOptions.default 3 sqrt finiteMax) streams m.1 = _ from hs] at b1
    cases b1
    rw [b5, h7, h31] at b9 b10
    exact ⟨a, snap, b3, b9, b10⟩

end SR
