import Verif.Spec.Worker
import Mathlib.Tactic.Ring
/-
C83: the background worker of the web page, for every sequence of messages and every interleaving of its waits.
-/
namespace SR
variable {W : Wasm}

/-! ### Calls on the object -/

theorem Obj.step_some {x x' : Obj W.Sess} {n : Nat} {p : W.Snap} (h : x.step n = (x', some p)) :
    ∃ s s', x = .live s ∧ x' = .live s' ∧ W.step n s = some (s', p) := by
  cases x with
  | null => cases h
  | broken => cases h
  | live s =>
    simp only [Obj.step] at h
    split at h
    · next s' p' e => cases h; exact ⟨s, s', rfl, rfl, e⟩
    · cases h

theorem Obj.step_none {x x' : Obj W.Sess} {n : Nat} (h : x.step n = (x', none)) :
    (x' = x ∧ x.get = none) ∨ ∃ s, x = .live s ∧ x' = .broken ∧ W.step n s = none := by
  cases x with
  | null => cases h; exact .inl ⟨rfl, rfl⟩
  | broken => cases h; exact .inl ⟨rfl, rfl⟩
  | live s =>
    simp only [Obj.step] at h
    split at h
    · cases h
    · next e => cases h; exact .inr ⟨s, rfl, rfl, e⟩

theorem Obj.front_some {x x' : Obj W.Sess} {k : Nat} {f : List W.Item} (h : x.front k = (x', some f)) :
    ∃ s, x = .live s ∧ x' = .live s ∧ W.front k s = some f := by
  cases x with
  | null => cases h
  | broken => cases h
  | live s =>
    simp only [Obj.front] at h
    split at h
    · next f' e => cases h; exact ⟨s, rfl, rfl, e⟩
    · cases h

theorem Obj.front_none {x x' : Obj W.Sess} {k : Nat} (h : x.front k = (x', none)) :
    (x' = x ∧ x.get = none) ∨ ∃ s, x = .live s ∧ x' = .broken ∧ W.front k s = none := by
  cases x with
  | null => cases h; exact .inl ⟨rfl, rfl⟩
  | broken => cases h; exact .inl ⟨rfl, rfl⟩
  | live s =>
    simp only [Obj.front] at h
    split at h
    · cases h
    · next e => cases h; exact .inr ⟨s, rfl, rfl, e⟩

section
variable {opened : W.Req → Prop}

theorem tells_step {x x' : Obj W.Sess} {n : Nat} {r : Option W.Snap} (h : x.step n = (x', r)) :
    Tells opened x.get [] x'.get := by
  cases r with
  | some p =>
    obtain ⟨s, s', rfl, rfl, e⟩ := Obj.step_some h
    exact .work e (.nil _)
  | none =>
    rcases Obj.step_none h with ⟨rfl, -⟩ | ⟨s, rfl, rfl, e⟩
    · exact .nil _
    · exact .panic (.inl ⟨n, e⟩) (.nil _)

theorem tells_snapshot {x x' : Obj W.Sess} {p : W.Snap} (h : x.step 0 = (x', some p)) :
    Tells opened x.get [.snapshot p] x'.get := by
  obtain ⟨s, s', rfl, rfl, e⟩ := Obj.step_some h
  exact .snapshot e (.nil _)

theorem tells_front {x x' : Obj W.Sess} {f : List W.Item} (h : x.front 10000 = (x', some f)) :
    Tells opened x.get [.front f] x'.get := by
  obtain ⟨s, rfl, rfl, e⟩ := Obj.front_some h
  exact .front e (.nil _)

theorem tells_front_none {x x' : Obj W.Sess} {k : Nat} (h : x.front k = (x', none)) : Tells opened x.get [] x'.get := by
  rcases Obj.front_none h with ⟨rfl, -⟩ | ⟨s, rfl, rfl, e⟩
  · exact .nil _
  · exact .panic (.inr (.inl ⟨k, e⟩)) (.nil _)

theorem snapPart_tells {now : ℚ} {l : Loop} {x x' : Obj W.Sess} {l' : Option Loop} {out : List (FromWorker W)}
    (h : snapPart now l x = (x', l', out)) : Tells opened x.get out x'.get := by
  unfold snapPart at h
  split at h
  · split at h
    · next e => cases h; exact tells_snapshot e
    · next e => cases h; exact tells_step e
  · cases h; exact .nil _

theorem frontPart_tells {now : ℚ} {l : Loop} {x x' : Obj W.Sess} {l' : Option Loop} {out : List (FromWorker W)}
    (h : frontPart now l x = (x', l', out)) : Tells opened x.get out x'.get := by
  unfold frontPart at h
  split at h
  · split at h
    · next e => cases h; exact tells_front e
    · next e => cases h; exact tells_front_none e
  · cases h; exact .nil _

theorem body_tells {now : ℚ} {l : Loop} {w w' : Worker W} {out : List (FromWorker W)} (h : w.body now l = (w', out)) :
    Tells opened w.search.get out w'.search.get ∧ w'.inits = w.inits := by
  unfold Worker.body at h
  split at h
  · next e => cases h; exact ⟨tells_step e, rfl⟩
  · next x1 p e =>
    split at h
    · next e2 => cases h; exact ⟨(tells_step e).append (snapPart_tells e2), rfl⟩
    · next e2 =>
      split at h
      · next e3 => cases h; exact ⟨(tells_step e).append ((snapPart_tells e2).append (frontPart_tells e3)), rfl⟩
      · next e3 => cases h; exact ⟨(tells_step e).append ((snapPart_tells e2).append (frontPart_tells e3)), rfl⟩

theorem finish_tells (hW : ∀ s s' p, W.step 0 s = some (s', p) → W.finished s = true → W.finished s' = true)
    {w w' : Worker W} {out : List (FromWorker W)} (hf : w.search.finished = some true)
    (h : w.finish = (w', out)) : Tells opened w.search.get out w'.search.get ∧ w'.inits = w.inits := by
  unfold Worker.finish at h
  split at h
  · next e => cases h; exact ⟨tells_step e, rfl⟩
  · next x1 p e =>
    split at h
    · next e2 => cases h; exact ⟨(tells_snapshot e).append (tells_front_none e2), rfl⟩
    · next x2 f e2 =>
      cases h
      refine ⟨(tells_snapshot e).append ((tells_front e2).append ?_), rfl⟩
      obtain ⟨s, s', h1, h2, h3⟩ := Obj.step_some e
      obtain ⟨s2, h4, h5, h6⟩ := Obj.front_some e2
      rw [h1] at hf
      rw [h2] at h4
      cases h4
      rw [h5]
      refine .done (hW s s' p h3 ?_) (.nil _)
      simpa [Obj.finished] using hf

theorem loop_tells (hW : ∀ s s' p, W.step 0 s = some (s', p) → W.finished s = true → W.finished s' = true)
    {now : ℚ} {l : Loop} {w w' : Worker W} {out : List (FromWorker W)} (h : w.loop now l = (w', out)) :
    Tells opened w.search.get out w'.search.get ∧ w'.inits = w.inits := by
  unfold Worker.loop at h
  split at h
  · cases h; exact ⟨.paused (.nil _), rfl⟩
  · split at h
    · cases h; exact ⟨.nil _, rfl⟩
    · next e => exact finish_tells hW e h
    · exact body_tells h

theorem on_tells (hW : ∀ s s' p, W.step 0 s = some (s', p) → W.finished s = true → W.finished s' = true)
    {w w' : Worker W} {e : WEvent W} {out : List (FromWorker W)} (hi : ∀ r ∈ w.inits, opened r)
    (he : ∀ r now, e = .receive (.init r) now → opened r) (h : w.on e = some (w', out)) :
    Tells opened w.search.get out w'.search.get ∧ ∀ r ∈ w'.inits, opened r := by
  cases e with
  | receive m now =>
    simp only [Worker.on, Option.some.injEq] at h
    cases m with
    | init r =>
      cases h
      refine ⟨.nil _, fun r' hr => ?_⟩
      rcases List.mem_append.mp hr with hr | hr
      · exact hi _ hr
      · rw [List.mem_singleton] at hr
        exact he r' now (by rw [hr])
    | reset => cases h; exact ⟨.resetDone (.nil _), hi⟩
    | pause => cases h; exact ⟨.paused (.nil _), hi⟩
    | step n =>
      have key : ∀ {w w' : Worker W} {out : List (FromWorker W)}, w.onStep n = (w', out) →
          Tells opened w.search.get out w'.search.get ∧ w'.inits = w.inits := by
        intro w w' out h
        unfold Worker.onStep at h
        split at h
        · next e => cases h; exact ⟨(tells_step e).append (.error (.nil _)), rfl⟩
        · next e =>
          split at h
          · next e2 => cases h; exact ⟨(tells_step e).append ((tells_step e2).append (.error (.nil _))), rfl⟩
          · next e2 =>
            split at h
            · next e3 =>
              cases h
              exact ⟨(tells_step e).append ((tells_snapshot e2).append ((tells_front_none e3).append (.error (.nil _)))), rfl⟩
            · next e3 => cases h; exact ⟨(tells_step e).append ((tells_snapshot e2).append (tells_front e3)), rfl⟩
      simp only [Worker.receive] at h
      split at h
      · cases h; exact ⟨.error (.nil _), hi⟩
      · obtain ⟨a, b⟩ := key h
        exact ⟨a, by rw [b]; exact hi⟩
    | evaluate id which =>
      simp only [Worker.receive, Worker.onEvaluate] at h
      split at h
      · next s hs =>
        split at h
        · next a e => cases h; rw [hs]; exact ⟨.answer e (.nil _), hi⟩
        · cases h; exact ⟨.error (.nil _), hi⟩
        · cases h; exact ⟨.error (.nil _), hi⟩
        · next e => cases h; rw [hs]; exact ⟨.panic (.inr (.inr ⟨id, which, e⟩)) (.error (.nil _)), hi⟩
      · cases h; exact ⟨.error (.nil _), hi⟩
    | start =>
      simp only [Worker.receive] at h
      split at h
      · cases h; exact ⟨.error (.nil _), hi⟩
      · split at h
        · cases h; exact ⟨.nil _, hi⟩
        · obtain ⟨a, b⟩ := loop_tells (opened := opened) hW h
          exact ⟨a, by rw [b]; exact hi⟩
  | wake i now =>
    obtain ⟨l, -, h⟩ := Option.map_eq_some_iff.mp h
    obtain ⟨a, b⟩ := loop_tells (opened := opened) hW h
    exact ⟨a, by rw [b]; exact hi⟩
  | loaded i =>
    obtain ⟨r, hr, h⟩ := Option.map_eq_some_iff.mp h
    have hsub : ∀ r' ∈ w.inits.eraseIdx i, opened r' := fun r' h => hi r' (List.mem_of_mem_eraseIdx h)
    simp only [Worker.loaded] at h
    split at h
    · cases h; exact ⟨.error (.nil _), hsub⟩
    · next s e => cases h; exact ⟨.ready (hi r (List.mem_of_getElem? hr)) e (.nil _), hsub⟩
  | loadFailed i =>
    obtain ⟨r, hr, h⟩ := Option.map_eq_some_iff.mp h
    cases h
    exact ⟨.error (.nil _), fun r' h => hi r' (List.mem_of_mem_eraseIdx h)⟩

theorem run_tells (hW : ∀ s s' p, W.step 0 s = some (s', p) → W.finished s = true → W.finished s' = true)
    {es : List (WEvent W)} {w w' : Worker W} {out : List (FromWorker W)} (hi : ∀ r ∈ w.inits, opened r)
    (he : ∀ r, Asked es r → opened r) (h : w.run es = some (w', out)) :
    Tells opened w.search.get out w'.search.get := by
  induction es generalizing w out with
  | nil => cases h; exact .nil _
  | cons e es ih =>
    unfold Worker.run at h
    simp only [Option.bind_eq_bind, Option.bind_eq_some_iff, Option.some.injEq, Prod.mk.injEq] at h
    obtain ⟨⟨w1, o1⟩, h1, ⟨w2, o2⟩, h2, rfl, rfl⟩ := h
    obtain ⟨a, b⟩ := on_tells hW hi (fun r now e => he r ⟨now, by simp [e]⟩) h1
    exact a.append (ih b (fun r ⟨now, hr⟩ => he r ⟨now, by simp [hr]⟩) h2)
end

/-- C83: the worker is truthful.  Whatever messages it receives, and however its waits interleave with them, everything it posts
about a search is the reply, at that moment, of the search that the last `ready` announced: a search made for one of the requests
it received and not reset since; and `done` is posted only when it is finished. -/
theorem C83_truthful (hW : ∀ s s' p, W.step 0 s = some (s', p) → W.finished s = true → W.finished s' = true)
    {es : List (WEvent W)} {w : Worker W} {out : List (FromWorker W)} (h : Worker.fresh.run es = some (w, out)) :
    Tells (Asked es) none out w.search.get :=
  run_tells hW (by simp [Worker.fresh]) (fun _ h => h) h


/-! ### A running worker has work waiting -/

section
variable {V : W.Sess → Prop} (hV : W.Safe V)
include hV

theorem Obj.step_safe {s : W.Sess} (hs : V s) (n : Nat) :
    ∃ s' p, Obj.step n (.live s) = (.live s', some p) ∧ W.step n s = some (s', p) ∧ V s' := by
  obtain ⟨s', p, h, hs'⟩ := hV.step n s hs
  exact ⟨s', p, by simp only [Obj.step, h], h, hs'⟩

theorem Obj.front_safe {s : W.Sess} (hs : V s) (k : Nat) :
    ∃ f, Obj.front k (.live s) = (.live s, some f) := by
  obtain ⟨f, h⟩ := hV.front k s hs
  exact ⟨f, by simp only [Obj.front, h]⟩

theorem body_safe {w : Worker W} {s : W.Sess} (hw : w.search = .live s) (hs : V s) (now : ℚ) (l : Loop) :
    ∃ s' l' out, w.body now l = ({ w with search := .live s', loops := w.loops ++ [l'] }, out) ∧ V s' ∧
      (∀ m ∈ out, m.isEnd = false) ∧ ∀ left, W.Counts V left → left s' = left s - 10 := by
  obtain ⟨s1, p, h1, e1, v1⟩ := Obj.step_safe hV hs 10
  unfold Worker.body
  rw [hw, h1]
  simp only
  have a : ∃ s2 l2 o2, snapPart now l (.live s1) = (.live s2, some l2, o2) ∧ V s2 ∧ (∀ m ∈ o2, m.isEnd = false) ∧
      ∀ left, W.Counts V left → left s2 = left s1 := by
    unfold snapPart
    split
    · obtain ⟨s2, p2, h2, e2, v2⟩ := Obj.step_safe hV v1 0
      rw [h2]
      exact ⟨s2, _, _, rfl, v2, by simp [FromWorker.isEnd], fun left hc => by simpa using hc.step 0 s1 s2 p2 v1 e2⟩
    · exact ⟨s1, l, _, rfl, v1, by simp, fun _ _ => rfl⟩
  obtain ⟨s2, l2, o2, h2, v2, q2, c2⟩ := a
  rw [h2]
  simp only
  have b : ∃ l3 o3, frontPart now l2 (.live s2) = (.live s2, some l3, o3) ∧ (∀ m ∈ o3, m.isEnd = false) := by
    unfold frontPart
    split
    · obtain ⟨f, h3⟩ := Obj.front_safe hV v2 10000
      rw [h3]
      exact ⟨_, _, rfl, by simp [FromWorker.isEnd]⟩
    · exact ⟨l2, _, rfl, by simp⟩
  obtain ⟨l3, o3, h3, q3⟩ := b
  rw [h3]
  refine ⟨s2, l3, _, rfl, v2, ?_, fun left hc => by rw [c2 left hc, hc.step 10 s s1 p hs e1]⟩
  intro m hm
  rcases List.mem_append.mp hm with hm | hm
  · exact q2 m hm
  · exact q3 m hm

theorem finish_safe {w : Worker W} {s : W.Sess} (hw : w.search = .live s) (hs : V s) :
    ∃ s' p f, w.finish = ({ w with search := .live s', running := false }, [.snapshot p, .front f, .done]) ∧ V s' ∧
      ∀ left, W.Counts V left → left s' = left s := by
  obtain ⟨s1, p, h1, e1, v1⟩ := Obj.step_safe hV hs 0
  obtain ⟨f, h2⟩ := Obj.front_safe hV v1 10000
  refine ⟨s1, p, f, ?_, v1, fun left hc => by simpa using hc.step 0 s s1 p hs e1⟩
  unfold Worker.finish
  rw [hw, h1]
  simp only [h2]
end

/-- What holds of a worker whose searches do not panic: its search can be used, and while it is running there is a search, and
a loop waits to go on with it. -/
structure Worker.Ok (V : W.Sess → Prop) (w : Worker W) : Prop where
  usable : w.search ≠ .broken
  valid : ∀ s, w.search = .live s → V s
  busy : w.running = true → (∃ s, w.search = .live s) ∧ w.loops ≠ []

theorem Worker.Ok.fresh {V : W.Sess → Prop} : (Worker.fresh : Worker W).Ok V :=
  ⟨(by simp [Worker.fresh]), (by simp [Worker.fresh]), (by simp [Worker.fresh])⟩

section
variable {V : W.Sess → Prop} (hV : W.Safe V)
include hV

/-- A pass of a loop, when the search does not panic: it ends because the worker was paused, because the search is finished, or it
does ten cycles and waits again. -/
theorem loop_cases {w : Worker W} (hu : w.search ≠ .broken) (hv : ∀ s, w.search = .live s → V s)
    (hb : w.running = true → ∃ s, w.search = .live s) (now : ℚ) (l : Loop) :
    (w.running = false ∧ w.loop now l = (w, [.paused])) ∨
    (∃ s s' p f, w.running = true ∧ w.search = .live s ∧ W.finished s = true ∧
      w.loop now l = ({ w with search := .live s', running := false }, [.snapshot p, .front f, .done]) ∧ V s' ∧
      ∀ left, W.Counts V left → left s' = left s) ∨
    ∃ s s' l' out, w.running = true ∧ w.search = .live s ∧ W.finished s = false ∧
      w.loop now l = ({ w with search := .live s', loops := w.loops ++ [l'] }, out) ∧ V s' ∧
      (∀ m ∈ out, m.isEnd = false) ∧ ∀ left, W.Counts V left → left s' = left s - 10 := by
  by_cases hr : w.running = true
  · obtain ⟨s, hs⟩ := hb hr
    right
    cases hf : W.finished s with
    | true =>
      left
      obtain ⟨s', p, f, h1, h2, h3⟩ := finish_safe hV hs (hv s hs)
      refine ⟨s, s', p, f, hr, hs, hf, ?_, h2, h3⟩
      rw [← h1]
      unfold Worker.loop
      simp [hr, hs, Obj.finished, hf]
    | false =>
      right
      obtain ⟨s', l', out, h1, h2, h3⟩ := body_safe hV hs (hv s hs) now l
      refine ⟨s, s', l', out, hr, hs, hf, ?_, h2, h3⟩
      rw [← h1]
      unfold Worker.loop
      simp [hr, hs, Obj.finished, hf]
  · left
    have hr : w.running = false := by simpa using hr
    exact ⟨hr, by simp [Worker.loop, hr]⟩

theorem loop_ok {w w' : Worker W} {out : List (FromWorker W)} (hu : w.search ≠ .broken) (hv : ∀ s, w.search = .live s → V s)
    (hb : w.running = true → ∃ s, w.search = .live s) {now : ℚ} {l : Loop} (h : w.loop now l = (w', out)) : w'.Ok V := by
  rcases loop_cases hV hu hv hb now l with ⟨h1, h2⟩ | ⟨s, s', p, f, h1, h2, -, h4, h5, -⟩ | ⟨s, s', l', o, h1, h2, -, h4, h5, -⟩
  · rw [h] at h2
    cases h2
    exact ⟨hu, hv, fun e => by rw [h1] at e; cases e⟩
  · rw [h] at h4
    cases h4
    exact ⟨by simp, fun x e => by cases e; exact h5, fun e => by cases e⟩
  · rw [h] at h4
    cases h4
    exact ⟨by simp, fun x e => by cases e; exact h5, fun _ => ⟨⟨s', rfl⟩, by simp⟩⟩

theorem on_ok {w w' : Worker W} {e : WEvent W} {out : List (FromWorker W)} (hw : w.Ok V) (h : w.on e = some (w', out)) :
    w'.Ok V := by
  cases e with
  | receive m now =>
    simp only [Worker.on, Option.some.injEq] at h
    cases m with
    | init r => cases h; exact ⟨hw.usable, hw.valid, fun e => by cases e⟩
    | reset => cases h; exact ⟨by simp, (fun s e => by cases e), (fun e => by cases e)⟩
    | pause => cases h; exact ⟨hw.usable, hw.valid, fun e => by cases e⟩
    | step n =>
      simp only [Worker.receive] at h
      split at h
      · cases h; exact hw
      · next hn =>
        cases hs : w.search with
        | null => exact absurd hs (by intro e; exact hn e)
        | broken => exact absurd hs hw.usable
        | live s =>
          obtain ⟨s1, p1, h1, -, v1⟩ := Obj.step_safe hV (hw.valid s hs) (cyclesArg n)
          obtain ⟨s2, p2, h2, -, v2⟩ := Obj.step_safe hV v1 0
          obtain ⟨f, h3⟩ := Obj.front_safe hV v2 10000
          unfold Worker.onStep at h
          rw [hs, h1] at h
          simp only [h2, h3] at h
          cases h
          exact ⟨by simp, fun x e => by cases e; exact v2, fun e => ⟨⟨s2, rfl⟩, (hw.busy e).2⟩⟩
    | evaluate id which =>
      simp only [Worker.receive, Worker.onEvaluate] at h
      split at h
      · next s hs =>
        obtain ⟨r, hr⟩ := hV.evaluate id which s (hw.valid s hs)
        rw [hr] at h
        cases r <;> (cases h; exact hw)
      · cases h; exact hw
    | start =>
      simp only [Worker.receive] at h
      split at h
      · cases h; exact hw
      · next hn =>
        split at h
        · cases h; exact hw
        · refine loop_ok hV (w := { w with running := true }) hw.usable hw.valid (fun _ => ?_) h
          cases hs : w.search with
          | null => exact absurd hs (by intro e; exact hn e)
          | broken => exact absurd hs hw.usable
          | live s => exact ⟨s, rfl⟩
  | wake i now =>
    obtain ⟨l, -, h⟩ := Option.map_eq_some_iff.mp h
    exact loop_ok hV (w := { w with loops := w.loops.eraseIdx i }) hw.usable hw.valid (fun e => (hw.busy e).1) h
  | loaded i =>
    obtain ⟨r, -, h⟩ := Option.map_eq_some_iff.mp h
    simp only [Worker.loaded] at h
    split at h
    · cases h; exact ⟨hw.usable, hw.valid, hw.busy⟩
    · next s e =>
      cases h
      exact ⟨by simp, fun x e' => by cases e'; exact hV.paretoK _ _ (hV.create _ _ e), fun e => ⟨⟨_, rfl⟩, (hw.busy e).2⟩⟩
  | loadFailed i =>
    obtain ⟨r, -, h⟩ := Option.map_eq_some_iff.mp h
    cases h
    exact ⟨hw.usable, hw.valid, hw.busy⟩

theorem run_ok {es : List (WEvent W)} {w w' : Worker W} {out : List (FromWorker W)} (hw : w.Ok V)
    (h : w.run es = some (w', out)) : w'.Ok V := by
  induction es generalizing w out with
  | nil => cases h; exact hw
  | cons e es ih =>
    unfold Worker.run at h
    simp only [Option.bind_eq_bind, Option.bind_eq_some_iff, Option.some.injEq, Prod.mk.injEq] at h
    obtain ⟨⟨w1, o1⟩, h1, ⟨w2, o2⟩, h2, rfl, rfl⟩ := h
    exact ih (on_ok hV hw h1) h2

/-- C83: if searches do not panic, then after every history of messages and waits a worker that is running has a usable
search and a loop that waits to go on with it: it never hangs, and no loop ever meets a search that is not there. -/
theorem C83_alive {es : List (WEvent W)} {w : Worker W} {out : List (FromWorker W)}
    (h : Worker.fresh.run es = some (w, out)) :
    w.search ≠ .broken ∧ (w.running = true → ∃ s, w.search = .live s ∧ V s ∧ w.loops ≠ []) := by
  have hw := run_ok hV Worker.Ok.fresh h
  refine ⟨hw.usable, fun e => ?_⟩
  obtain ⟨⟨s, h1⟩, h2⟩ := hw.busy e
  exact ⟨s, h1, hw.valid s h1, h2⟩

/-- C83: how a running search ends.  If no further messages come, the waiting loops go on in any order; every wake-up uses up one
of `passes`, so that they all end, after exactly that many; when they have ended the search is finished, the worker is not running,
and of the messages `done` and `paused` exactly one `done` was posted, and after it one `paused` for every further loop. -/
theorem C83_finishes {left : W.Sess → Nat} (hL : W.Counts V left) {es : List (WEvent W)} {w w' : Worker W}
    {out : List (FromWorker W)} (hw : w.Ok V) (hr : w.running = true) (hes : ∀ e ∈ es, e.IsWake)
    (h : w.run es = some (w', out)) :
    es.length + w'.passes left = w.passes left ∧
    (w'.loops = [] → w'.running = false ∧ (∃ s, w'.search = .live s ∧ left s = 0) ∧
      (out.filter FromWorker.isEnd) = .done :: List.replicate (w.loops.length - 1) .paused) := by
  have stopped : ∀ (es : List (WEvent W)) (w w' : Worker W) (out : List (FromWorker W)), w.running = false →
      (∀ e ∈ es, e.IsWake) → w.run es = some (w', out) →
      es.length + w'.loops.length = w.loops.length ∧ w'.running = false ∧ w'.search = w.search ∧
        out = List.replicate es.length .paused := by
    intro es
    induction es with
    | nil => intro w w' out hr _ h; cases h; exact ⟨by simp, hr, rfl, rfl⟩
    | cons e es ih =>
      intro w w' out hr hes h
      unfold Worker.run at h
      simp only [Option.bind_eq_bind, Option.bind_eq_some_iff, Option.some.injEq, Prod.mk.injEq] at h
      obtain ⟨⟨w1, o1⟩, h1, ⟨w2, o2⟩, h2, rfl, rfl⟩ := h
      have he := hes e (by simp)
      cases e with
      | receive m now => cases he
      | loaded i => cases he
      | loadFailed i => cases he
      | wake i now =>
        obtain ⟨l, hl, h1⟩ := Option.map_eq_some_iff.mp h1
        have hlt : i < w.loops.length := (List.getElem?_eq_some_iff.mp hl).1
        simp only [Worker.loop, hr, Bool.not_false, if_true, Prod.mk.injEq] at h1
        obtain ⟨rfl, rfl⟩ := h1
        obtain ⟨a, b, c, d⟩ := ih { w with running := false, loops := w.loops.eraseIdx i } _ _ rfl (fun e he => hes e (by simp [he])) h2
        simp only [List.length_eraseIdx, hlt, if_true] at a
        refine ⟨by simp only [List.length_cons]; omega, b, c, ?_⟩
        rw [d, List.length_cons, List.replicate_succ]
        rfl
  induction es generalizing w out with
  | nil =>
    cases h
    exact ⟨by simp, fun e => absurd e (hw.busy hr).2⟩
  | cons e es ih =>
    unfold Worker.run at h
    simp only [Option.bind_eq_bind, Option.bind_eq_some_iff, Option.some.injEq, Prod.mk.injEq] at h
    obtain ⟨⟨w1, o1⟩, h1, ⟨w2, o2⟩, h2, rfl, rfl⟩ := h
    have he := hes e (by simp)
    have hes' : ∀ e ∈ es, e.IsWake := fun e he => hes e (by simp [he])
    have h1' := h1
    cases e with
    | receive m now => cases he
    | loaded i => cases he
    | loadFailed i => cases he
    | wake i now =>
      obtain ⟨l, hl, h1⟩ := Option.map_eq_some_iff.mp h1
      have hlt : i < w.loops.length := (List.getElem?_eq_some_iff.mp hl).1
      have hlen : (w.loops.eraseIdx i).length = w.loops.length - 1 := by rw [List.length_eraseIdx, if_pos hlt]
      rcases loop_cases hV (w := { w with loops := w.loops.eraseIdx i }) hw.usable hw.valid (fun e => (hw.busy e).1) now l with
        ⟨g1, -⟩ | ⟨s, s', p, f, g1, g2, g3, g4, g5, g6⟩ | ⟨s, s', l', o, g1, g2, g3, g4, g5, g6, g7⟩
      · rw [show w.running = false from g1] at hr; cases hr
      · rw [h1] at g4
        cases g4
        obtain ⟨a, b, c, d⟩ := stopped es _ w2 o2 rfl hes' h2
        have hz : left s = 0 := (hL.finished s).mp g3
        have hz' : left s' = 0 := by rw [g6 left hL, hz]
        have hp : w2.passes left = w2.loops.length := by unfold Worker.passes; rw [b]; rfl
        have hp' : w.passes left = w.loops.length := by
          unfold Worker.passes
          rw [hr, show w.search = .live s from g2]
          simp [hz]
        simp only [hlen] at a
        refine ⟨by rw [hp, hp']; simp only [List.length_cons]; omega, fun e0 => ⟨b, ⟨s', c, hz'⟩, ?_⟩⟩
        rw [d]
        rw [e0] at a
        simp only [List.length_nil, Nat.add_zero] at a
        rw [a, List.filter_append, List.filter_replicate]
        rfl
      · rw [h1] at g4
        cases g4
        have hpos : left s ≠ 0 := fun e => by
          rw [(hL.finished s).mpr e] at g3; cases g3
        obtain ⟨a, b⟩ := ih (on_ok hV hw h1') hr hes' h2
        have e1 := g7 left hL
        have hp : w.passes left = w.loops.length + (left s + 9) / 10 := by
          unfold Worker.passes
          rw [hr, show w.search = .live s from g2]
        have hp1 : Worker.passes left { w with search := .live s', loops := w.loops.eraseIdx i ++ [l'] } =
            w.loops.length + (left s' + 9) / 10 := by
          unfold Worker.passes
          simp only [hr, List.length_append, hlen, List.length_singleton]
          omega
        simp only [hp1] at a
        refine ⟨by rw [hp]; simp only [List.length_cons]; omega, fun e0 => ?_⟩
        obtain ⟨b1, b2, b3⟩ := b e0
        refine ⟨b1, b2, ?_⟩
        have hfil : o1.filter FromWorker.isEnd = [] := List.filter_eq_nil_iff.mpr fun m hm => by simp [g6 m hm]
        rw [List.filter_append, hfil, List.nil_append, b3]
        have : (w.loops.eraseIdx i ++ [l']).length - 1 = w.loops.length - 1 := by
          rw [List.length_append, hlen, List.length_singleton]; omega
        simp only [this]
end


/-- C83: pausing.  While a worker is not running, and until it handles a `start`, a `step` or the end of an `init`, the search does not
change (it may be dropped by a `reset`, or become unusable by a panic while evaluating), and nothing is posted about its
progress. -/
theorem C83_pause {es : List (WEvent W)} {w w' : Worker W} {out : List (FromWorker W)} (hr : w.running = false)
    (hes : ∀ e ∈ es, e.Quiet) (h : w.run es = some (w', out)) :
    w'.running = false ∧ (∀ m ∈ out, ¬ m.Progress) ∧
    (w'.search = w.search ∨ w'.search = .null ∨ w'.search = .broken) ∧
    ((∀ now, WEvent.receive .reset now ∉ es) → w'.search = w.search ∨ w'.search = .broken) := by
  induction es generalizing w out with
  | nil => cases h; exact ⟨hr, by simp, .inl rfl, fun _ => .inl rfl⟩
  | cons e es ih =>
    unfold Worker.run at h
    simp only [Option.bind_eq_bind, Option.bind_eq_some_iff, Option.some.injEq, Prod.mk.injEq] at h
    obtain ⟨⟨w1, o1⟩, h1, ⟨w2, o2⟩, h2, rfl, rfl⟩ := h
    have he := hes e (by simp)
    have one : w1.running = false ∧ (∀ m ∈ o1, ¬ m.Progress) ∧
        (w1.search = w.search ∨ w1.search = .broken ∨ w1.search = .null ∧ ∃ now, e = .receive .reset now) := by
      cases e with
      | receive m now =>
        simp only [Worker.on, Option.some.injEq] at h1
        cases m with
        | init r => cases h1; exact ⟨rfl, by simp, .inl rfl⟩
        | reset => cases h1; exact ⟨rfl, by simp [FromWorker.Progress], .inr (.inr ⟨rfl, now, rfl⟩)⟩
        | pause => cases h1; exact ⟨rfl, by simp [FromWorker.Progress], .inl rfl⟩
        | step n => cases he
        | start => cases he
        | evaluate id which =>
          simp only [Worker.receive, Worker.onEvaluate] at h1
          split at h1
          · split at h1
            · cases h1; exact ⟨hr, by simp [FromWorker.Progress], .inl rfl⟩
            · cases h1; exact ⟨hr, by simp [FromWorker.Progress], .inl rfl⟩
            · cases h1; exact ⟨hr, by simp [FromWorker.Progress], .inl rfl⟩
            · cases h1; exact ⟨hr, by simp [FromWorker.Progress], .inr (.inl rfl)⟩
          · cases h1; exact ⟨hr, by simp [FromWorker.Progress], .inl rfl⟩
      | wake i now =>
        obtain ⟨l, -, h1⟩ := Option.map_eq_some_iff.mp h1
        simp only [Worker.loop, hr, Bool.not_false, if_true, Prod.mk.injEq] at h1
        obtain ⟨rfl, rfl⟩ := h1
        exact ⟨rfl, by simp [FromWorker.Progress], .inl rfl⟩
      | loaded i => cases he
      | loadFailed i =>
        obtain ⟨r, -, h1⟩ := Option.map_eq_some_iff.mp h1
        cases h1
        exact ⟨hr, by simp [FromWorker.Progress], .inl rfl⟩
    obtain ⟨a1, a2, a3⟩ := one
    obtain ⟨b1, b2, b3, b4⟩ := ih a1 (fun e he => hes e (by simp [he])) h2
    refine ⟨b1, ?_, ?_, ?_⟩
    · intro m hm
      rcases List.mem_append.mp hm with hm | hm
      · exact a2 m hm
      · exact b2 m hm
    · rcases b3 with b3 | b3 | b3
      · rcases a3 with a3 | a3 | ⟨a3, -⟩
        · exact .inl (b3.trans a3)
        · exact .inr (.inr (b3.trans a3))
        · exact .inr (.inl (b3.trans a3))
      · exact .inr (.inl b3)
      · exact .inr (.inr b3)
    · intro hn
      rcases b4 fun now hm => hn now (by simp [hm]) with b4 | b4
      · rcases a3 with a3 | a3 | ⟨-, now, e⟩
        · exact .inl (b4.trans a3)
        · exact .inr (b4.trans a3)
        · exact absurd (by simp [e]) (hn now)
      · exact .inr b4

section
variable {V : W.Sess → Prop} (hV : W.Safe V)
include hV

/-- C83: a search started when no loop is waiting: if no further messages come, then, whenever the loop is woken, it runs to
the end: one pass for every ten cycles left (the first one at once), after which `done` is posted, once, and never `paused`. -/
theorem C83_start {left : W.Sess → Nat} (hL : W.Counts V left) {w w1 w2 : Worker W} {s : W.Sess} {now : ℚ}
    {o1 o2 : List (FromWorker W)} {es : List (WEvent W)} (hw : w.Ok V) (hr : w.running = false) (hs : w.search = .live s)
    (hl : w.loops = []) (h1 : w.receive now .start = (w1, o1)) (hes : ∀ e ∈ es, e.IsWake) (h2 : w1.run es = some (w2, o2)) :
    es.length ≤ (left s + 9) / 10 ∧
    (es.length = (left s + 9) / 10 ↔ w2.loops = []) ∧
    (w2.loops = [] → w2.running = false ∧ (∃ s', w2.search = .live s' ∧ left s' = 0) ∧
      (o1 ++ o2).filter FromWorker.isEnd = [.done]) := by
  have h1' : Worker.loop now ⟨0, 0⟩ { w with running := true } = (w1, o1) := by
    rw [← h1]; simp only [Worker.receive, hs, hr]; rfl
  rcases loop_cases hV (w := { w with running := true }) hw.usable hw.valid (fun _ => ⟨s, hs⟩) now ⟨0, 0⟩ with
    ⟨g1, -⟩ | ⟨x, s', p, f, -, g2, g3, g4, g5, g6⟩ | ⟨x, s', l', o, -, g2, g3, g4, g5, g6, g7⟩
  · cases g1
  · have : x = s := by
      have g2 : w.search = .live x := g2
      rw [hs] at g2; cases g2; rfl
    subst this
    rw [h1'] at g4
    cases g4
    have hz := (hL.finished x).mp g3
    cases es with
    | nil =>
      cases h2
      refine ⟨by simp, ?_, fun _ => ⟨rfl, ⟨s', rfl, by rw [g6 left hL, hz]⟩, rfl⟩⟩
      simp [hl, hz]
    | cons e es =>
      exfalso
      have he := hes e (by simp)
      unfold Worker.run at h2
      simp only [Option.bind_eq_bind, Option.bind_eq_some_iff] at h2
      obtain ⟨r, h3, -⟩ := h2
      cases e with
      | wake i now =>
        obtain ⟨l, h3, -⟩ := Option.map_eq_some_iff.mp h3
        rw [show ({ w with search := Obj.live s', running := false } : Worker W).loops = [] from hl] at h3
        simp at h3
      | _ => cases he
  · have : x = s := by
      have g2 : w.search = .live x := g2
      rw [hs] at g2; cases g2; rfl
    subst this
    rw [h1'] at g4
    cases g4
    have hz : left x ≠ 0 := fun e => by rw [(hL.finished x).mpr e] at g3; cases g3
    have hl' : w.loops ++ [l'] = [l'] := by rw [hl]; rfl
    have ok1 : Worker.Ok V { w with search := .live s', running := true, loops := w.loops ++ [l'] } :=
      ⟨by simp, fun y e => by cases e; exact g5, fun _ => ⟨⟨s', rfl⟩, by simp⟩⟩
    obtain ⟨a, b⟩ := C83_finishes hV hL ok1 rfl hes h2
    have hp : Worker.passes left { w with search := Obj.live s', running := true, loops := w.loops ++ [l'] } =
        (left x + 9) / 10 := by
      unfold Worker.passes
      simp only [hl', List.length_singleton, g7 left hL]
      omega
    rw [hp] at a
    have ok2 := run_ok hV ok1 h2
    have hz2 : w2.passes left = 0 ↔ w2.loops = [] := by
      constructor
      · intro e
        unfold Worker.passes at e
        exact List.length_eq_zero_iff.mp (by omega)
      · intro e
        unfold Worker.passes
        rw [(b e).1, e]
        rfl
    refine ⟨by omega, ?_, fun e => ?_⟩
    · rw [← hz2]; omega
    · obtain ⟨b1, b2, b3⟩ := b e
      refine ⟨b1, b2, ?_⟩
      have hfil : o1.filter FromWorker.isEnd = [] := List.filter_eq_nil_iff.mpr fun m hm => by simp [g6 m hm]
      rw [List.filter_append, hfil, b3]
      simp [hl]

/-- C83, the exception: a `pause` followed by a `start` before the loop was woken leaves two loops waiting, which both go on
with the search (so that after its end `done` is followed by `paused`, C83_finishes). -/
theorem C83_two_loops {w : Worker W} (hw : w.Ok V) (hr : w.running = true) {l : Loop} (hl : w.loops = [l]) (t t' : ℚ)
    (hu : ∀ s, w.search = .live s → W.finished s = false) :
    ∃ w' out, w.run [.receive .pause t, .receive .start t'] = some (w', out) ∧ w'.running = true ∧ w'.loops.length = 2 := by
  obtain ⟨⟨s, hs⟩, -⟩ := hw.busy hr
  have hw' : Worker.Ok V { w with running := true } := ⟨hw.usable, hw.valid, fun _ => ⟨⟨s, hs⟩, by simp [hl]⟩⟩
  rcases loop_cases hV hw'.usable hw'.valid (fun _ => ⟨s, hs⟩) t' ⟨0, 0⟩ with
    ⟨g1, -⟩ | ⟨x, s', p, f, -, g2, g3, -⟩ | ⟨x, s', l', o, -, g2, g3, g4, -⟩
  · cases g1
  · rw [hu x g2] at g3; cases g3
  · refine ⟨{ w with search := .live s', running := true, loops := w.loops ++ [l'] }, [.paused] ++ (o ++ []), ?_, rfl, by simp [hl]⟩
    have : Worker.receive t' { w with running := false } .start =
        Worker.loop t' ⟨0, 0⟩ { w with running := true } := by
      simp only [Worker.receive, hs]; rfl
    simp only [Worker.run, Worker.on, Option.bind_eq_bind, Option.bind_some]
    rw [show Worker.receive t w .pause = ({ w with running := false }, [.paused]) from rfl]
    simp only [this, g4]
end

/-- C83, the exception: a `reset` of a running worker is answered by `resetDone`, and when its loop is woken by a late
`paused`. -/
theorem C83_reset_paused {w : Worker W} {l : Loop} (hl : w.loops = [l]) (t t' : ℚ) :
    ∃ w', w.run [.receive .reset t, .wake 0 t'] = some (w', [.resetDone, .paused]) ∧ w'.search = .null ∧ w'.loops = [] := by
  refine ⟨⟨.null, false, [], w.inits⟩, ?_, rfl, rfl⟩
  simp [Worker.run, Worker.on, Worker.receive, hl, Worker.loop]

/-- C83, the exception: if a search panics while its loop runs, nothing is posted, and the worker stays marked as running, so that
a further `start` is not answered either. -/
theorem C83_panic_silent {w : Worker W} {s : W.Sess} {l : Loop} (hr : w.running = true) (hs : w.search = .live s)
    (hl : w.loops = [l]) (hf : W.finished s = false) (hp : W.step 10 s = none) (t t' : ℚ) :
    ∃ w', w.run [.wake 0 t, .receive .start t'] = some (w', []) ∧ w'.running = true ∧ w'.loops = [] := by
  refine ⟨⟨.broken, true, [], w.inits⟩, ?_, rfl, rfl⟩
  simp [Worker.run, Worker.on, Worker.receive, hl, Worker.loop, hr, hs, Obj.finished, hf, Worker.body, Obj.step, hp]


/-! ### Successive snapshots -/

/-- The search `s` becomes `s'` by doing cycles. -/
inductive Wasm.Later (W : Wasm) : W.Sess → W.Sess → Prop
  | refl (s) : Wasm.Later W s s
  | step {n s s' s'' p} : W.step n s = some (s', p) → Wasm.Later W s' s'' → Wasm.Later W s s''

theorem Tells.split {opened : W.Req → Prop} {a c : Option W.Sess} {o1 o2 : List (FromWorker W)}
    (h : Tells opened a (o1 ++ o2) c) : ∃ b, Tells opened a o1 b ∧ Tells opened b o2 c := by
  generalize ho : o1 ++ o2 = out at h
  induction h generalizing o1 with
  | nil cur =>
    obtain ⟨rfl, rfl⟩ := List.append_eq_nil_iff.mp ho
    exact ⟨cur, .nil _, .nil _⟩
  | work h1 _ ih => obtain ⟨b, h2, h3⟩ := ih ho; exact ⟨b, .work h1 h2, h3⟩
  | panic h1 _ ih => obtain ⟨b, h2, h3⟩ := ih ho; exact ⟨b, .panic h1 h2, h3⟩
  | ready h1 h2 h3 ih =>
    cases o1 with
    | nil => exact ⟨_, .nil _, by rw [List.nil_append] at ho; rw [ho]; exact .ready h1 h2 h3⟩
    | cons m o1 =>
      rw [List.cons_append, List.cons.injEq] at ho
      obtain ⟨b, h4, h5⟩ := ih ho.2
      exact ⟨b, by rw [ho.1]; exact .ready h1 h2 h4, h5⟩
  | snapshot h1 h3 ih =>
    cases o1 with
    | nil => exact ⟨_, .nil _, by rw [List.nil_append] at ho; rw [ho]; exact .snapshot h1 h3⟩
    | cons m o1 =>
      rw [List.cons_append, List.cons.injEq] at ho
      obtain ⟨b, h4, h5⟩ := ih ho.2
      exact ⟨b, by rw [ho.1]; exact .snapshot h1 h4, h5⟩
  | front h1 h3 ih =>
    cases o1 with
    | nil => exact ⟨_, .nil _, by rw [List.nil_append] at ho; rw [ho]; exact .front h1 h3⟩
    | cons m o1 =>
      rw [List.cons_append, List.cons.injEq] at ho
      obtain ⟨b, h4, h5⟩ := ih ho.2
      exact ⟨b, by rw [ho.1]; exact .front h1 h4, h5⟩
  | answer h1 h3 ih =>
    cases o1 with
    | nil => exact ⟨_, .nil _, by rw [List.nil_append] at ho; rw [ho]; exact .answer h1 h3⟩
    | cons m o1 =>
      rw [List.cons_append, List.cons.injEq] at ho
      obtain ⟨b, h4, h5⟩ := ih ho.2
      exact ⟨b, by rw [ho.1]; exact .answer h1 h4, h5⟩
  | done h1 h3 ih =>
    cases o1 with
    | nil => exact ⟨_, .nil _, by rw [List.nil_append] at ho; rw [ho]; exact .done h1 h3⟩
    | cons m o1 =>
      rw [List.cons_append, List.cons.injEq] at ho
      obtain ⟨b, h4, h5⟩ := ih ho.2
      exact ⟨b, by rw [ho.1]; exact .done h1 h4, h5⟩
  | resetDone h3 ih =>
    cases o1 with
    | nil => exact ⟨_, .nil _, by rw [List.nil_append] at ho; rw [ho]; exact .resetDone h3⟩
    | cons m o1 =>
      rw [List.cons_append, List.cons.injEq] at ho
      obtain ⟨b, h4, h5⟩ := ih ho.2
      exact ⟨b, by rw [ho.1]; exact .resetDone h4, h5⟩
  | paused h3 ih =>
    cases o1 with
    | nil => exact ⟨_, .nil _, by rw [List.nil_append] at ho; rw [ho]; exact .paused h3⟩
    | cons m o1 =>
      rw [List.cons_append, List.cons.injEq] at ho
      obtain ⟨b, h4, h5⟩ := ih ho.2
      exact ⟨b, by rw [ho.1]; exact .paused h4, h5⟩
  | error h3 ih =>
    cases o1 with
    | nil => exact ⟨_, .nil _, by rw [List.nil_append] at ho; rw [ho]; exact .error h3⟩
    | cons m o1 =>
      rw [List.cons_append, List.cons.injEq] at ho
      obtain ⟨b, h4, h5⟩ := ih ho.2
      exact ⟨b, by rw [ho.1]; exact .error h4, h5⟩

/-- The message announces a new search. -/
def FromWorker.IsReady : FromWorker W → Prop
  | .ready _ => True
  | _ => False

theorem Tells.none_stays {opened : W.Req → Prop} {c : Option W.Sess} {out : List (FromWorker W)} (h : Tells opened none out c)
    (hn : ∀ m ∈ out, ¬ m.IsReady) : c.isSome = false := by
  generalize ha : (none : Option W.Sess) = a at h
  induction h with
  | nil => rw [← ha]; rfl
  | work => cases ha
  | panic => cases ha
  | ready => exact ((hn (.ready _) (List.mem_cons_self)) trivial).elim
  | snapshot => cases ha
  | front => cases ha
  | answer => cases ha
  | done => cases ha
  | resetDone _ ih => exact ih (fun m hm => hn m (by simp [hm])) rfl
  | paused _ ih => exact ih (fun m hm => hn m (by simp [hm])) ha
  | error _ ih => exact ih (fun m hm => hn m (by simp [hm])) ha

/-- Without a new `ready`, the search is what the search before has become. -/
theorem Tells.later {opened : W.Req → Prop} {s s' : W.Sess} {out : List (FromWorker W)}
    (h : Tells opened (some s) out (some s')) (hn : ∀ m ∈ out, ¬ m.IsReady) : W.Later s s' := by
  generalize ha : some s = a at h
  generalize hc : some s' = c at h
  induction h generalizing s with
  | nil => rw [← hc] at ha; cases ha; exact .refl _
  | work h1 _ ih => cases ha; exact .step h1 (ih hn rfl hc)
  | panic h1 h2 => rw [← hc] at h2; have := h2.none_stays hn; cases this
  | ready => exact ((hn (.ready _) (List.mem_cons_self)) trivial).elim
  | snapshot h1 _ ih => cases ha; exact .step h1 (ih (fun m hm => hn m (by simp [hm])) rfl hc)
  | front h1 _ ih => exact ih (fun m hm => hn m (by simp [hm])) ha hc
  | answer h1 _ ih => exact ih (fun m hm => hn m (by simp [hm])) ha hc
  | done h1 _ ih => exact ih (fun m hm => hn m (by simp [hm])) ha hc
  | resetDone h2 => rw [← hc] at h2; have := h2.none_stays (fun m hm => hn m (by simp [hm])); cases this
  | paused _ ih => exact ih (fun m hm => hn m (by simp [hm])) ha hc
  | error _ ih => exact ih (fun m hm => hn m (by simp [hm])) ha hc

/-- The search a message is about. -/
theorem Tells.ready_inv {opened : W.Req → Prop} {a c : Option W.Sess} {sp : W.Split} {out : List (FromWorker W)}
    (h : Tells opened a (.ready sp :: out) c) :
    ∃ r s, opened r ∧ W.create r = some s ∧ sp = W.split (W.setParetoK 10000 s) ∧
      Tells opened (some (W.setParetoK 10000 s)) out c := by
  generalize ho : FromWorker.ready sp :: out = o at h
  induction h with
  | work _ _ ih => exact ih ho
  | panic _ _ ih => exact ih ho
  | ready h1 h2 h3 =>
    cases ho
    exact ⟨_, _, h1, h2, rfl, h3⟩
  | _ => cases ho

theorem Wasm.Later.trans {s s' s'' : W.Sess} (h : W.Later s s') (h' : W.Later s' s'') : W.Later s s'' := by
  induction h with
  | refl => exact h'
  | step h1 _ ih => exact .step h1 (ih h')

/-- A snapshot is the reply of the search as it has become. -/
theorem Tells.snapshot_inv {opened : W.Req → Prop} {a c : Option W.Sess} {p : W.Snap} {out : List (FromWorker W)}
    (h : Tells opened a (.snapshot p :: out) c) :
    ∃ s0 s s', a = some s0 ∧ W.Later s0 s ∧ W.step 0 s = some (s', p) ∧ Tells opened (some s') out c := by
  generalize ho : FromWorker.snapshot p :: out = o at h
  induction h with
  | work h1 _ ih =>
    obtain ⟨s0, s, s', e, h2, h3, h4⟩ := ih ho
    cases e
    exact ⟨_, s, s', rfl, .step h1 h2, h3, h4⟩
  | panic _ _ ih => obtain ⟨s0, s, s', e, -⟩ := ih ho; cases e
  | snapshot h1 h2 =>
    cases ho
    exact ⟨_, _, _, rfl, .refl _, h1, h2⟩
  | _ => cases ho

/-- C83: after a `ready` and before the next one, each snapshot is the reply of the search that `ready` announced after it has done
some cycles, and a later snapshot the reply after it has done some more.  Before the first `ready` there is none. -/
theorem C83_snapshots (hW : ∀ s s' p, W.step 0 s = some (s', p) → W.finished s = true → W.finished s' = true)
    {es : List (WEvent W)} {w : Worker W} {a out : List (FromWorker W)} {sp : W.Split}
    (h : Worker.fresh.run es = some (w, a ++ .ready sp :: out)) :
    ∃ r s, Asked es r ∧ W.create r = some s ∧ sp = W.split (W.setParetoK 10000 s) ∧
      ∀ b p c, out = b ++ .snapshot p :: c → (∀ m ∈ b, ¬ m.IsReady) →
        ∃ s1 s1', W.Later (W.setParetoK 10000 s) s1 ∧ W.step 0 s1 = some (s1', p) ∧
          ∀ b' q c', c = b' ++ .snapshot q :: c' → (∀ m ∈ b', ¬ m.IsReady) →
            ∃ s2 s2', W.Later s1' s2 ∧ W.step 0 s2 = some (s2', q) := by
  obtain ⟨x, -, h1⟩ := (C83_truthful hW h).split
  obtain ⟨r, s, h2, h3, h4, h5⟩ := h1.ready_inv
  refine ⟨r, s, h2, h3, h4, fun b p c hb hnb => ?_⟩
  rw [hb] at h5
  obtain ⟨x1, h6, h7⟩ := h5.split
  obtain ⟨y, s1, s1', rfl, h8, h9, h10⟩ := h7.snapshot_inv
  refine ⟨s1, s1', (h6.later hnb).trans h8, h9, fun b' q c' hc hnb' => ?_⟩
  rw [hc] at h10
  obtain ⟨x2, h11, h12⟩ := h10.split
  obtain ⟨y2, s2, s2', rfl, h13, h14, -⟩ := h12.snapshot_inv
  exact ⟨s2, s2', (h11.later hnb').trans h13, h14⟩

/-- C83: nothing is told about a search before the first `ready`. -/
theorem C83_before_ready (hW : ∀ s s' p, W.step 0 s = some (s', p) → W.finished s = true → W.finished s' = true)
    {es : List (WEvent W)} {w : Worker W} {out : List (FromWorker W)} (h : Worker.fresh.run es = some (w, out))
    (hn : ∀ m ∈ out, ¬ m.IsReady) : ∀ m ∈ out, ¬ m.Progress := by
  have ht := C83_truthful hW h
  clear h
  generalize ha : (none : Option W.Sess) = a at ht
  generalize w.search.get = c at ht
  induction ht with
  | nil => simp
  | work => cases ha
  | panic => cases ha
  | ready => exact ((hn (.ready _) (List.mem_cons_self)) trivial).elim
  | snapshot => cases ha
  | front => cases ha
  | answer => cases ha
  | done => cases ha
  | resetDone _ ih =>
    intro m hm
    rcases List.mem_cons.mp hm with rfl | hm
    · simp [FromWorker.Progress]
    · exact ih (fun m hm => hn m (by simp [hm])) rfl m hm
  | paused _ ih =>
    intro m hm
    rcases List.mem_cons.mp hm with rfl | hm
    · simp [FromWorker.Progress]
    · exact ih (fun m hm => hn m (by simp [hm])) ha m hm
  | error _ ih =>
    intro m hm
    rcases List.mem_cons.mp hm with rfl | hm
    · simp [FromWorker.Progress]
    · exact ih (fun m hm => hn m (by simp [hm])) ha m hm

/-- C83: a `step` message.  The search does the cycles asked for (none if the number is negative), and the page gets the snapshot and the
front after them, in this order.  The number must fit into 32 bits; the code takes it modulo 2^32 (`C83_step_wraps`). -/
theorem C83_step (w : Worker W) (now : ℚ) {n : Int} (hn : -(2 ^ 31) ≤ n ∧ n < 2 ^ 31) {s s1 s2 : W.Sess} {p1 p2 : W.Snap} {f : List W.Item}
    (hs : w.search = .live s) (h1 : W.step n.toNat s = some (s1, p1)) (h2 : W.step 0 s1 = some (s2, p2))
    (hf : W.front 10000 s2 = some f) :
    w.receive now (.step n) = ({ w with search := .live s2 }, [.snapshot p2, .front f]) := by
  have hc : cyclesArg n = n.toNat := by
    unfold cyclesArg
    rw [Int.bmod_eq_of_le (by omega) (by omega)]
  simp only [Worker.receive, hs, Worker.onStep, hc, Obj.step, h1, h2, Obj.front, hf]

/-- C83: the exception: a larger number of cycles is taken modulo 2^32, so that a `step` of 2^31 cycles does nothing. -/
theorem C83_step_wraps : cyclesArg (2 ^ 31) = 0 ∧ cyclesArg (2 ^ 32 + 5) = 5 := by decide

/-- C83: an `evaluate` message is answered at once, with the reply of the search under the same identifier and data set, or with an
error, which says "member not found" exactly if that is what the search says; the search goes on unchanged. -/
theorem C83_evaluate (w : Worker W) (now : ℚ) (id : W.Id) (which : Which) {s : W.Sess} {r : EvalReply W.Ans}
    (hs : w.search = .live s) (h : W.evaluate id which s = some r) :
    ∃ m, w.receive now (.evaluate id which) = (w, [m]) ∧ (∀ a, r = .ok a → m = .evalResult id which a) ∧
      (r = .notFound → m = .error true) ∧ (r = .error → m = .error false) := by
  cases r with
  | ok a => exact ⟨.evalResult id which a, by simp [Worker.receive, Worker.onEvaluate, hs, h], by rintro _ ⟨⟩; rfl, by simp, by simp⟩
  | notFound => exact ⟨.error true, by simp [Worker.receive, Worker.onEvaluate, hs, h], by simp, by simp, by simp⟩
  | error => exact ⟨.error false, by simp [Worker.receive, Worker.onEvaluate, hs, h], by simp, by simp, by simp⟩

/-- C83: without a search, `start`, `step` and `evaluate` are answered with an error and change nothing. -/
theorem C83_no_search (w : Worker W) (now : ℚ) (hs : w.search = .null) (m : ToWorker W)
    (hm : m = .start ∨ (∃ n, m = .step n) ∨ ∃ id which, m = .evaluate id which) : w.receive now m = (w, [.error false]) := by
  rcases hm with rfl | ⟨n, rfl⟩ | ⟨id, which, rfl⟩ <;> simp [Worker.receive, Worker.onEvaluate, hs]

end SR
