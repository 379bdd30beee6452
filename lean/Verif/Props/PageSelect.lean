import Verif.Model.Page
import Verif.Model.WorkerSession
import Verif.Spec.Page
/-
C84: what the page asks for when an equation is selected.
-/
namespace SR
variable {K : Type} [Field K] [LinearOrder K] [E : Env K] {S : OpTable} {ws : Char → Bool} {T : Texts K} {Rq : Type} {args : Rq → OpenArgs K}

/-- What asking for the equation `id` adds to the messages on the way: its values on the training rows, and those on the validation rows if the
split on the page has any. -/
def AsksValues (split : Option Split) (id : List Char) (before after : List (ToWorker (sessionWasm S ws T args))) : Prop :=
  (∀ sp, split = some sp → sp.val ≠ [] → after = before ++ [.evaluate id .train, .evaluate id .val]) ∧
    ((∀ sp, split = some sp → sp.val = []) → after = before ++ [.evaluate id .train])

theorem evaluations_asked (v : View (sessionWasm S ws T args)) (id : List Char) (before : List (ToWorker (sessionWasm S ws T args))) :
    AsksValues v.split id before (before ++ v.evaluations id) := by
  constructor
  · intro sp h hv
    have : (sessionWasm S ws T args).hasVal sp = true := by
      show decide (0 < sp.val.length) = true
      simpa using List.length_pos_iff.mpr hv
    simp only [View.evaluations, h, this, if_true]
  · intro h
    simp only [View.evaluations]
    split
    · next sp hs =>
      have e : (sp : Split).val = [] := h sp hs
      have : (sessionWasm S ws T args).hasVal sp = false := by
        show decide (0 < (sp : Split).val.length) = false
        simp [e]
      simp [this]
    · rfl

/-- C84: clicking an equation selects it and asks for its values on the training rows, and on the validation rows exactly if there are any;
nothing else changes. -/
theorem C84_select {p q : Page (sessionWasm S ws T args)} {id : List Char} {c : Nat} (h : p.on (.select id c) = some q) :
    AsksValues p.view.split id p.toWorker q.toWorker ∧ q.view = { p.view with selectedId := some id, requested := some c } ∧ q.worker = p.worker ∧
      q.toPage = p.toPage := by
  cases h
  exact ⟨evaluations_asked _ _ _, rfl, rfl, rfl⟩

/-- C84: so does the page when it selects an equation by itself. -/
theorem C84_reselect {p q : Page (sessionWasm S ws T args)} (h : p.on .refresh = some q) :
    ∃ m : EqSummary K, p.view.refresh = some m ∧ AsksValues p.view.split m.id p.toWorker q.toWorker ∧ q.view = { p.view with selectedId := some m.id } ∧
      q.worker = p.worker ∧ q.toPage = p.toPage := by
  simp only [Page.on, Option.map_eq_some_iff] at h
  obtain ⟨m, hm, rfl⟩ := h
  exact ⟨m, hm, evaluations_asked _ _ _, rfl, rfl, rfl⟩

/-- A page on which a split is shown. -/
def splitPage (sp : Split) : Page (sessionWasm S ws T args) := ⟨{ View.cleared .ready with split := some sp }, [], Worker.fresh, []⟩

/-- Both cases occur: a split with two training rows and one validation row, and one without validation rows. -/
example (id : List Char) :
    (∃ q, (splitPage (S := S) (ws := ws) (T := T) (args := args) ⟨[0, 1], [2]⟩).on (.select id 3) = some q ∧
      q.toWorker = [.evaluate id .train, .evaluate id .val]) ∧
    ∃ q, (splitPage (S := S) (ws := ws) (T := T) (args := args) ⟨[0, 1], []⟩).on (.select id 3) = some q ∧ q.toWorker = [.evaluate id .train] :=
  ⟨⟨_, rfl, rfl⟩, _, rfl, rfl⟩

end SR
