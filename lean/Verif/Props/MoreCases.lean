import Verif.Props.Page
import Verif.Props.AnyArithmetic
/-
Concrete cases for C83 (the worker) and for the derivatives in any arithmetic (C07, C08).
-/
namespace SR

/-! ## The worker -/

/-- What is read off a history of the toy search: the cycles left, whether the worker is running, its waiting loops, and its messages as
numbers (0 ready, 1 snapshot, 2 front, 3 result, 4 done, 5 paused, 6 reset, 7 error). -/
def toyLog (r : Worker toy × List (FromWorker toy)) : Option Nat × Bool × Nat × List Nat :=
  (match r.1.search with | .live s => some s.2 | _ => none, r.1.running, r.1.loops.length, r.2.map fun m => match m with
    | .ready _ => 0 | .snapshot _ => 1 | .front _ => 2 | .evalResult _ _ _ => 3 | .done => 4 | .paused => 5 | .resetDone => 6 | .error _ => 7)

/-- The history of a search of 25 cycles that is asked for, started and runs to the end: three passes do ten, ten and five cycles, the
fourth ends the loop.  The theorems on truthfulness, life and snapshots apply. -/
example : ∃ w out, (Worker.fresh : Worker toy).run [.receive (.init (25 : Nat)) 0, .loaded 0, .receive .start 1000, .wake 0 1001, .wake 0 1002,
      .wake 0 1003] = some (w, out) ∧ toyLog (w, out) = (some 0, false, 0, [0, 1, 2, 1, 2, 4]) ∧
    Tells (Asked [.receive (.init (25 : Nat)) 0, .loaded 0, .receive .start 1000, .wake 0 1001, .wake 0 1002, .wake 0 1003]) none out w.search.get ∧
    w.search ≠ .broken := by
  have key : ((Worker.fresh : Worker toy).run [.receive (.init (25 : Nat)) 0, .loaded 0, .receive .start 1000, .wake 0 1001, .wake 0 1002,
      .wake 0 1003]).map toyLog = some (some 0, false, 0, [0, 1, 2, 1, 2, 4]) := by decide +kernel
  obtain ⟨⟨w, out⟩, h, hl⟩ := Option.map_eq_some_iff.mp key
  refine ⟨w, out, h, hl, C83_truthful (fun s s' p hs hf => ?_) h, (C83_alive toy_safe h).1⟩
  have h0 := (toy_counts.finished s).mp hf
  refine (toy_counts.finished s').mpr ?_
  rw [toy_counts.step 0 s s' p trivial hs, h0]

/-- A worker that is not running, with a search of 25 cycles, and no loop. -/
def toyIdle : Worker toy := ⟨.live (25, 25), false, [], []⟩

theorem toyIdle_ok : toyIdle.Ok fun _ => True := ⟨by simp [toyIdle], fun _ _ => trivial, by simp [toyIdle]⟩

/-- `C83_start`: started, it needs exactly three further wake-ups. -/
example : ∃ w1 o1 w2 o2, toyIdle.receive 1000 .start = (w1, o1) ∧ w1.run [.wake 0 1001, .wake 0 1002, .wake 0 1003] = some (w2, o2) ∧
    w2.loops = [] ∧ (o1 ++ o2).filter FromWorker.isEnd = [.done] := by
  have key : ((toyIdle.receive 1000 .start).1.run [.wake 0 1001, .wake 0 1002, .wake 0 1003]).map toyLog =
      some (some 0, false, 0, [1, 2, 4]) := by decide +kernel
  obtain ⟨⟨w2, o2⟩, h, -⟩ := Option.map_eq_some_iff.mp key
  have := C83_start toy_safe toy_counts toyIdle_ok rfl (s := ((25 : Nat), (25 : Nat))) rfl rfl (now := 1000) rfl (by simp [WEvent.IsWake]) h
  have h3 := this.2.1.mp (by decide)
  exact ⟨_, _, w2, o2, rfl, h, h3, (this.2.2 h3).2.2⟩

/-- The same search, running, with one waiting loop. -/
def toyBusy : Worker toy := ⟨.live (25, 15), true, [⟨0, 0⟩], []⟩

theorem toyBusy_ok : toyBusy.Ok fun _ => True := ⟨by simp [toyBusy], fun _ _ => trivial, fun _ => ⟨⟨_, rfl⟩, by simp [toyBusy]⟩⟩

/-- `C83_two_loops` and `C83_finishes`: paused and started again before the loop was woken, there are two loops; three wake-ups, in any
order (here 1, 0 and 0), end them both: `done` is posted, and then `paused`. -/
example : (∃ w' out, toyBusy.run [.receive .pause 1, .receive .start 2] = some (w', out) ∧ w'.running = true ∧ w'.loops.length = 2) ∧
    (toyBusy.run [.receive .pause 1, .receive .start 2, .wake 1 3, .wake 0 4, .wake 0 5]).map toyLog =
      some (some 0, false, 0, [5, 1, 2, 4, 5]) :=
  ⟨C83_two_loops toy_safe toyBusy_ok rfl rfl 1 2 (fun s h => by cases h; rfl), by decide +kernel⟩

/-- `C83_pause` and `C83_reset_paused`. -/
example : (∃ w' out, (⟨.live (25, 15), false, [⟨0, 0⟩], []⟩ : Worker toy).run [.wake 0 4, .receive (.evaluate (7 : Nat) .train) 5] = some (w', out) ∧
      toyLog (w', out) = (some 15, false, 0, [5, 3]) ∧ (∀ m ∈ out, ¬ m.Progress)) ∧
    ∃ w', toyBusy.run [.receive .reset 1, .wake 0 2] = some (w', [.resetDone, .paused]) ∧ w'.search = .null ∧ w'.loops = [] := by
  constructor
  · have key : ((⟨.live (25, 15), false, [⟨0, 0⟩], []⟩ : Worker toy).run [.wake 0 4, .receive (.evaluate (7 : Nat) .train) 5]).map toyLog =
        some (some 15, false, 0, [5, 3]) := by decide +kernel
    obtain ⟨⟨w, out⟩, h, hl⟩ := Option.map_eq_some_iff.mp key
    exact ⟨w, out, h, hl, (C83_pause rfl (by simp [WEvent.Quiet]) h).2.1⟩
  · exact C83_reset_paused rfl 1 2

/-- A search that panics in its second step. -/
def toyPanic : Wasm := { toy with step := fun n s => if s.2 ≤ 20 then none else some ((s.1, s.2 - n), (s.1, s.2 - n)) }

/-- `C83_panic_silent`: its loop is woken, and nothing is ever posted again. -/
example : ∃ w', (⟨.live (25, 15), true, [⟨0, 0⟩], []⟩ : Worker toyPanic).run [.wake 0 1, .receive .start 2] = some (w', []) ∧
    w'.running = true ∧ w'.loops = [] :=
  C83_panic_silent (W := toyPanic) rfl (s := (25, 15)) rfl rfl rfl rfl 1 2

/-! ## Derivatives in any arithmetic -/

open Demo in
/-- The hypotheses of `C07_any_arithmetic`, `C07_flag_any_arithmetic` and `C08_any_arithmetic` are met in binary64: an operator of two
different features, on one row, with a new context. -/
example (hash : List PNode → UInt64) (opts : EvalOptions) :
    let _ : Scalar (Fl ℚ) := (flScalar binary64).toScalar
    let t : Tree := .op 0 [.var 0, .var 1]
    (∃ vals ders flag ctx', evalDiffTreeArray steepOps hash 2 ⟨t.toPostfix, []⟩ steepData 1 (DContext.new 1) opts = some (vals, ders, flag, ctx')) ∧
    ∃ vals grad flag ctx', evalGradTreeArray steepOps hash 2 ⟨t.toPostfix, []⟩ steepData true (DContext.new 1) opts = some (vals, grad, flag, ctx') := by
  intro _ t
  have hwf : t.WF steepOps 2 steepData.rows ([] : List (Fl ℚ)).length := by
    simp [t, Tree.WF, steepOps, steepData]
  have hlim : InLimits steepData.rows ([] : List (Fl ℚ)).length t := by
    refine ⟨?_, ?_, ?_⟩ <;> decide
  constructor
  · obtain ⟨v, d, f, c, h, -⟩ := C07_any_arithmetic steepOps hash 2 t steepData [] 1 opts (DContext.new 1) hwf hlim (by decide) rfl ⟨rfl, rfl⟩ (.inl rfl)
    exact ⟨v, d, f, c, h⟩
  · obtain ⟨v, d, f, c, h, -⟩ := C08_any_arithmetic steepOps hash 2 t steepData [] true opts (DContext.new 1) hwf hlim (by decide) rfl ⟨rfl, rfl⟩ (.inl rfl)
    exact ⟨v, d, f, c, h⟩

end SR
