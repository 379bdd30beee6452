import Verif.Model.Progress
import Verif.Model.Search
/-
Model of the progress display over a run: `SearchProgress` in `symbolic_regression/src/progress_bars.rs`:12-195 and its
calls in `search_utils.rs`.  Readings of the clock are in nanoseconds and are arguments, as are the width of the terminal
and the texts of numbers and equations.  Colours are not modelled (`render.ansi == false`), nor is the drawing of the bar
by `indicatif`: of the bar the length, position, message and whether it was finished are kept.
-/
namespace SR
variable {K : Type} [Field K] [LinearOrder K] [E : Env K]

/-- The texts of numbers and equations: `{:.3e}` of a loss, `to_string` of an expression, `{:<8.2e}` of a speed and
`{:.1}` of a duration in seconds. -/
structure DisplayText (K : Type) where
  loss : Fl K → List Char
  equation : Member K → List Char
  speed : Fl K → List Char
  time : Nat → List Char

/-- What the display reads from its surroundings when a cycle completes: the clock at the beginning of the update
(progress_bars.rs:142) and when the text is made (progress_bars.rs:175, 180), and the width of the terminal
(progress_bars.rs:159). -/
structure Tick where
  now : Nat
  later : Nat
  width : Nat

/-- `ProgressTracking`, progress_bars.rs:14-19. -/
structure Tracking (K : Type) where
  lastSpeedTime : Nat
  evalsLast : Nat
  speeds : List (Fl K)
  lastMsgUpdate : Nat

/-- `SearchProgress`, progress_bars.rs:26-33. -/
structure Display (K : Type) where
  shown : Bool
  length : Nat
  pos : Nat
  message : Option (List (List Char))
  closed : Bool
  startTime : Nat
  tracking : Tracking K

/-- `SearchProgress::new`, progress_bars.rs:36-79.  `clock`: the reading of the clock; simplified: the three readings
(progress_bars.rs:70, 73, 76) are one. -/
def Display.new (progress terminal : Bool) (totalCycles clock : Nat) : Display K where
  shown := progress && terminal
  length := if progress && terminal then totalCycles else 0
  pos := 0
  message := none
  closed := false
  startTime := clock
  tracking := ⟨clock, 0, [], clock⟩

/-- `set_initial_evals`, progress_bars.rs:81-84. -/
def Display.setInitialEvals (d : Display K) (totalEvals clock : Nat) : Display K :=
  { d with tracking := { d.tracking with evalsLast := totalEvals, lastSpeedTime := clock } }

/-- `Duration::as_secs_f64`. -/
def asSecsF64 (R : Rounding K) (ns : Nat) : Fl K :=
  R.add (R.ofNat (ns / 1000000000)) (R.div (R.ofNat (ns % 1000000000)) (R.ofNat 1000000000))

/-- `dt`, progress_bars.rs:144: the duration in seconds, at least `1e-9`. -/
def speedInterval (R : Rounding K) (ns : Nat) : Fl K := (asSecsF64 R ns).max (R.rnd (1 / 1000000000))

/-- The window of speeds, progress_bars.rs:146-149. -/
def pushSpeed (speeds : List (Fl K)) (v : Fl K) : List (Fl K) :=
  if 20 < (speeds ++ [v]).length then (speeds ++ [v]).tail else speeds ++ [v]

/-- The measurement of the speed, progress_bars.rs:142-152. -/
def Tracking.measure (t : Tracking K) (totalEvals now : Nat) : Tracking K :=
  if 1000000000 ≤ now - t.lastSpeedTime then
    { t with
      speeds := pushSpeed t.speeds
        (E.R.div (E.R.ofNat (totalEvals - t.evalsLast)) (speedInterval E.R (now - t.lastSpeedTime)))
      evalsLast := totalEvals
      lastSpeedTime := now }
  else t

/-- `avg_speed`, progress_bars.rs:163-167. -/
def avgSpeed (R : Rounding K) (speeds : List (Fl K)) : Option (Fl K) :=
  if speeds.isEmpty then none else some (R.div (R.sum speeds) (R.ofNat speeds.length))

/-- `info_line`, progress_bars.rs:169-182. -/
def infoLine (X : DisplayText K) (avg : Option (Fl K)) (totalEvals elapsed : Nat) : List Char :=
  (match avg with
    | some s => "Info: eval/s~".toList ++ X.speed s
    | none => "Info: eval/s=[.....] ".toList) ++
  " | evals=".toList ++ (toString totalEvals).toList ++ " | t=".toList ++ X.time elapsed ++ "s".toList

/-- The rows of the table: complexity, loss and equation of each member of the front, progress_bars.rs:243-249. -/
def hallRows (X : DisplayText K) (hall : Hall K) : List (Nat × List Char × List Char) :=
  hall.paretoFront.map fun m => (m.complexity, X.loss m.loss, X.equation m)

/-- The lines of the message, progress_bars.rs:158-192. -/
def messageLines (X : DisplayText K) (hall : Hall K) (avg : Option (Fl K)) (totalEvals elapsed termWidth : Nat) :
    Option (List (List Char)) :=
  (formatHall (max termWidth 80) usizeMax (hallRows X hall)).map fun table =>
    truncateToWidth (infoLine X avg totalEvals elapsed) (max termWidth 80) ::
      truncateToWidth "Hall of Fame:".toList (max termWidth 80) :: table

/-- The refresh of the message, progress_bars.rs:154-194. -/
def Display.refresh (X : DisplayText K) (d : Display K) (hall : Hall K) (totalEvals cyclesRemaining : Nat) (k : Tick) :
    Option (Display K) :=
  if k.now - d.tracking.lastMsgUpdate < 500000000 ∧ cyclesRemaining ≠ 0 then some d
  else (messageLines X hall (avgSpeed E.R d.tracking.speeds) totalEvals (k.later - d.startTime) k.width).map fun m =>
    { d with message := some m, tracking := { d.tracking with lastMsgUpdate := k.now } }

/-- `on_cycle_complete` and `update_progress_msg`, progress_bars.rs:86-110 and 129-195 (`none`: panic). -/
def Display.onCycle (X : DisplayText K) (d : Display K) (hall : Hall K) (totalEvals cyclesRemaining : Nat) (k : Tick) :
    Option (Display K) :=
  if d.shown then
    Display.refresh X { d with pos := d.pos + 1, tracking := d.tracking.measure totalEvals k.now } hall totalEvals
      cyclesRemaining k
  else some d

/-- `finish`, progress_bars.rs:112-116: `ProgressBar::finish` moves the bar to its end. -/
def Display.finish (d : Display K) : Display K := if d.shown then { d with pos := d.length, closed := true } else d

/-- The call in `apply_task_result`, search_utils.rs:503-504: with the state after the result was applied. -/
def Display.applied (X : DisplayText K) (d : Display K) (s : Shared K) (k : Tick) : Option (Display K) :=
  d.onCycle X s.hall s.totalEvals (s.counters.total - s.counters.completed) k

/-- The display when the search loop begins, search_utils.rs:173-176 and 256-260: it is made before the initial
populations (at `clock`) and told their evaluations after (at `clock'`). -/
def Display.begin (progress terminal : Bool) (s : Shared K) (clock clock' : Nat) : Display K :=
  (Display.new progress terminal s.counters.total clock).setInitialEvals s.totalEvals clock'

/-- The display after a step of the step-wise driver from `e` to `e'`: it hears of a result that was applied
(search_utils.rs:371-381) and is closed once the search is finished (search_utils.rs:337-341 and 383-386). -/
def Display.afterStep (X : DisplayText K) (k : Tick) (e e' : Engine K) (d : Display K) : Option (Display K) :=
  (if e.shared.counters.completed < e'.shared.counters.completed then d.applied X e'.shared k else some d).map fun d =>
    if e'.progressFinished && !e.progressFinished then d.finish else d

/-- `step_one_cycle` with its display, search_utils.rs:336-389. -/
def Engine.stepShown (o : SOptions K) (full : Dataset K) (X : DisplayText K) (k : Tick) (e : Engine K) (d : Display K) :
    Option (Bool × Engine K × Display K) := do
  let (more, e') ← e.stepOne o full
  let d' ← Display.afterStep X k e e' d
  some (more, e', d')

end SR
