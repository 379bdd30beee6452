import Verif.Model.Display
/-
What the progress display is claimed to show (C80).
-/
namespace SR
variable {K : Type} [Field K] [LinearOrder K] [E : Env K]

/-- The runs of the multi-worker driver with its display: `log` lists, for every result that was applied, the state of
the search after it and what the display read from its surroundings then. -/
inductive ParShown (o : SOptions K) (full : Dataset K) (nw : Nat) (X : DisplayText K) (p0 : Par K) (d0 : Display K) :
    Par K → Display K → List (Shared K × Tick) → Prop
  | init : ParShown o full nw X p0 d0 p0 d0 []
  | quiet {p q : Par K} {d : Display K} {log : List (Shared K × Tick)} {e : ParEvent} :
      ParShown o full nw X p0 d0 p d log → ParStep o full nw p e q → (∀ i, e ≠ .receive i) →
      ParShown o full nw X p0 d0 q d log
  | cycle {p q : Par K} {d d' : Display K} {log : List (Shared K × Tick)} {i : Nat} {k : Tick} :
      ParShown o full nw X p0 d0 p d log → ParStep o full nw p (.receive i) q → d.applied X q.shared k = some d' →
      ParShown o full nw X p0 d0 q d' (log ++ [(q.shared, k)])

/-- The same for the step-wise driver: any number of steps. -/
inductive EngineShown (o : SOptions K) (full : Dataset K) (X : DisplayText K) (e0 : Engine K) (d0 : Display K) :
    Engine K → Display K → List (Shared K × Tick) → Prop
  | init : EngineShown o full X e0 d0 e0 d0 []
  | step {e e' : Engine K} {d d' : Display K} {log : List (Shared K × Tick)} {b : Bool} {k : Tick} :
      EngineShown o full X e0 d0 e d log → e.stepShown o full X k d = some (b, e', d') →
      EngineShown o full X e0 d0 e' d'
        (if e.shared.counters.completed < e'.shared.counters.completed then log ++ [(e'.shared, k)] else log)

/-- The times and evaluation counts between which speeds are measured: the first is `m`, and each next one is the first
at least a second after the one before. -/
def speedMarks : Nat × Nat → List (Nat × Nat) → List (Nat × Nat)
  | m, [] => [m]
  | m, x :: l => if 1000000000 ≤ x.1 - m.1 then m :: speedMarks x l else speedMarks m l

/-- The speed between two marks: evaluations per second, as computed. -/
def speedBetween (a b : Nat × Nat) : Fl K :=
  E.R.div (E.R.ofNat (b.2 - a.2)) (speedInterval E.R (b.1 - a.1))

/-- The last `n` elements of a list. -/
def lastN {α : Type} (n : Nat) (l : List α) : List α := l.drop (l.length - n)

/-- The speeds whose average is displayed after the cycles of `log`, the display being started at `clock` with `evals0`
evaluations: those between consecutive marks, the last twenty of them. -/
def recentSpeeds (clock evals0 : Nat) (log : List (Shared K × Tick)) : List (Fl K) :=
  let ms := speedMarks (clock, evals0) (log.map fun x => (x.2.now, x.1.totalEvals))
  lastN 20 (List.zipWith speedBetween ms ms.tail)

/-- `ls` is the message about the state `s` that was made at `k`, the cycles before it being `pre`: an info line with
the average speed, the evaluations so far and the elapsed time, a title, and the table of the hall of fame. -/
def IsMessage (X : DisplayText K) (start clock evals0 : Nat) (pre : List (Shared K × Tick)) (s : Shared K) (k : Tick)
    (ls : List (List Char)) : Prop :=
  ∃ table,
    formatHall (max k.width 80) usizeMax
      (s.hall.paretoFront.map fun m => (m.complexity, X.loss m.loss, X.equation m)) = some table ∧
    ls = (infoLine X (avgSpeed E.R (recentSpeeds clock evals0 (pre ++ [(s, k)]))) s.totalEvals (k.later - start)).take
        (max k.width 80 - 1) :: "Hall of Fame:".toList :: table

/-- The number of cycles left in a state. -/
def Shared.left (s : Shared K) : Nat := s.counters.total - s.counters.completed

/-- What a display that is shown shows after the cycles of `log`; it was made at `start` and told of `evals0`
evaluations at `clock`. -/
structure Display.Tells (X : DisplayText K) (start clock evals0 total : Nat) (log : List (Shared K × Tick))
    (d : Display K) : Prop where
  /-- the bar has the length of the whole search, and its position counts the completed cycles -/
  length : d.length = total
  pos : d.pos = log.length
  /-- the message: none yet, because less than half a second had passed at each cycle; or the one made at some cycle,
  after which less than half a second had passed at each cycle so far; in any case no cycle since was the last one -/
  message :
    (d.message = none ∧ ∀ x ∈ log, x.2.now - start < 500000000 ∧ x.1.left ≠ 0) ∨
    ∃ pre s k post ls, log = pre ++ (s, k) :: post ∧ d.message = some ls ∧ IsMessage X start clock evals0 pre s k ls ∧
      ∀ x ∈ post, x.2.now - k.now < 500000000 ∧ x.1.left ≠ 0

end SR
