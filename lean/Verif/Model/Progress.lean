import Verif.Model.Population
/-
Model of the text output of `symbolic_regression/src/progress_bars.rs`: the wrapping of equations and the table of the
hall of fame without colours (`render.ansi == false`).  Strings are lists of characters; offsets are byte offsets in
the UTF-8 encoding, as in the code.  Not modelled: colours and the
formatting of numbers (the text of a loss is an argument).
-/
namespace SR

/-- The length of a string in bytes (`str::len`). -/
def byteLen (s : List Char) : Nat := (s.map Char.utf8Size).sum

/-- `str::is_char_boundary`. -/
def isBoundary : List Char → Nat → Bool
  | _, 0 => true
  | [], _ + 1 => false
  | c :: s, k + 1 => decide (c.utf8Size ≤ k + 1) && isBoundary s (k + 1 - c.utf8Size)

/-- The string from a byte offset on (`none`: not a boundary, or beyond the end). -/
def dropBytes : List Char → Nat → Option (List Char)
  | s, 0 => some s
  | [], _ + 1 => none
  | c :: s, k + 1 => if c.utf8Size ≤ k + 1 then dropBytes s (k + 1 - c.utf8Size) else none

/-- The string up to a byte offset. -/
def takeBytes : List Char → Nat → Option (List Char)
  | _, 0 => some []
  | [], _ + 1 => none
  | c :: s, k + 1 => if c.utf8Size ≤ k + 1 then (takeBytes s (k + 1 - c.utf8Size)).map (c :: ·) else none

/-- `eqn[start..end]` (`none`: panic). -/
def sliceBytes (s : List Char) (start stop : Nat) : Option (List Char) :=
  if start ≤ stop then (takeBytes s stop).bind (dropBytes · start) else none

/-- The space for a chunk, progress_bars.rs:272-277. -/
def wrapAvail (width left : Nat) : Nat := max (width - 1 - left - 3) 10

/-- The search for a character boundary, progress_bars.rs:283-285. -/
def boundaryBelow (s : List Char) (start : Nat) : Nat → Nat
  | 0 => 0
  | e + 1 => if start < e + 1 ∧ isBoundary s (e + 1) = false then boundaryBelow s start e else e + 1

theorem boundaryBelow_le (s : List Char) (start e : Nat) : boundaryBelow s start e ≤ e := by
  induction e with
  | zero => simp [boundaryBelow]
  | succ e ih => unfold boundaryBelow; split <;> omega

/-- The dots added to a chunk that is not the last, progress_bars.rs:290-292. -/
def addDots (s : List Char) (stop : Nat) (chunk : List Char) : List Char :=
  if stop < byteLen s then chunk ++ ['.', '.', '.'] else chunk

/-- The loop of `wrap_equation`, progress_bars.rs:281-295 (`none`: a slice panics). -/
def wrapLoop (s : List Char) (avail start : Nat) : Option (List (List Char)) :=
  if h : start < byteLen s then
    let stop := boundaryBelow s start (min (start + avail) (byteLen s))
    if h' : stop ≤ start then some []
    else do
      let chunk ← sliceBytes s start stop
      let rest ← wrapLoop s avail stop
      some (addDots s stop chunk :: rest)
  else some []
termination_by byteLen s - start
decreasing_by
  have := boundaryBelow_le s start (min (start + avail) (byteLen s))
  omega

/-- `wrap_equation`, progress_bars.rs:270-297.  Simplified: `start + avail` does not overflow (the width of a terminal
is a `u16`). -/
def wrapEquation (s : List Char) (width left : Nat) : Option (List (List Char)) := wrapLoop s (wrapAvail width left) 0

/-- `truncate_to_width` without colours, progress_bars.rs:299-309. -/
def truncateToWidth (s : List Char) (width : Nat) : List Char :=
  if s.length ≤ width - 1 then s else s.take (width - 1)

/-- `format!("{:<10}", s)`: padded on the right to ten characters. -/
def padRight10 (s : List Char) : List Char := s ++ List.replicate (10 - s.length) ' '

/-- The left columns of a row, progress_bars.rs:246 (`loss` is the text of the loss). -/
def statsText (complexity : Nat) (loss : List Char) : List Char :=
  padRight10 (toString complexity).toList ++ [' ', ' '] ++ padRight10 loss ++ [' ', ' ']

/-- The lines of one row, progress_bars.rs:246-265. -/
def rowLines (width : Nat) (stats eqn : List Char) : Option (List (List Char)) :=
  (wrapEquation eqn width stats.length).map fun lines =>
    match lines with
    | [] => [truncateToWidth stats width]
    | first :: rest => truncateToWidth (stats ++ first) width ::
        rest.map fun l => truncateToWidth (List.replicate stats.length ' ' ++ l) width

/-- `format_hall_of_fame` without colours, progress_bars.rs:199-268: the lines of the table.  `rows` are complexity,
loss text and equation text of the members of the front, in order; `maxEntries` of them are shown. -/
def formatHall (terminalWidth maxEntries : Nat) (rows : List (Nat × List Char × List Char)) : Option (List (List Char)) := do
  let width := max terminalWidth 80
  let border := List.replicate (width - 1) '─'
  let header := padRight10 "Complexity".toList ++ [' ', ' '] ++ padRight10 "Loss".toList ++ [' ', ' '] ++ "Equation".toList
  let body ← (rows.take maxEntries).mapM fun r => rowLines width (statsText r.1 r.2.1) r.2.2
  some (border :: truncateToWidth header width :: (body.flatten ++ [border]))

end SR
