import Verif.Model.Web
/-
Model of how the web page and the session read the data, and of how the page puts predictions and data together in a plot:
`parseCsvText`, `parseCsv`, `ensureParsedForRuntime` of `web/ui/src/state/sessionStore.ts`, `parse_csv_to_rows` of
`web/wasm/src/lib.rs`, the data part of `web/ui/src/app/panes/searchSolutions/useSearchController.ts` and `sortXY` of
`plotUtils.ts`.

The two libraries that read the text (PapaParse on the page, the crate `csv` in the session) are not modelled: a text is the
list of its non-empty lines, a line the list of its cells, and a cell is what the two sides make of it.  So it is assumed that
both find the same lines and cells, and that PapaParse reports no errors.
-/
namespace SR
variable {K : Type}

/-- A value that PapaParse gives for a cell with `dynamicTyping`: a number, a truth value, `null` (an empty cell), or anything
else (a text, a date) of which only what `Number` makes of it matters. -/
inductive JsVal (K : Type) where
  | num (v : Fl K)
  | bool (b : Bool)
  | null
  | other (number : Fl K)

/-- `Number(v)` of JavaScript. -/
def JsVal.number [Zero K] [One K] : JsVal K → Fl K
  | .num v => v
  | .bool b => .fin (if b then 1 else 0)
  | .null => .fin 0
  | .other v => v

/-- A cell: its value on the page, its value by `s.parse::<f64>()` of the trimmed text (`none`: an error), and its texts. -/
structure Cell (K : Type) where
  js : JsVal K
  rust : Option (Fl K)
  shown : String
  text : String

/-- A text: lines of cells. -/
abbrev Csv (K : Type) := List (List (Cell K))

/-- The lines that are data, sessionStore.ts:91-98. -/
def dataLines {α : Type} (hasHeaders : Bool) (raw : List α) : List α := if hasHeaders then raw.drop 1 else raw

/-- `ParsedDataset`, sessionStore.ts:22-25. -/
structure Parsed (K : Type) where
  headers : List String
  rows : List (List (Fl K))

/-- The names of columns, sessionStore.ts:93-97 and 109-112. -/
def pageHeaders (hasHeaders : Bool) (raw : Csv K) (nCols : Nat) : List String :=
  let h := if hasHeaders then ((raw.head?).getD []).map Cell.shown else []
  if h.length ≠ nCols then (List.range nCols).map fun i => "col_" ++ toString i else h

/-- `parseCsvText`, sessionStore.ts:80-115 (`none`: an error). -/
def pageParse [Zero K] [One K] (hasHeaders : Bool) (raw : Csv K) : Option (Parsed K) :=
  let rows := ((dataLines hasHeaders raw).map fun r => r.map fun c => c.js.number).filter fun r => !r.any fun v => !v.isFinite
  match rows.head? with
  | none => none
  | some r => some ⟨pageHeaders hasHeaders raw r.length, rows⟩

/-- `parse_csv_to_rows`, lib.rs:530-560 (`none`: an error); the reader is not flexible: all records have the length of the first. -/
def sessionRead (hasHeaders : Bool) (raw : Csv K) : Option (List String × List (List (Fl K))) :=
  if raw.any fun r => decide (r.length ≠ ((raw.head?).getD []).length) then none
  else do
    let rows ← (dataLines hasHeaders raw).mapM fun r => r.mapM Cell.rust
    some (if hasHeaders then ((raw.head?).getD []).map Cell.text else [], rows)

/-! ## The Data tab -/

/-- The part of the store that concerns the data, sessionStore.ts:44-48. -/
structure DataTab (K : Type) where
  text : Csv K
  opts : WebColumns
  parsed : Option (Parsed K)

/-- The columns after `parseCsv`, sessionStore.ts:193-210. -/
def fillColumns (nCols : Nat) (o : WebColumns) : WebColumns :=
  let y := o.yColumn.getD (nCols - 1)
  { o with
    yColumn := some y
    xColumns := some (o.xColumns.getD ((List.range nCols).filter fun c => decide (c ≠ y ∧ some c ≠ o.weightsColumn))) }

variable [Zero K] [One K]

/-- `parseCsv`, sessionStore.ts:182-211: an error leaves everything but the status as it was. -/
def DataTab.parseCsv (d : DataTab K) : DataTab K :=
  match pageParse d.opts.hasHeaders d.text with
  | none => d
  | some p => { d with parsed := some p, opts := fillColumns ((p.rows.head?).getD []).length d.opts }

/-- `ensureParsedForRuntime`, sessionStore.ts:213-224. -/
def DataTab.ensureParsed (d : DataTab K) : DataTab K :=
  match d.parsed with
  | some _ => d
  | none => match pageParse d.opts.hasHeaders d.text with
    | none => d
    | some p => { d with parsed := some p }

/-- What can happen to the data: the user edits the text or the options or clicks Parse (choosing a file is `setText` and then
`parse`, EnterData.tsx:89-95), or the Run tab parses (useSearchController.ts:98-104). -/
inductive DEvent (K : Type) where
  | setText (t : Csv K)
  | setOptions (o : WebColumns)
  | parse
  | ensure

/-- One event. -/
def DataTab.on (d : DataTab K) : DEvent K → DataTab K
  | .setText t => { d with text := t }
  | .setOptions o => { d with opts := o }
  | .parse => d.parseCsv
  | .ensure => d.ensureParsed

/-- A history of the Data tab. -/
def DataTab.run : List (DEvent K) → DataTab K → DataTab K
  | [], d => d
  | e :: es, d => DataTab.run es (d.on e)

/-! ## The plot -/

/-- `buildYArray`, `buildXArray`, useSearchController.ts:31-37 (`none`: `undefined`). -/
def columnOf (rows : List (List (Fl K))) (c : Nat) : List (Option (Fl K)) := rows.map fun r => r[c]?

/-- The value `values[i]` if it is a finite number. -/
def finiteAt (values : List (Option (Fl K))) (i : Nat) : Option (Fl K) := (values[i]?).join.filter Fl.isFinite

/-- `gatherByIndices`, useSearchController.ts:39-41. -/
def gatherAt (values : List (Option (Fl K))) (idx : List Nat) : List (Fl K) := idx.filterMap (finiteAt values)

/-- `gatherPairsByIndices`, useSearchController.ts:43-54. -/
def gatherPairs (x y : List (Option (Fl K))) (idx : List Nat) : List (Fl K × Fl K) :=
  idx.filterMap fun i => match finiteAt x i, finiteAt y i with
    | some a, some b => some (a, b)
    | _, _ => none

/-- `yCol`, useSearchController.ts:82. -/
def DataTab.yCol (d : DataTab K) : Nat :=
  d.opts.yColumn.getD (match d.parsed with | some p => p.headers.length - 1 | none => 0)

/-- `yAll`, useSearchController.ts:83. -/
def DataTab.yAll (d : DataTab K) : List (Option (Fl K)) :=
  match d.parsed with | some p => columnOf p.rows d.yCol | none => []

/-- `xAll`, useSearchController.ts:84-88. -/
def DataTab.xAll (d : DataTab K) : List (Option (Fl K)) :=
  match d.parsed, d.opts.xColumns with
  | some p, some (c :: _) => columnOf p.rows c
  | _, _ => []

/-- `trainActual` and `valActual`, useSearchController.ts:252-253, for the rows of a split. -/
def DataTab.actual (d : DataTab K) (idx : List Nat) : List (Fl K) := gatherAt d.yAll idx

/-- `trainXY` and `valXY`, useSearchController.ts:261-268. -/
def DataTab.points (d : DataTab K) (idx : List Nat) : List (Fl K × Fl K) :=
  if d.xAll.isEmpty then [] else gatherPairs d.xAll d.yAll idx

/-- The value of a finite number. -/
def finValue : Fl K → K
  | .fin v => v
  | _ => 0

/-- `sortXY`, plotUtils.ts:74-78 (`sort` is stable; it compares finite numbers only). -/
def sortXY [LinearOrder K] (x y : List (Fl K)) : List (Fl K × Fl K) :=
  (((x.zipIdx.map fun p => (p.1, (y[p.2]?).getD .nan)).filter fun p => p.1.isFinite && p.2.isFinite)).mergeSort
    fun a b => decide (finValue a.1 ≤ finValue b.1)

end SR
