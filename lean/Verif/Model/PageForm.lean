import Verif.Model.PageData
import Verif.Model.PageOptions
import Verif.Model.Lookup
/-
Model of the forms of the web page in which columns and operators are chosen: `web/ui/src/app/panes/EnterData.tsx`,
`web/ui/src/app/panes/ModelingTask.tsx`, with the functions of `web/ui/src/state/sessionStore.ts` that they call.
-/
namespace SR
variable {K : Type} [Zero K] [One K]

/-- The data part of the store and the operators that are ticked, sessionStore.ts:45-51. -/
structure Form (K : Type) where
  data : DataTab K
  unary : List (List Char)
  binary : List (List Char)
  ternary : List (List Char)

/-- `toggleInList`, sessionStore.ts:76-78. -/
def toggleInList {α : Type} [DecidableEq α] (l : List α) (v : α) : List α :=
  if v ∈ l then l.filter fun x => decide (x ≠ v) else l ++ [v]

/-- The page after loading, sessionStore.ts:123-129 and 145-169 with 238-247: the preset `basic`; no columns are chosen. -/
def Form.loaded (text : Csv K) (hasHeaders : Bool) : Form K where
  data := ⟨text, ⟨hasHeaders, none, none, none⟩, none⟩
  unary := ["cos".toList]
  binary := ["add".toList, "sub".toList, "mul".toList, "div".toList]
  ternary := []

/-- `nCols`, EnterData.tsx:24. -/
def Form.nCols (f : Form K) : Nat := match f.data.parsed with | some p => p.headers.length | none => 0

/-- The target that is shown, EnterData.tsx:172 and 225: `yCol ?? nCols - 1`. -/
def Form.target (f : Form K) : Nat := f.data.opts.yColumn.getD (f.nCols - 1)

/-- The box of a column cannot be used, EnterData.tsx:226. -/
def Form.disabled (f : Form K) (c : Nat) : Bool := c == f.target || some c == f.data.opts.weightsColumn

/-- The box of a column is ticked, EnterData.tsx:224-233: there is one for each column of the table. -/
def Form.ticked (f : Form K) (c : Nat) : Bool :=
  decide (c < f.nCols) && (f.data.opts.xColumns.getD []).contains c && !f.disabled c

/-- `clampInt(v, 0, nCols - 1)`, EnterData.tsx:6-8. -/
def clampCol (v nCols : Nat) : Nat := max 0 (min (nCols - 1) v)

/-- The features that remain, EnterData.tsx:176 and 196. -/
def keepFeatures (x : Option (List Nat)) (y : Nat) (weights : Option Nat) : List Nat :=
  (x.getD []).filter fun c => decide (c ≠ y ∧ some c ≠ weights)

/-- A new target, EnterData.tsx:173-178. -/
def Form.setTarget (f : Form K) (v : Nat) : Form K :=
  let y := clampCol v f.nCols
  let weights := if f.data.opts.weightsColumn = some y then none else f.data.opts.weightsColumn
  { f with data := { f.data with opts := { f.data.opts with
      yColumn := some y, weightsColumn := weights, xColumns := some (keepFeatures f.data.opts.xColumns y weights) } } }

/-- Another weights column, EnterData.tsx:192-198. -/
def Form.setWeights (f : Form K) (v : Option Nat) : Form K :=
  let weights := v.map fun c => clampCol c f.nCols
  { f with data := { f.data with opts := { f.data.opts with
      weightsColumn := weights, xColumns := some (keepFeatures f.data.opts.xColumns f.target weights) } } }

/-- A box of the features, EnterData.tsx:234-238. -/
def Form.toggleFeature (f : Form K) (c : Nat) : Form K :=
  let x := toggleInList (f.data.opts.xColumns.getD []) c
  { f with data := { f.data with opts := { f.data.opts with xColumns := some (x.mergeSort fun a b => decide (a ≤ b)) } } }

/-- The names of the operators that are listed, lib.rs:44-61 and ModelingTask.tsx:5-12. -/
def OpTable.listed (S : OpTable) (a : Nat) : List (List Char) := (S.opsWithArity a).map fun i => S.metas.name a i

/-- What can be done on these forms (choosing a file is `setText` and then `parse`), and the parsing by the Run tab. -/
inductive FEvent (K : Type) where
  | setText (t : Csv K)
  | setHeaders (b : Bool)
  | parse
  | ensure
  | target (c : Nat)
  | weights (c : Option Nat)
  | feature (c : Nat)
  | unary (name : List Char)
  | binary (name : List Char)

/-- One event; `none` if it is not possible: the choices of columns are shown when there is a parsed table, list the columns
of it, and disable the target (EnterData.tsx:164, 180, 201-202) or the target and the weights (EnterData.tsx:226); ternary operators are
not shown (ModelingTask.tsx:116-118). -/
def Form.on (S : OpTable) (f : Form K) : FEvent K → Option (Form K)
  | .setText t => some { f with data := f.data.on (.setText t) }
  | .setHeaders b => some { f with data := f.data.on (.setOptions { f.data.opts with hasHeaders := b }) }
  | .parse => some { f with data := f.data.on .parse }
  | .ensure => some { f with data := f.data.on .ensure }
  | .target c => if c < f.nCols then some (f.setTarget c) else none
  | .weights none => if f.data.parsed.isSome then some (f.setWeights none) else none
  | .weights (some c) => if c < f.nCols ∧ c ≠ f.target then some (f.setWeights (some c)) else none
  | .feature c => if c < f.nCols ∧ f.disabled c = false then some (f.toggleFeature c) else none
  | .unary name => if name ∈ S.listed 1 then some { f with unary := toggleInList f.unary name } else none
  | .binary name => if name ∈ S.listed 2 then some { f with binary := toggleInList f.binary name } else none

/-- A history of the forms. -/
def Form.run (S : OpTable) : List (FEvent K) → Form K → Option (Form K)
  | [], f => some f
  | e :: es, f => (f.on S e).bind (Form.run S es)

/-- A column or none, as a value of JavaScript. -/
def jsColumn : Option Nat → JsOpt
  | none => .null
  | some c => .num (.fin (c : ℚ))

/-- A list of columns or none, as a value of JavaScript. -/
def jsColumns : Option (List Nat) → JsOpt
  | none => .null
  | some l => .arr (l.map fun n : Nat => .num (.fin (n : ℚ)))

/-- The patch of the options by which the choice of columns is stored, EnterData.tsx:177, 197, 237 and sessionStore.ts:202-210 (the
fields that stay as they were are patched with their value). -/
def columnsPatch (c : WebColumns) : JsObj :=
  [("y_column", jsColumn c.yColumn), ("weights_column", jsColumn c.weightsColumn),
   ("x_columns", jsColumns c.xColumns)]

end SR
