import Verif.Model.PageData
import Verif.Spec.WebSession
/-
What the user of the web page relies on when looking at the data and at the plot of predictions against data (C85).
-/
namespace SR
variable {K : Type} [Zero K] [One K]

/-- The two readers of numbers agree: what the session reads as a number the page reads as the same number (a number that is not
finite as one that is not finite). -/
def Agree (raw : Csv K) : Prop := ∀ r ∈ raw, ∀ c ∈ r, ∀ v, c.rust = some v → c.js.number = v ∨ (c.js.number.isFinite = false ∧ v.isFinite = false)

/-- A line all of whose cells the page reads as finite numbers. -/
def Numeric (r : List (Cell K)) : Prop := ∀ c ∈ r, c.js.number.isFinite = true

omit [Zero K] [One K] in
/-- All numbers are finite. -/
def AllFinite (rows : List (List (Fl K))) : Prop := ∀ r ∈ rows, ∀ v ∈ r, v.isFinite = true

/-- The page shows the data of the text and of the header switch as they are now. -/
def DataTab.Current (d : DataTab K) : Prop := d.parsed = pageParse d.opts.hasHeaders d.text

/-- Events after which the data on the page may be out of date. -/
def DEvent.Edits (old : DataTab K) : DEvent K → Prop
  | .setText t => t ≠ old.text
  | .setOptions o => o.hasHeaders ≠ old.opts.hasHeaders
  | _ => False

end SR
