import Verif.Model.WebSession
import Verif.Spec.Web
import Verif.Props.WebSplit
import Verif.Spec.NoPanic
import Verif.Spec.Formula
import Verif.Props.Strings
import Mathlib.Data.List.Forall2
/-
What a page relies on when it talks to a session: which requests are accepted, what the session then holds, what the
replies describe.
-/
namespace SR

/-- A decimal number: the value of a text of digits, most significant first. -/
def decimal : List Char → Nat := List.foldl (fun acc c => 10 * acc + (c.toNat - 48)) 0

section
variable {K : Type} [Field K] [LinearOrder K]

/-- The loss with the given (lower case) name and the parameters of the request. -/
inductive WebLoss.IsNamed (l : WebLoss K) : String → LossKind K → Prop
  | mse : IsNamed l "mse" (.mean .squared)
  | mae : IsNamed l "mae" (.mean .abs)
  | rmse : IsNamed l "rmse" .rmse
  | huber : IsNamed l "huber" (.mean (.huber l.huberDelta))
  | logcosh : IsNamed l "logcosh" (.mean .logCosh)
  | lp : IsNamed l "lp" (.mean (.lp l.lpP))
  | quantile : IsNamed l "quantile" (.mean (.quantile l.quantileTau))
  | eps1 : IsNamed l "epsilon-insensitive" (.mean (.epsIns l.epsilon))
  | eps2 : IsNamed l "epsilon_insensitive" (.mean (.epsIns l.epsilon))
  | eps3 : IsNamed l "eps-insensitive" (.mean (.epsIns l.epsilon))
  | eps4 : IsNamed l "eps_insensitive" (.mean (.epsIns l.epsilon))

/-- The request names a loss: up to surrounding white space and the case of ASCII letters. -/
def WebLoss.Selects (ws : Char → Bool) (l : WebLoss K) (k : LossKind K) : Prop :=
  ∃ (before name after : List Char) (s : String), l.kind = before ++ name ++ after ∧ (∀ c ∈ before, ws c = true) ∧
    (∀ c ∈ after, ws c = true) ∧ name.map Char.toLower = s.toList ∧ l.IsNamed s k

/-- The losses of the library by their (lower case) names, with the documented parameters: Huber with `delta = 1`, `Lp` with
`p = 2`, the median (`tau = 1/2`), an insensitivity of `1/10`. -/
inductive IsLossName (R : Rounding K) : String → LossKind K → Prop
  | mse : IsLossName R "mse" (.mean .squared)
  | mae : IsLossName R "mae" (.mean .abs)
  | rmse : IsLossName R "rmse" .rmse
  | huber : IsLossName R "huber" (.mean (.huber (R.rnd 1)))
  | logcosh : IsLossName R "logcosh" (.mean .logCosh)
  | lp : IsLossName R "lp" (.mean (.lp (R.rnd 2)))
  | quantile : IsLossName R "quantile" (.mean (.quantile (R.rnd (1 / 2))))
  | eps {s : String} : s ∈ ["epsilon-insensitive", "epsilon_insensitive", "eps-insensitive", "eps_insensitive"] →
      IsLossName R s (.mean (.epsIns (R.rnd (1 / 10))))

/-- The table with its split: the rows are divided into training and validation rows, and the two data sets consist of
exactly these rows of the requested columns. -/
structure IsSplit (headers : List String) (rows : List (List (Fl K))) (o : WebColumns) (fraction : Fl ℚ) (names : List String)
    (split : Split) (train : Dataset K) (val : Option (Dataset K)) : Prop where
  partition : (split.train ++ split.val).Perm (List.range rows.length)
  size : split.val.length = nVal rows.length fraction
  table : ∃ (nCols yCol : Nat) (f : FullData K) (cols : List Nat), ValidRequest rows o nCols yCol ∧
    IsTable headers rows o nCols yCol f cols ∧ names = f.names ∧
    RowsOf ⟨f.x, f.y, f.weights, none⟩ train split.train ∧ (split.val = [] → val = none) ∧
    (split.val ≠ [] → ∃ b, val = some b ∧ RowsOf ⟨f.x, f.y, f.weights, none⟩ b split.val)

/-- The last `k` entries of a list (all of them if there are fewer). -/
def IsLast {α : Type} (k : Nat) (all l : List α) : Prop := l <:+ all ∧ l.length = min k all.length

/-- The texts of names, numbers and operators contain no parentheses, commas or spaces. -/
structure Readable (T : Texts K) (ops : List OpId) (names : List String) : Prop where
  names : ∀ n ∈ names, IsWord n.toList
  numbers : ∀ v, IsWord (T.number v)
  operators : ∀ op ∈ ops, IsWord (opText T.metas false op.arity op.id)

/-- The summary shows the member: its identifier, its numbers, and a formula that reads back as its tree over the
column names and the constants. -/
structure EqSummary.Describes (T : Texts K) (ops : List OpId) (names : List String) (e : EqSummary K) (m : Member K) : Prop where
  id : decimal e.id = m.id
  complexity : e.complexity = m.complexity
  loss : e.loss = m.loss
  cost : e.cost = m.cost
  equation : Readable T ops names → ∃ t : Tree, m.expr.nodes = t.toPostfix ∧
    parseFormula e.equation = some (formulaOf T.metas false
      (fun f => ((names[f]?).map String.toList).getD [])
      (fun c => (m.expr.consts[c]?.map T.number).getD []) t)

/-- The point shows the member. -/
structure EqPoint.Describes (e : EqPoint K) (m : Member K) : Prop where
  id : decimal e.id = m.id
  complexity : e.complexity = m.complexity
  loss : e.loss = m.loss
  cost : e.cost = m.cost

/-- The number of cycles a list of calls asks for. -/
def askedCycles : List WebCall → Nat
  | [] => 0
  | .step n :: cs => n + askedCycles cs
  | _ :: cs => askedCycles cs

/-- The limit on the number of points after a list of calls. -/
def lastParetoK (k : Nat) : List WebCall → Nat
  | [] => k
  | .setParetoK k' :: cs => lastParetoK k' cs
  | _ :: cs => lastParetoK k cs

end
end SR
