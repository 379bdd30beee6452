import Verif.Model.Web
import Verif.Model.Strings
/-
Model of `WasmSearch` in `web/wasm/src/lib.rs`: opening a session, stepping it, and the replies.  The
reading of the options from JavaScript is in Model/PageOptions.lean.  Not modelled: the conversions of results to JavaScript, the
CSV reader, the texts of error messages.  The outer `none` is a panic or a computation that does not return, the inner
`none` the `Err` of the code.
-/
namespace SR

/-! ## Numbers as text -/

/-- `u64::to_string`, used for identifiers in lib.rs:325 and 353. -/
def idText (n : Nat) : List Char := Nat.toDigits 10 n

/-- The digit loop of `u64::from_str` (radix 10, checked arithmetic). -/
def parseDigits : Nat → List Char → Option Nat
  | acc, [] => some acc
  | acc, c :: cs =>
    if c.isDigit then
      let v := acc * 10 + (c.toNat - '0'.toNat)
      if v < 2 ^ 64 then parseDigits v cs else none
    else none

/-- `str::parse::<u64>`, used in lib.rs:258-260: an optional `+`, then at least one digit. -/
def parseU64 : List Char → Option Nat
  | [] => none
  | ['+'] => none
  | '+' :: cs => parseDigits 0 cs
  | cs => parseDigits 0 cs

section
variable {K : Type} [Field K] [LinearOrder K]

/-! ## Options -/

/-- The part of `WasmSearchOptions` that selects the loss, lib.rs:95-99. -/
structure WebLoss (K : Type) where
  kind : List Char
  huberDelta : Fl K
  lpP : Fl K
  quantileTau : Fl K
  epsilon : Fl K

/-- The table of names, lib.rs:281-294, with `make_loss`. -/
def WebLoss.named (l : WebLoss K) (name : List Char) : Option (LossKind K) :=
  if name = "mse".toList then some (.mean .squared)
  else if name = "mae".toList then some (.mean .abs)
  else if name = "rmse".toList then some .rmse
  else if name = "huber".toList then some (.mean (.huber l.huberDelta))
  else if name = "logcosh".toList then some (.mean .logCosh)
  else if name = "lp".toList then some (.mean (.lp l.lpP))
  else if name = "quantile".toList then some (.mean (.quantile l.quantileTau))
  else if name = "epsilon-insensitive".toList ∨ name = "epsilon_insensitive".toList ∨ name = "eps-insensitive".toList ∨
    name = "eps_insensitive".toList then some (.mean (.epsIns l.epsilon))
  else none

/-- The match on `loss_kind.trim().to_ascii_lowercase()`, lib.rs:280-300; `ws` is the white space of `str::trim`. -/
def WebLoss.parse (ws : Char → Bool) (l : WebLoss K) : Option (LossKind K) :=
  l.named ((trimWs ws l.kind).map Char.toLower)

/-- `LossKind::parse`, loss_functions.rs:80-94, followed by `make_loss`. -/
def parseLossKind (R : Rounding K) (ws : Char → Bool) (s : List Char) : Option (LossKind K) :=
  parseLossName R (String.ofList ((trimWs ws s).map Char.toLower))

/-- The texts of a request for a session, lib.rs:185-206. -/
structure WebRequest (K : Type) where
  headers : List String
  rows : List (List (Fl K))
  columns : WebColumns
  validationFraction : Fl ℚ
  loss : WebLoss K
  unary : List (List Char)
  binary : List (List Char)
  ternary : List (List Char)
  /-- the numbers and flags of `opts.core` (options.rs:226-230); its `operators` and `loss` and the fields of `cx` not
  among them are ignored -/
  core : SOptions K

/-- `options_from_wasm`, lib.rs:279-313 with `apply_to` (options.rs:244-250): everything that is not in the request
has its default. -/
def WebRequest.options (ws : Char → Bool) (q : WebRequest K) (operators : Operators) : Option (SOptions K) :=
  (q.loss.parse ws).map fun loss =>
    { q.core with
      operators, loss
      cx := { q.core.cx with D := 3, variableComplexities := none, operatorComplexityOverrides := [], opLimits := [],
                             nested := [] } }

/-! ## The data of a session -/

/-- The data sets of a session with the split they come from. -/
structure WebData (K : Type) where
  names : List String
  split : Split
  train : Dataset K
  val : Option (Dataset K)

/-- The data part of `WasmSearch::new`, lib.rs:208-213; `g` is the stream of the split. -/
def webData (headers : List String) (rows : List (List (Fl K))) (o : WebColumns) (fraction : Fl ℚ) (g : Rng (Fl K)) :
    Option (Option (WebData K)) := do
  match ← buildFullDataset headers rows o with
  | none => some none
  | some f =>
    let (split, _) ← (makeSplitIndices f.x.cols fraction : Rand (Fl K) Split) g
    match ← splitTrainVal f.x f.y f.weights split with
    | none => some none
    | some (train, val) => some (some ⟨f.names, split, train, val⟩)

variable [E : Env K]

/-! ## Sessions -/

/-- `WasmSearch`, lib.rs:174-180; `opts`, `train` and `names` are inside the engine. -/
structure Session (K : Type) where
  opts : SOptions K
  train : Dataset K
  names : List String
  engine : Engine K
  val : Option (Dataset K)
  split : Split
  paretoK : Nat

/-- The engine of a new session, lib.rs:217-224; `pareto_k` is 250. -/
def Session.start (o : SOptions K) (w : WebData K) (seeds : Nat → Rng (Fl K)) (orderRng : Rng (Fl K)) :
    Option (Session K) := do
  let train ← tagged o w.train
  let engine ← Engine.new o train seeds orderRng
  some ⟨o, train, w.names, engine, w.val, w.split, 250⟩

/-- `WasmSearch::new`, lib.rs:185-225. -/
def Session.open (S : OpTable) (ws : Char → Bool) (q : WebRequest K) (splitRng : Rng (Fl K)) (seeds : Nat → Rng (Fl K))
    (orderRng : Rng (Fl K)) : Option (Option (Session K)) := do
  match ← fromNamesByArity S ws 3 q.unary q.binary q.ternary with
  | .error _ => some none
  | .ok operators =>
    match ← webData q.headers q.rows q.columns q.validationFraction splitRng with
    | none => some none
    | some w =>
      match q.options ws operators with
      | none => some none
      | some o => (Session.start o w seeds orderRng).map some

/-! ## Replies -/

/-- `EquationPoint`, lib.rs:125-130. -/
structure EqPoint (K : Type) where
  id : List Char
  complexity : Nat
  loss : Fl K
  cost : Fl K

/-- `EquationSummary`, lib.rs:133-139. -/
structure EqSummary (K : Type) where
  id : List Char
  complexity : Nat
  loss : Fl K
  cost : Fl K
  equation : List Char

/-- `SearchSnapshot`, lib.rs:142-148. -/
structure Snapshot (K : Type) where
  totalCycles : Nat
  cyclesCompleted : Nat
  totalEvals : Nat
  best : EqSummary K
  pareto : List (EqPoint K)

/-- How operators and numbers are printed. -/
structure Texts (K : Type) where
  metas : Metas
  number : Fl K → List Char

omit [Field K] [LinearOrder K] E in
/-- `summary_from_member`, lib.rs:341-359. -/
def summaryOf (T : Texts K) (names : List String) (m : Member K) : Option (EqSummary K) :=
  (stringTree T.metas T.number (some (names.map String.toList)) [] false m.expr).map fun equation =>
    ⟨idText m.id, m.complexity, m.loss, m.cost, equation⟩

omit [Field K] [LinearOrder K] E in
/-- The points of `snapshot`, lib.rs:322-330. -/
def pointOf (m : Member K) : EqPoint K := ⟨idText m.id, m.complexity, m.loss, m.cost⟩

/-- `snapshot`, lib.rs:315-339. -/
def Session.snapshot (T : Texts K) (s : Session K) : Option (Snapshot K) :=
  (summaryOf T s.names s.engine.shared.best).map fun best =>
    ⟨s.engine.shared.counters.total, s.engine.shared.counters.completed, s.engine.shared.totalEvals, best,
      (shownFront s.engine.shared.hall s.paretoK).map pointOf⟩

/-- `step`, lib.rs:239-243. -/
def Session.step (T : Texts K) (s : Session K) (n : Nat) : Option (Session K × Snapshot K) := do
  let (_, engine) ← s.engine.step s.opts s.train n
  let s := { s with engine }
  let snap ← s.snapshot T
  some (s, snap)

/-- `best_equations`, lib.rs:245-255. -/
def Session.bestEquations (T : Texts K) (s : Session K) (k : Nat) : Option (List (EqSummary K)) :=
  (shownFront s.engine.shared.hall k).mapM (summaryOf T s.names)

/-- The data set with the given name, lib.rs:261-268. -/
def Session.dataset (s : Session K) (which : List Char) : Option (Dataset K) :=
  if which = "train".toList then some s.train else if which = "val".toList then s.val else none

/-- `evaluate_member`, lib.rs:257-276. -/
def Session.evaluate (s : Session K) (id which : List Char) : Option (Option (Metrics K × List (Fl K))) :=
  match parseU64 id with
  | none => some none
  | some id =>
    match s.dataset which with
    | none => some none
    | some d => evaluateMember s.engine.shared d id

/-- A call of the page: `set_pareto_k`, `step`, `best_equations`, `evaluate_member` (`get_split_indices` and
`is_finished` only read). -/
inductive WebCall where
  | setParetoK (k : Nat)
  | step (n : Nat)
  | bestEquations (k : Nat)
  | evaluate (id which : List Char)

/-- Its reply (`failed`: an error). -/
inductive WebReply (K : Type) where
  | done
  | snapshot (s : Snapshot K)
  | equations (l : List (EqSummary K))
  | evaluated (m : Metrics K) (yhat : List (Fl K))
  | failed

/-- The reply to `evaluate_member`. -/
def WebReply.ofEval : Option (Metrics K × List (Fl K)) → WebReply K
  | none => .failed
  | some (m, yhat) => .evaluated m yhat

/-- One call on a session. -/
def Session.call (T : Texts K) (s : Session K) : WebCall → Option (Session K × WebReply K)
  | .setParetoK k => some ({ s with paretoK := k }, .done)
  | .step n => (s.step T n).map fun r => (r.1, .snapshot r.2)
  | .bestEquations k => (s.bestEquations T k).map fun l => (s, .equations l)
  | .evaluate id which => (s.evaluate id which).map fun r => (s, .ofEval r)

/-- A sequence of calls with the replies. -/
def Session.calls (T : Texts K) : List WebCall → Session K → Option (Session K × List (WebReply K))
  | [], s => some (s, [])
  | c :: cs, s => do
    let (s, r) ← s.call T c
    let (s, rs) ← Session.calls T cs s
    some (s, r :: rs)

end
end SR
