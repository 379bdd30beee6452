import Verif.Spec.WebSession
import Verif.Props.WebTable
import Verif.Props.WebMember
import Verif.Props.NoPanic
import Verif.Props.Lookup
import Verif.Props.Baseline
import Verif.Props.Hall
/-
C73: a session of the web interface.
-/
namespace SR

/-! ### Numbers as text -/

theorem decimal_eq (l : List Char) : decimal l = Nat.ofDigitChars 10 l 0 := by
  rw [Nat.ofDigitChars_eq_foldl]; rfl

theorem ofDigitChars_ge (l : List Char) (acc : Nat) : acc ≤ Nat.ofDigitChars 10 l acc := by
  induction l generalizing acc with
  | nil => simp
  | cons c l ih => rw [Nat.ofDigitChars_cons]; exact le_trans (by omega) (ih _)

theorem parseDigits_eq (l : List Char) (acc n : Nat) :
    parseDigits acc l = some n ↔ (∀ c ∈ l, c.isDigit = true) ∧ Nat.ofDigitChars 10 l acc = n ∧ (l = [] ∨ n < 2 ^ 64) := by
  induction l generalizing acc with
  | nil => simp [parseDigits]
  | cons c l ih =>
    have e : acc * 10 + (c.toNat - '0'.toNat) = 10 * acc + (c.toNat - '0'.toNat) := by omega
    simp only [parseDigits, e]
    split
    · next hd =>
      split
      · next hv =>
        rw [ih, Nat.ofDigitChars_cons]
        constructor
        · rintro ⟨h1, h2, h3⟩
          refine ⟨fun x hx => ?_, h2, .inr ?_⟩
          · rcases List.mem_cons.mp hx with rfl | hx
            · exact hd
            · exact h1 x hx
          · rcases h3 with rfl | h3
            · rw [Nat.ofDigitChars_nil] at h2; rw [← h2]; exact hv
            · exact h3
        · rintro ⟨h1, h2, h3⟩
          exact ⟨fun x hx => h1 x (List.mem_cons_of_mem _ hx), h2, .inr (h3.resolve_left (by simp))⟩
      · next hv =>
        simp only [reduceCtorEq, false_iff]
        rintro ⟨-, h2, h3⟩
        rw [Nat.ofDigitChars_cons] at h2
        have := ofDigitChars_ge l (10 * acc + (c.toNat - '0'.toNat))
        rcases h3 with h3 | h3
        · cases h3
        · omega
    · next hd =>
      simp only [reduceCtorEq, false_iff]
      rintro ⟨h1, -⟩
      exact hd (h1 c List.mem_cons_self)

/-- C73: the identifier field accepts exactly the decimal texts, with or without a leading `+`, of numbers below
2^64. -/
theorem C73_number (s : List Char) (n : Nat) :
    parseU64 s = some n ↔ n < 2 ^ 64 ∧ ∃ ds : List Char, ds ≠ [] ∧ (∀ c ∈ ds, c.isDigit = true) ∧ decimal ds = n ∧
      (s = ds ∨ s = '+' :: ds) := by
  have key : ∀ l : List Char, l ≠ [] → (parseDigits 0 l = some n ↔
      n < 2 ^ 64 ∧ (∀ c ∈ l, c.isDigit = true) ∧ decimal l = n) := fun l hl => by
    rw [parseDigits_eq, decimal_eq]
    constructor
    · rintro ⟨a, b, c⟩; exact ⟨c.resolve_left hl, a, b⟩
    · rintro ⟨a, b, c⟩; exact ⟨b, c, .inr a⟩
  unfold parseU64
  split
  · simp only [reduceCtorEq, false_iff]
    rintro ⟨-, ds, h1, -, -, h | h⟩
    · exact h1 h.symm
    · cases h
  · simp only [reduceCtorEq, false_iff]
    rintro ⟨-, ds, h1, h2, -, h | h⟩
    · subst h; exact absurd (h2 '+' (by simp)) (by decide)
    · simp only [List.cons.injEq, true_and] at h; exact h1 h.symm
  · next cs hne =>
    have hcs : cs ≠ [] := fun e => by subst e; exact hne rfl
    rw [key cs hcs]
    constructor
    · rintro ⟨a, b, c⟩; exact ⟨a, cs, hcs, b, c, .inr rfl⟩
    · rintro ⟨a, ds, h1, h2, h3, h | h⟩
      · subst h; exact absurd (h2 '+' (by simp)) (by decide)
      · simp only [List.cons.injEq, true_and] at h; subst h; exact ⟨a, h2, h3⟩
  · next h0 h1 h2 =>
    have hs : s ≠ [] := fun e => h0 e
    rw [key s hs]
    constructor
    · rintro ⟨a, b, c⟩; exact ⟨a, s, hs, b, c, .inl rfl⟩
    · rintro ⟨a, ds, g1, g2, g3, h | h⟩
      · subst h; exact ⟨a, g2, g3⟩
      · exact absurd h (h2 ds)

theorem decimal_idText (n : Nat) : decimal (idText n) = n := by
  rw [decimal_eq]; exact Nat.ofDigitChars_ten_toDigits

/-- C73: a shown identifier, passed back as text, denotes the same member. -/
theorem C73_id_text (n : Nat) (h : n < 2 ^ 64) : parseU64 (idText n) = some n :=
  (C73_number _ _).mpr ⟨h, idText n, Nat.toDigits_ne_nil,
    fun _ hc => Nat.isDigit_of_mem_toDigits (by decide) (by decide) hc, decimal_idText n, .inl rfl⟩

section
variable {K : Type} [Field K] [LinearOrder K]

/-! ### The loss -/

theorem named_iff (l : WebLoss K) (name : List Char) (k : LossKind K) :
    l.named name = some k ↔ ∃ s : String, name = s.toList ∧ l.IsNamed s k := by
  constructor
  · intro h
    unfold WebLoss.named at h
    split at h; · next e => cases h; exact ⟨_, e, .mse⟩
    split at h; · next e => cases h; exact ⟨_, e, .mae⟩
    split at h; · next e => cases h; exact ⟨_, e, .rmse⟩
    split at h; · next e => cases h; exact ⟨_, e, .huber⟩
    split at h; · next e => cases h; exact ⟨_, e, .logcosh⟩
    split at h; · next e => cases h; exact ⟨_, e, .lp⟩
    split at h; · next e => cases h; exact ⟨_, e, .quantile⟩
    split at h
    · next e =>
      cases h
      rcases e with e | e | e | e
      · exact ⟨_, e, .eps1⟩
      · exact ⟨_, e, .eps2⟩
      · exact ⟨_, e, .eps3⟩
      · exact ⟨_, e, .eps4⟩
    · cases h
  · rintro ⟨s, rfl, h⟩
    cases h <;> rfl

/-- C73: the loss of a session is the one the request names, up to the case of letters and white space around the name;
any other text is refused.  (`hws`: letters, `-` and `_` are not white space.) -/
theorem C73_loss (ws : Char → Bool) (hws : ∀ c, ws c = true → c.isAlpha = false ∧ c ≠ '-' ∧ c ≠ '_') (l : WebLoss K)
    (k : LossKind K) : l.parse ws = some k ↔ l.Selects ws k := by
  unfold WebLoss.parse
  rw [named_iff]
  constructor
  · rintro ⟨s, e, h⟩
    obtain ⟨a, b, h1, h2, h3, -⟩ := C18_trim ws l.kind
    exact ⟨a, _, b, s, h1, h2, h3, e, h⟩
  · rintro ⟨a, name, b, s, h1, h2, h3, e, h⟩
    have hname : ∀ c ∈ name, ws c = false := by
      intro c hc
      by_contra hw
      rw [Bool.not_eq_false] at hw
      obtain ⟨g1, g2, g3⟩ := hws c hw
      have hl : c.toLower = c := by
        unfold Char.toLower
        rw [dif_neg]
        intro hu
        have : c.isUpper = true := by simpa [Char.isUpper] using hu
        simp [Char.isAlpha, this] at g1
      have hm : c ∈ s.toList := by
        rw [← e]; exact List.mem_map.mpr ⟨c, hc, hl⟩
      have hall : s.toList.all (fun c => c.isAlpha || c == '-' || c == '_') = true := by
        cases h <;> decide
      have := List.all_eq_true.mp hall c hm
      simp [g1, g2, g3] at this
    have htrim : trimWs ws l.kind = name := by
      rw [h1]
      unfold trimWs
      have d1 : (a ++ name ++ b).dropWhile ws = (name ++ b).dropWhile ws := by
        rw [List.append_assoc, List.dropWhile_append_of_pos h2]
      rw [d1]
      cases name with
      | nil =>
        exfalso
        simp only [List.map_nil] at e
        cases h <;> exact absurd e (by decide)
      | cons c cs =>
        have d2 : ((c :: cs) ++ b).dropWhile ws = (c :: cs) ++ b := by
          rw [List.cons_append, List.dropWhile_cons_of_neg (by rw [hname c (by simp)]; simp)]
        rw [d2, List.reverse_append, List.dropWhile_append_of_pos (by simpa using h3)]
        have : ∀ l : List Char, l ≠ [] → (∀ c ∈ l, ws c = false) → l.dropWhile ws = l := by
          intro l hl hw
          cases l with
          | nil => exact absurd rfl hl
          | cons x l => rw [List.dropWhile_cons_of_neg (by rw [hw x (by simp)]; simp)]
        rw [this _ (by simp) (fun x hx => hname x (List.mem_reverse.mp hx)), List.reverse_reverse]
    exact ⟨s, by rw [htrim]; exact e, h⟩

/-- C39: a text names a loss of the library exactly if it is, up to the case of letters and surrounding white space, one
of the documented names, and it then denotes that loss with the documented parameters; any other text is refused. -/
theorem C39_names (R : Rounding K) (ws : Char → Bool)
    (hws : ∀ c, ws c = true → c.isAlpha = false ∧ c ≠ '-' ∧ c ≠ '_') (text : List Char) (k : LossKind K) :
    parseLossKind R ws text = some k ↔
      ∃ (before name after : List Char) (s : String), text = before ++ name ++ after ∧ (∀ c ∈ before, ws c = true) ∧
        (∀ c ∈ after, ws c = true) ∧ name.map Char.toLower = s.toList ∧ IsLossName R s k := by
  have h1 : ∀ (s : String) (k : LossKind K), parseLossName R s = some k ↔ IsLossName R s k := by
    intro s k
    constructor
    · intro h
      unfold parseLossName at h
      split at h <;> cases h
      · exact .mse
      · exact .mae
      · exact .rmse
      · exact .huber
      · exact .logcosh
      · exact .lp
      · exact .quantile
      · exact .eps (by simp)
      · exact .eps (by simp)
      · exact .eps (by simp)
      · exact .eps (by simp)
    · intro h
      cases h with
      | eps h =>
        simp only [List.mem_cons, List.not_mem_nil, or_false] at h
        rcases h with rfl | rfl | rfl | rfl <;> rfl
      | _ => rfl
  have h2 : ∀ (s : String) (k : LossKind K),
      IsLossName R s k ↔ WebLoss.IsNamed ⟨text, R.rnd 1, R.rnd 2, R.rnd (1 / 2), R.rnd (1 / 10)⟩ s k := by
    intro s k
    constructor
    · intro h
      cases h with
      | mse => exact .mse
      | mae => exact .mae
      | rmse => exact .rmse
      | huber => exact .huber
      | logcosh => exact .logcosh
      | lp => exact .lp
      | quantile => exact .quantile
      | eps h =>
        simp only [List.mem_cons, List.not_mem_nil, or_false] at h
        rcases h with rfl | rfl | rfl | rfl
        · exact .eps1
        · exact .eps2
        · exact .eps3
        · exact .eps4
    · intro h
      cases h with
      | mse => exact .mse
      | mae => exact .mae
      | rmse => exact .rmse
      | huber => exact .huber
      | logcosh => exact .logcosh
      | lp => exact .lp
      | quantile => exact .quantile
      | _ => exact .eps (by simp)
  simp only [h2]
  rw [show (∃ (before name after : List Char) (s : String), text = before ++ name ++ after ∧ (∀ c ∈ before, ws c = true) ∧
        (∀ c ∈ after, ws c = true) ∧ name.map Char.toLower = s.toList ∧
        WebLoss.IsNamed ⟨text, R.rnd 1, R.rnd 2, R.rnd (1 / 2), R.rnd (1 / 10)⟩ s k) ↔
      WebLoss.Selects ws ⟨text, R.rnd 1, R.rnd 2, R.rnd (1 / 2), R.rnd (1 / 10)⟩ k from Iff.rfl, ← C73_loss ws hws]
  unfold parseLossKind WebLoss.parse
  rw [h1, h2, named_iff]
  constructor
  · intro h
    exact ⟨_, by simp, h⟩
  · rintro ⟨s, e, h⟩
    rw [show String.ofList ((trimWs ws text).map Char.toLower) = s from by
      change String.ofList _ = _
      rw [show (trimWs ws text).map Char.toLower = s.toList from e, String.ofList_toList]]
    exact h

/-- A concrete text. -/
example : parseLossKind (Rounding.exact ℚ) Char.isWhitespace " EPS-insensitive\n".toList =
    some (.mean (.epsIns (.fin (1 / 10)))) := by
  have h : trimWs Char.isWhitespace " EPS-insensitive\n".toList = "EPS-insensitive".toList := by decide +kernel
  unfold parseLossKind
  rw [h]
  rfl

/-! ### The data -/

theorem IsTable.wf {headers : List String} {rows : List (List (Fl K))} {o : WebColumns} {nCols yCol : Nat} {f : FullData K}
    {cols : List Nat} (h : IsTable headers rows o nCols yCol f cols) : Dataset.WF ⟨f.x, f.y, f.weights, none⟩ where
  y := by show f.y.length = f.x.cols; rw [h.yLen, h.nRows]
  w := fun w hw => by show w.length = f.x.cols; rw [h.wLen w hw, h.nRows]

/-- C73: reading the data of a session never panics, is refused exactly for an invalid request, and otherwise gives the
requested columns, their names, and a division of the rows into training and validation rows. -/
theorem C73_data (headers : List String) (rows : List (List (Fl K))) (o : WebColumns) (fraction : Fl ℚ) (g : Rng (Fl K)) :
    ∃ r, webData headers rows o fraction g = some r ∧ (r = none ↔ ∀ nCols yCol, ¬ ValidRequest rows o nCols yCol) ∧
      ∀ w, r = some w → IsSplit headers rows o fraction w.names w.split w.train w.val := by
  obtain ⟨r, h1, h2, h3⟩ := C60_table headers rows o
  unfold webData
  rw [h1]
  cases r with
  | none =>
    exact ⟨none, rfl, ⟨fun _ => h2.mp rfl, fun _ => rfl⟩, fun w hw => by cases hw⟩
  | some f =>
    obtain ⟨nCols, yCol, cols, hv, ht⟩ := h3 f rfl
    obtain ⟨split, g', e, hs⟩ := (C51_partition (F := Fl K) f.x.cols fraction) g
    obtain ⟨split', g'', e', train, val, hd, ha, hb, hc⟩ := (C51_datasets (F := Fl K) ht.wf fraction) g
    have : makeSplitIndices f.x.cols fraction g = some (split', g'') := e'
    rw [e] at this
    cases this
    simp only [Option.bind_eq_bind, Option.bind_some, e]
    simp only at hd
    rw [hd]
    refine ⟨_, rfl, ⟨fun h => (by cases h), fun h => absurd hv (h _ _)⟩, ?_⟩
    rintro w hw
    cases hw
    refine ⟨?_, ?_, nCols, yCol, f, cols, hv, ht, rfl, ha, hb, hc⟩
    · rw [← ht.nRows]; exact hs.1
    · rw [← ht.nRows]; exact hs.2


/-! ### Opening a session -/

variable [E : Env K]

/-- The request names operators the session can use: at least one, each known with the arity of its list, none twice. -/
def WebRequest.Operators (S : OpTable) (ws : Char → Bool) (q : WebRequest K) (ops : List OpId) : Prop :=
  ¬ (q.unary = [] ∧ q.binary = [] ∧ q.ternary = []) ∧
  List.Forall₂ (fun (n : List Char × Nat) op => S.lookupWithArity ws n.1 n.2 = .ok op)
    (q.unary.map (·, 1) ++ q.binary.map (·, 2) ++ q.ternary.map (·, 3)) ops ∧
  (∀ op ∈ ops, op.arity ≤ 3) ∧ ops.Nodup

/-- The options of a session: the numbers and flags of the request, the named operators and loss, no complexity
overrides and no constraints on operators. -/
structure WebRequest.Configures (ws : Char → Bool) (q : WebRequest K) (ops : List OpId) (o : SOptions K) : Prop where
  core : o = { q.core with cx := o.cx, operators := o.operators, loss := o.loss }
  cx : o.cx = { q.core.cx with D := 3, variableComplexities := none, operatorComplexityOverrides := [], opLimits := [],
                               nested := [] }
  operators : o.operators = SR.Operators.of 3 ops
  loss : q.loss.parse ws = some o.loss

omit E in
theorem options_iff (ws : Char → Bool) (q : WebRequest K) (ops : List OpId) (o : SOptions K) :
    q.options ws (SR.Operators.of 3 ops) = some o ↔ q.Configures ws ops o := by
  unfold WebRequest.options
  rw [Option.map_eq_some_iff]
  constructor
  · rintro ⟨l, h, rfl⟩
    exact ⟨rfl, rfl, rfl, h⟩
  · rintro ⟨h1, h2, h3, h4⟩
    exact ⟨_, h4, by rw [← h2, ← h3]; exact h1.symm⟩

theorem open_cases (S : OpTable) (ws : Char → Bool) (q : WebRequest K) (splitRng : Rng (Fl K)) (seeds : Nat → Rng (Fl K))
    (orderRng : Rng (Fl K)) :
    (Session.open S ws q splitRng seeds orderRng = some none ∧ ((∀ ops, ¬ q.Operators S ws ops) ∨
      (∀ nCols yCol, ¬ ValidRequest q.rows q.columns nCols yCol) ∨ q.loss.parse ws = none)) ∨
    ∃ ops o w nCols yCol, q.Operators S ws ops ∧ q.Configures ws ops o ∧
      ValidRequest q.rows q.columns nCols yCol ∧
      IsSplit q.headers q.rows q.columns q.validationFraction w.names w.split w.train w.val ∧
      Session.open S ws q splitRng seeds orderRng = (Session.start o w seeds orderRng).map some := by
  obtain ⟨r, h1, h2⟩ := C52_from_names_by_arity S ws 3 q.unary q.binary q.ternary
  unfold Session.open
  rw [h1]
  cases r with
  | error e =>
    refine .inl ⟨rfl, .inl fun ops ⟨a, b, c, d⟩ => ?_⟩
    have := (h2 (SR.Operators.of 3 ops)).mpr ⟨a, ops, b, c, d, rfl⟩
    cases this
  | ok ops' =>
    obtain ⟨a, ops, b, c, d, rfl⟩ := (h2 ops').mp rfl
    obtain ⟨r, h3, h4, h5⟩ := C73_data q.headers q.rows q.columns q.validationFraction splitRng
    simp only [Option.bind_eq_bind, Option.bind_some, h3]
    cases r with
    | none => exact .inl ⟨rfl, .inr (.inl (h4.mp rfl))⟩
    | some w =>
      cases ho : q.options ws (SR.Operators.of 3 ops) with
      | none =>
        refine .inl ⟨rfl, .inr (.inr ?_)⟩
        unfold WebRequest.options at ho
        simpa using ho
      | some o =>
        have hs := h5 w rfl
        obtain ⟨nCols, yCol, f, cols, hv, -⟩ := hs.table
        exact .inr ⟨ops, o, w, nCols, yCol, ⟨a, b, c, d⟩, (options_iff ws q ops o).mp ho, hv, hs, rfl⟩

/-- C73: a session is refused exactly if the operators cannot be used, the request for columns is invalid, or the loss is
unknown - for every table, every option and every random stream. -/
theorem C73_refused (S : OpTable) (ws : Char → Bool) (q : WebRequest K) (splitRng : Rng (Fl K)) (seeds : Nat → Rng (Fl K))
    (orderRng : Rng (Fl K)) :
    Session.open S ws q splitRng seeds orderRng = some none ↔ (∀ ops, ¬ q.Operators S ws ops) ∨
      (∀ nCols yCol, ¬ ValidRequest q.rows q.columns nCols yCol) ∨ q.loss.parse ws = none := by
  rcases open_cases S ws q splitRng seeds orderRng with ⟨h1, h2⟩ | ⟨ops, o, w, nCols, yCol, h1, h2, h3, -, h5⟩
  · exact ⟨fun _ => h2, fun _ => h1⟩
  · constructor
    · intro h
      rw [h5, Option.map_eq_some_iff] at h
      obtain ⟨_, -, h⟩ := h
      cases h
    · rintro (h | h | h)
      · exact absurd h1 (h ops)
      · exact absurd h3 (h nCols yCol)
      · rw [h2.loss] at h; cases h

/-- What a session holds when it is opened. -/
structure Session.Opened (S : OpTable) (ws : Char → Bool) (q : WebRequest K) (seeds : Nat → Rng (Fl K))
    (orderRng : Rng (Fl K)) (ops : List OpId) (s : Session K) : Prop where
  operators : q.Operators S ws ops
  options : q.Configures ws ops s.opts
  data : ∃ train, IsSplit q.headers q.rows q.columns q.validationFraction s.names s.split train s.val ∧
    tagged s.opts train = some s.train
  engine : Engine.new s.opts s.train seeds orderRng = some s.engine
  paretoK : s.paretoK = 250

/-- C73: a session that is opened has the requested operators, options, loss and columns, the rows of its split as
training and validation data, and a new search on the training data. -/
theorem C73_opened (S : OpTable) (ws : Char → Bool) (q : WebRequest K) (splitRng : Rng (Fl K)) (seeds : Nat → Rng (Fl K))
    (orderRng : Rng (Fl K)) (s : Session K) (h : Session.open S ws q splitRng seeds orderRng = some (some s)) :
    ∃ ops, s.Opened S ws q seeds orderRng ops := by
  rcases open_cases S ws q splitRng seeds orderRng with ⟨h1, -⟩ | ⟨ops, o, w, nCols, yCol, h1, h2, h3, h4, h5⟩
  · rw [h] at h1; cases h1
  · rw [h] at h5
    obtain ⟨s', e, hs⟩ := Option.map_eq_some_iff.mp h5.symm
    cases hs
    unfold Session.start at e
    simp only [Option.bind_eq_bind, Option.bind_eq_some_iff, Option.some.injEq] at e
    obtain ⟨train, e1, engine, e2, rfl⟩ := e
    exact ⟨ops, h1, h2, ⟨w.train, h4, e1⟩, e2, rfl⟩

theorem tagged_fields {o : SOptions K} {d d' : Dataset K} (h : tagged o d = some d') :
    d'.x = d.x ∧ d'.y = d.y ∧ d'.weights = d.weights := by
  unfold tagged at h
  split at h
  · obtain ⟨b, -, rfl⟩ := Option.map_eq_some_iff.mp h; exact ⟨rfl, rfl, rfl⟩
  · cases h; exact ⟨rfl, rfl, rfl⟩

variable [IsStrictOrderedRing K]

/-- C73: if the request is not refused and the configuration is sensible for its training data (at least one row), the
session is opened: nothing panics, whatever the streams. -/
theorem C73_opens (S : OpTable) (ws : Char → Bool) (q : WebRequest K) (splitRng : Rng (Fl K)) (seeds : Nat → Rng (Fl K))
    (orderRng : Rng (Fl K)) (hne : Session.open S ws q splitRng seeds orderRng ≠ some none)
    (hrun : ∀ ops o names split train val d, q.Operators S ws ops → q.Configures ws ops o →
      IsSplit q.headers q.rows q.columns q.validationFraction names split train val → d.x = train.x → d.y = train.y →
      d.weights = train.weights → ∃ N, RunSetting o d ops N) :
    ∃ s, Session.open S ws q splitRng seeds orderRng = some (some s) := by
  rcases open_cases S ws q splitRng seeds orderRng with ⟨h1, -⟩ | ⟨ops, o, w, nCols, yCol, h1, h2, h3, h4, h5⟩
  · exact absurd h1 hne
  · obtain ⟨N, Q⟩ := hrun ops o _ _ _ _ w.train h1 h2 h4 rfl rfl rfl
    obtain ⟨d', l, e1, f1, f2, f3, -⟩ := C65_search_data o w.train Q.search.evol.data Q.search.evol.rows
      (by have := Q.search.evol.nf_le; unfold u16Max; omega)
    obtain ⟨N', Q'⟩ := hrun ops o _ _ _ _ d' h1 h2 h4 f1 f2 f3
    obtain ⟨e, e2, -⟩ := C64_stepwise Q' seeds orderRng
    refine ⟨⟨o, d', w.names, e, w.val, w.split, 250⟩, ?_⟩
    rw [h5]
    unfold Session.start
    simp only [Option.bind_eq_bind, e1, Option.bind_some, e2, Option.map_some]


/-! ### Calls -/

theorem formulaOf_congr (m : Metas) (pretty : Bool) (v v' c : Nat → List Char) (t : Tree) (nf nc : Nat) (ops : List OpId)
    (ht : t.Uses ops nf nc) (h : ∀ f, f < nf → v f = v' f) : formulaOf m pretty v c t = formulaOf m pretty v' c t := by
  induction t using Tree.ind with
  | hv f =>
    simp only [formulaOf, Tree.fold_var]
    rw [h f (by simpa [Tree.Uses] using ht)]
  | hc c => simp only [formulaOf, Tree.fold_const]
  | ho o ts ih =>
    unfold Tree.Uses at ht
    rw [Tree.all_op] at ht
    simp only [formulaOf, Tree.fold_op]
    have : ts.map (formulaOf m pretty v c) = ts.map (formulaOf m pretty v' c) :=
      List.map_congr_left fun t hm => ih t hm (ht.2 t hm)
    simp only [formulaOf] at this
    rw [this]

omit [Field K] [LinearOrder K] E [IsStrictOrderedRing K] in
theorem stringTree_total (T : Texts K) (names : List String) (e : PostfixExpr (Fl K)) (t : Tree) (hn : e.nodes = t.toPostfix)
    (hc : ∀ c ∈ t.constIdxs, c < e.consts.length) :
    ∃ s, stringTree T.metas T.number (some (names.map String.toList)) [] false e = some s := by
  have hall : (e.nodes.all fun n => match n with | .const c => decide (c < e.consts.length) | _ => true) = true := by
    rw [List.all_eq_true, hn]
    intro n hm
    cases n with
    | const c =>
      have : c ∈ t.constIdxs := by
        rw [← constIdxs_toPostfix]
        exact List.mem_filterMap.mpr ⟨.const c, hm, rfl⟩
      simpa using hc c this
    | _ => rfl
  have := (treeMapreduce_iff (stringLeaf T.number (some (names.map String.toList)) e.consts)
    (fun n => match n with | .op a o => (a, o) | _ => (0, 0)) (stringBranch T.metas false) e.nodes
    _).mpr ⟨t, hn, rfl⟩
  have e := congrArg (Option.map stripOuterParens) this
  rw [Option.map_some] at e
  exact ⟨_, (if_pos hall).trans e⟩

omit [IsStrictOrderedRing K] in
theorem summary_spec {o : SOptions K} {d : Dataset K} {ops : List OpId} {N : Nat} (Q : SearchSetting o d ops N) (T : Texts K)
    (names : List String) (hnames : names.length = d.x.rows) {m : Member K} (hm : m.Sound o d ops N) :
    ∃ e, summaryOf T names m = some e ∧ e.Describes T ops names m := by
  obtain ⟨t, hn, hu, -, -⟩ := hm.good.expr
  have hc : ∀ c ∈ t.constIdxs, c < m.expr.consts.length := fun c hc => (Tree.all_iff.mp hu).2.1 c hc
  obtain ⟨s, hs⟩ := stringTree_total T names m.expr t hn hc
  refine ⟨⟨idText m.id, m.complexity, m.loss, m.cost, s⟩, by unfold summaryOf; rw [hs]; rfl, ?_⟩
  refine ⟨decimal_idText _, rfl, rfl, rfl, fun hr => ⟨t, hn, ?_⟩⟩
  have hname : ∀ f, f < d.x.rows → defaultStringVariable f (some (names.map String.toList)) =
      ((names[f]?).map String.toList).getD [] := by
    intro f hf
    have : f < names.length := by omega
    simp [defaultStringVariable, this]
  obtain ⟨s', e1, -, e2⟩ := C17_parses_back T.metas T.number (some (names.map String.toList)) [] false t m.expr.consts hc
    (by
      refine Tree.All.mono ?_ ?_ ?_ hu
      · intro f hf
        show IsWord (defaultStringVariable f (some (names.map String.toList)))
        rw [hname f hf]
        have : f < names.length := by omega
        simp only [List.getElem?_eq_getElem this, Option.map_some, Option.getD_some]
        exact hr.names _ (List.getElem_mem this)
      · intro c hc
        simp only [List.getElem?_eq_getElem hc, Option.map_some, Option.getD_some]
        exact hr.numbers _
      · intro op a hop
        exact ⟨(Q.evol.ops_ok _ hop).1, hr.operators _ hop⟩)
  have : m.expr = ⟨t.toPostfix, m.expr.consts⟩ := by rw [← hn]
  rw [this, e1] at hs
  cases hs
  rw [e2]
  exact congrArg some (formulaOf_congr _ _ _ _ _ t d.x.rows _ ops hu hname)

omit [IsStrictOrderedRing K] E in
theorem shownFront_last (h : Hall K) (k : Nat) : IsLast k h.paretoFront (shownFront h k) := by
  unfold shownFront IsLast
  simp only
  split
  · next hk => exact ⟨List.drop_suffix _ _, by rw [List.length_drop]; omega⟩
  · next hk => exact ⟨List.suffix_rfl, by omega⟩


section
variable {T : Texts K} {S : OpTable} {ws : Char → Bool} {q : WebRequest K} {seeds : Nat → Rng (Fl K)}
  {orderRng : Rng (Fl K)} {ops : List OpId} {N : Nat}

omit [IsStrictOrderedRing K] in
theorem call_state {s s' : Session K} {c : WebCall} {r : WebReply K} (h : s.call T c = some (s', r)) :
    s'.opts = s.opts ∧ s'.train = s.train ∧ s'.names = s.names ∧ s'.val = s.val ∧ s'.split = s.split ∧
    s'.paretoK = lastParetoK s.paretoK [c] ∧
    ∃ k, s.engine.step s.opts s.train (askedCycles [c]) = some (k, s'.engine) := by
  cases c with
  | setParetoK k =>
    cases h
    exact ⟨rfl, rfl, rfl, rfl, rfl, rfl, 0, rfl⟩
  | step n =>
    obtain ⟨⟨s1, p⟩, h1, h2⟩ := Option.map_eq_some_iff.mp h
    cases h2
    unfold Session.step at h1
    simp only [Option.bind_eq_bind, Option.bind_eq_some_iff, Option.some.injEq, Prod.mk.injEq] at h1
    obtain ⟨⟨k, e⟩, h1, p', -, rfl, rfl⟩ := h1
    exact ⟨rfl, rfl, rfl, rfl, rfl, rfl, k, h1⟩
  | bestEquations k =>
    obtain ⟨l, -, h2⟩ := Option.map_eq_some_iff.mp h
    cases h2
    exact ⟨rfl, rfl, rfl, rfl, rfl, rfl, 0, rfl⟩
  | evaluate id which =>
    obtain ⟨l, -, h2⟩ := Option.map_eq_some_iff.mp h
    cases h2
    exact ⟨rfl, rfl, rfl, rfl, rfl, rfl, 0, rfl⟩

theorem askedCycles_cons (c : WebCall) (cs : List WebCall) : askedCycles (c :: cs) = askedCycles [c] + askedCycles cs := by
  cases c <;> simp [askedCycles]

theorem lastParetoK_cons (k : Nat) (c : WebCall) (cs : List WebCall) :
    lastParetoK k (c :: cs) = lastParetoK (lastParetoK k [c]) cs := by
  cases c <;> simp [lastParetoK]

omit [IsStrictOrderedRing K] in
/-- C73: whatever the page calls, and in whatever order, the data, the split and the options of a session stay the same,
the search has advanced by exactly the cycles asked for, in one go or in many (as far as there were any left), and the
limit on the points is the last one set. -/
theorem C73_state {s s' : Session K} {cs : List WebCall} {rs : List (WebReply K)}
    (h : s.calls T cs = some (s', rs)) :
    s'.opts = s.opts ∧ s'.train = s.train ∧ s'.names = s.names ∧ s'.val = s.val ∧ s'.split = s.split ∧
    s'.paretoK = lastParetoK s.paretoK cs ∧
    ∃ k, s.engine.step s.opts s.train (askedCycles cs) = some (k, s'.engine) := by
  induction cs generalizing s rs with
  | nil =>
    cases h
    exact ⟨rfl, rfl, rfl, rfl, rfl, rfl, 0, rfl⟩
  | cons c cs ih =>
    unfold Session.calls at h
    simp only [Option.bind_eq_bind, Option.bind_eq_some_iff, Option.some.injEq, Prod.mk.injEq] at h
    obtain ⟨⟨s1, r⟩, h1, ⟨s2, rs'⟩, h2, rfl, rfl⟩ := h
    obtain ⟨a1, a2, a3, a4, a5, a6, k1, a7⟩ := call_state h1
    obtain ⟨b1, b2, b3, b4, b5, b6, k2, b7⟩ := ih h2
    rw [a1, a2] at b7
    refine ⟨b1.trans a1, b2.trans a2, b3.trans a3, b4.trans a4, b5.trans a5, ?_, k1 + k2, ?_⟩
    · rw [lastParetoK_cons, ← a6]; exact b6
    · rw [askedCycles_cons, C45_compositional, a7]
      simp only [Option.bind_some, b7, Option.map_some]

omit [IsStrictOrderedRing K] in
theorem Session.Opened.names_length {s : Session K} (h : s.Opened S ws q seeds orderRng ops) :
    s.names.length = s.train.x.rows := by
  obtain ⟨train, h1, h2⟩ := h.data
  obtain ⟨nCols, yCol, f, cols, -, ht, e, hr, -⟩ := h1.table
  rw [e, ht.nNames, (tagged_fields h2).1, hr.shape.features]
  exact ht.nFeatures.symm

omit [IsStrictOrderedRing K] in
theorem Session.Opened.val_features {s : Session K} (h : s.Opened S ws q seeds orderRng ops) {b : Dataset K}
    (hb : s.val = some b) : SameFeatures s.train b := by
  obtain ⟨train, h1, h2⟩ := h.data
  obtain ⟨nCols, yCol, f, cols, -, ht, e, hr, hv, hv'⟩ := h1.table
  have hne : s.split.val ≠ [] := fun e => by rw [hv e] at hb; cases hb
  obtain ⟨b', e', hr'⟩ := hv' hne
  rw [hb] at e'
  cases e'
  refine ⟨?_, ⟨hr'.shape.y, hr'.shape.weights⟩, ?_⟩
  · rw [(tagged_fields h2).1, hr.shape.features, hr'.shape.features]
  · rw [hr'.rows]; exact List.length_pos_of_ne_nil hne

/-- What the session holds after any calls: a sound search state, with its cycles counted. -/
theorem reached {s0 s : Session K} {cs : List WebCall} {rs : List (WebReply K)}
    (h0 : s0.Opened S ws q seeds orderRng ops) (Q : SearchSetting s0.opts s0.train ops N)
    (h : s0.calls T cs = some (s, rs)) :
    s.engine.shared.Sound s0.opts s0.train ops N ∧
    s.engine.shared.counters.completed = min (askedCycles cs) (s0.opts.niterations * s0.opts.populations) ∧
    s.engine.shared.counters.total = s0.opts.niterations * s0.opts.populations := by
  obtain ⟨-, -, -, -, -, -, k, e⟩ := C73_state h
  have hs := C59_stepwise Q h0.engine e
  obtain ⟨sh, hi, -, hf, -⟩ := C59_init Q seeds
  have hfresh : s0.engine.Fresh s0.opts s0.opts.populations := by
    have := h0.engine
    rw [Engine.new, hi] at this
    simp only [Option.map_some, Option.some.injEq] at this
    rw [← this]
    exact ⟨hf, rfl, rfl, rfl⟩
  obtain ⟨a, -, b⟩ := step_count hfresh.inv _ e
  refine ⟨hs, ?_, hs.total⟩
  rw [b, a, hfresh.shared.completed, hfresh.shared.total]
  simp

theorem pareto_pairwise {α β : Type} {R : α → α → Prop} {P : β → β → Prop} {Q : α → β → Prop}
    (h : ∀ a a' b b', Q a b → Q a' b' → P b b' → R a a') {l : List α} {l' : List β} (hf : List.Forall₂ Q l l')
    (hp : l'.Pairwise P) : l.Pairwise R := by
  induction hf with
  | nil => exact .nil
  | cons h1 hf ih =>
    rw [List.pairwise_cons] at hp ⊢
    refine ⟨fun a' ha' => ?_, ih hp.2⟩
    obtain ⟨i, hi⟩ := List.getElem?_of_mem ha'
    have hl := hf.length_eq
    obtain ⟨hi', e⟩ := List.getElem?_eq_some_iff.mp hi
    have hi2 := hl ▸ hi'
    have hq := List.forall₂_iff_get.mp hf |>.2 i hi' hi2
    rw [List.get_eq_getElem, e] at hq
    exact h _ _ _ _ h1 hq (hp.1 _ (List.getElem_mem hi2))

omit [IsStrictOrderedRing K] in
theorem hall_indexed {o : SOptions K} {d : Dataset K} {h : Hall K} (hs : h.Sound o d ops N) : h.Indexed :=
  fun c m hm => ⟨(hs.entry c m hm).2.1, by have := (hs.entry c m hm).2.2.1; omega⟩

omit [IsStrictOrderedRing K] in
theorem front_pairwise {o : SOptions K} {d : Dataset K} {h : Hall K} (hs : h.Sound o d ops N) (k : Nat) :
    (shownFront h k).Pairwise fun x y => x.complexity < y.complexity ∧ y.loss.lt x.loss = true :=
  (C26_strict h (hall_indexed hs)).sublist (shownFront_last h k).1.sublist

/-- C73: the reply to a step, after any calls: the numbers of all and of the completed cycles, the best equation, and
the last points of the front in order of complexity, of strictly growing complexity and strictly falling loss. -/
theorem C73_step {s0 s s' : Session K} {cs : List WebCall} {rs : List (WebReply K)}
    (h0 : s0.Opened S ws q seeds orderRng ops) (Q : SearchSetting s0.opts s0.train ops N)
    (h : s0.calls T cs = some (s, rs)) {n : Nat} {p : Snapshot K} (hstep : s.step T n = some (s', p)) :
    p.totalCycles = s0.opts.niterations * s0.opts.populations ∧
    p.cyclesCompleted = min (askedCycles cs + n) (s0.opts.niterations * s0.opts.populations) ∧
    p.totalEvals = s'.engine.shared.totalEvals ∧
    p.best.Describes T ops s0.names s'.engine.shared.best ∧
    (∃ shown, IsLast (lastParetoK s0.paretoK cs) s'.engine.shared.hall.paretoFront shown ∧
      List.Forall₂ EqPoint.Describes p.pareto shown) ∧
    p.pareto.Pairwise fun x y => x.complexity < y.complexity ∧ y.loss.lt x.loss = true := by
  have hcall : s.call T (.step n) = some (s', .snapshot p) := by
    simp only [Session.call, hstep, Option.map_some]
  obtain ⟨-, -, a3, -, -, a6, -⟩ := C73_state h
  obtain ⟨b1, b2, b3, -, -, b6, k, b7⟩ := call_state hcall
  have hall : s0.calls T (cs ++ [.step n]) = some (s', rs ++ [.snapshot p]) := by
    have key : ∀ (cs : List WebCall) (s0 : Session K) (rs : List (WebReply K)), s0.calls T cs = some (s, rs) →
        s0.calls T (cs ++ [.step n]) = some (s', rs ++ [.snapshot p]) := by
      intro cs
      induction cs with
      | nil =>
        intro s0 rs h
        cases h
        simp only [List.nil_append, Session.calls, hcall, Option.bind_eq_bind, Option.bind_some]
      | cons c cs ih =>
        intro s0 rs h
        unfold Session.calls at h
        simp only [Option.bind_eq_bind, Option.bind_eq_some_iff, Option.some.injEq, Prod.mk.injEq] at h
        obtain ⟨⟨s1, r⟩, h1, ⟨s2, rs'⟩, h2, rfl, rfl⟩ := h
        simp only [List.cons_append, Session.calls, h1, ih _ _ h2, Option.bind_eq_bind, Option.bind_some]
    exact key cs s0 rs h
  obtain ⟨hs, hc, ht⟩ := reached h0 Q hall
  have hask : askedCycles (cs ++ [.step n]) = askedCycles cs + n := by
    clear h hall hs hc ht a6
    induction cs with
    | nil => simp [askedCycles]
    | cons c cs ih => rw [List.cons_append, askedCycles_cons, ih, askedCycles_cons c cs]; omega
  unfold Session.step at hstep
  simp only [Option.bind_eq_bind, Option.bind_eq_some_iff, Option.some.injEq, Prod.mk.injEq] at hstep
  obtain ⟨⟨k', e⟩, -, p', hp, rfl, rfl⟩ := hstep
  unfold Session.snapshot at hp
  obtain ⟨best, hb, rfl⟩ := Option.map_eq_some_iff.mp hp
  have hnames : s.names.length = s0.train.x.rows := by rw [a3]; exact h0.names_length
  obtain ⟨best', hb', hd⟩ := summary_spec Q T s.names hnames hs.best
  rw [hb] at hb'
  cases hb'
  rw [a3] at hd
  have hfor : List.Forall₂ EqPoint.Describes ((shownFront e.shared.hall s.paretoK).map pointOf)
      (shownFront e.shared.hall s.paretoK) := by
    rw [List.forall₂_map_left_iff]
    exact List.forall₂_same.mpr fun m _ => ⟨decimal_idText _, rfl, rfl, rfl⟩
  refine ⟨ht, by rw [← hask]; exact hc, rfl, hd, ⟨_, ?_, hfor⟩, ?_⟩
  · rw [← a6]; exact shownFront_last _ _
  · refine pareto_pairwise ?_ hfor (front_pairwise hs.hall s.paretoK)
    rintro a a' b b' ha ha' ⟨h1, h2⟩
    rw [ha.complexity, ha'.complexity, ha.loss, ha'.loss]
    exact ⟨h1, h2⟩

/-- C73: the reply to a request for the best equations, after any calls: the last `k` points of the front with their
formulas. -/
theorem C73_equations {s0 s : Session K} {cs : List WebCall} {rs : List (WebReply K)}
    (h0 : s0.Opened S ws q seeds orderRng ops) (Q : SearchSetting s0.opts s0.train ops N)
    (h : s0.calls T cs = some (s, rs)) (k : Nat) :
    ∃ l shown, s.bestEquations T k = some l ∧ IsLast k s.engine.shared.hall.paretoFront shown ∧
      List.Forall₂ (fun (e : EqSummary K) m => e.Describes T ops s0.names m) l shown := by
  obtain ⟨hs, -⟩ := reached h0 Q h
  obtain ⟨-, -, a3, -⟩ := C73_state h
  have hnames : s.names.length = s0.train.x.rows := by rw [a3]; exact h0.names_length
  have key : ∀ l : List (Member K), (∀ m ∈ l, m.Sound s0.opts s0.train ops N) →
      ∃ r, l.mapM (summaryOf T s.names) = some r ∧
        List.Forall₂ (fun (e : EqSummary K) m => e.Describes T ops s0.names m) r l := by
    intro l
    induction l with
    | nil => exact fun _ => ⟨[], rfl, .nil⟩
    | cons m l ih =>
      intro hm
      obtain ⟨e, h1, h2⟩ := summary_spec Q T s.names hnames (hm m (by simp))
      obtain ⟨r, h3, h4⟩ := ih fun x hx => hm x (by simp [hx])
      rw [a3] at h2
      exact ⟨e :: r, by rw [List.mapM_cons, h1, h3]; rfl, .cons h2 h4⟩
  have hlast := shownFront_last s.engine.shared.hall k
  obtain ⟨r, h1, h2⟩ := key (shownFront s.engine.shared.hall k) fun m hm => by
    have hm : m ∈ s.engine.shared.hall.members := (paretoLoop_sub _ _).subset (hlast.1.subset hm)
    obtain ⟨c, hc⟩ := mem_members.mp hm
    exact (hs.hall.entry c m hc).1
  exact ⟨r, _, h1, hlast, h2⟩

omit [IsStrictOrderedRing K] in
theorem dataset_features {s0 : Session K} (h0 : s0.Opened S ws q seeds orderRng ops)
    (Q : SearchSetting s0.opts s0.train ops N) {which : List Char} {d : Dataset K} (h : s0.dataset which = some d) :
    SameFeatures s0.train d := by
  unfold Session.dataset at h
  split at h
  · cases h; exact ⟨rfl, Q.evol.data, Q.evol.rows⟩
  · split at h
    · exact h0.val_features h
    · cases h

omit [IsStrictOrderedRing K] in
/-- C73: an evaluation is refused for a text that is no identifier, an unknown data set, a session without validation
data, or an unknown identifier. -/
theorem C73_evaluate_refused (s : Session K) (id which : List Char)
    (h : parseU64 id = none ∨ s.dataset which = none ∨
      ∀ n, parseU64 id = some n → ∀ x, x ∈ s.engine.shared.hall.members ∨ x = s.engine.shared.best → x.id ≠ n) :
    s.evaluate id which = some none := by
  unfold Session.evaluate
  cases hp : parseU64 id with
  | none => rfl
  | some n =>
    cases hd : s.dataset which with
    | none => rfl
    | some d =>
      rcases h with h | h | h
      · rw [hp] at h; cases h
      · rw [hd] at h; cases h
      · exact C61_unknown _ _ _ (h n hp)

/-- C73: after any calls, evaluating by the shown identifier of a shown equation, on the training data or (if there are
any) on the validation data, returns and gives the answer of that equation, provided the session holds no other
expression under this identifier. -/
theorem C73_evaluate {s0 s : Session K} {cs : List WebCall} {rs : List (WebReply K)}
    (h0 : s0.Opened S ws q seeds orderRng ops) (Q : SearchSetting s0.opts s0.train ops N)
    (h : s0.calls T cs = some (s, rs)) {m : Member K} (hm : s.engine.shared.Shows m)
    {id which : List Char} {d' : Dataset K} (htext : parseU64 id = some m.id)
    (hwhich : which = "train".toList ∧ d' = s0.train ∨ which = "val".toList ∧ s0.val = some d') :
    ∃ a, s.evaluate id which = some a ∧
      ((∀ x, x ∈ s.engine.shared.hall.members ∨ x = s.engine.shared.best → x.id = m.id → x.expr = m.expr) →
        ∃ t : Tree, m.expr.nodes = t.toPostfix ∧ Answer d' t m.expr.consts a) := by
  obtain ⟨-, a2, -, a4, -, -, k, e⟩ := C73_state h
  have hd : s.dataset which = some d' := by
    unfold Session.dataset
    rcases hwhich with ⟨rfl, rfl⟩ | ⟨rfl, hv⟩
    · rw [if_pos rfl, a2]
    · rw [if_neg (by decide), if_pos rfl, a4, hv]
  have hd0 : s0.dataset which = some d' := by
    unfold Session.dataset at hd ⊢
    rw [a2, a4] at hd
    exact hd
  unfold Session.evaluate
  rw [htext, hd]
  exact C61_evaluate Q h0.engine e (dataset_features h0 Q hd0) hm

/-- C73: after any calls, every further call returns, whatever its arguments; only a step may fail to, and only because
the sampler of a migration keeps rejecting. -/
theorem C73_returns {s0 s : Session K} {cs : List WebCall} {rs : List (WebReply K)}
    (h0 : s0.Opened S ws q seeds orderRng ops) (Q : RunSetting s0.opts s0.train ops N)
    (h : s0.calls T cs = some (s, rs)) (c : WebCall) :
    (s.call T c).isSome = true ∨
    ∃ (n k j : Nat) (e' : Engine K) (sh : Shared K) (t : Task K) (i : Nat) (res : TaskResult K), c = .step n ∧
      k < askedCycles cs + n ∧ s0.engine.step s0.opts s0.train k = some (j, e') ∧
      e'.shared.dispatch s0.opts i = some (some t, sh) ∧ t.run s0.opts s0.train = some res ∧ ApplyStuck s0.opts sh res := by
  obtain ⟨hs, -⟩ := reached h0 Q.search h
  obtain ⟨a1, a2, a3, a4, -, -, k, e⟩ := C73_state h
  have hnames : s.names.length = s0.train.x.rows := by rw [a3]; exact h0.names_length
  cases c with
  | setParetoK k => exact .inl rfl
  | bestEquations k =>
    obtain ⟨l, -, h1, -⟩ := C73_equations h0 Q.search h k
    left
    simp only [Session.call, h1, Option.map_some, Option.isSome_some]
  | evaluate id which =>
    left
    simp only [Session.call, Session.evaluate]
    cases hp : parseU64 id with
    | none => rfl
    | some n =>
      cases hd : s.dataset which with
      | none => rfl
      | some d =>
        have hd0 : s0.dataset which = some d := by
          unfold Session.dataset at hd ⊢
          rw [a2, a4] at hd
          exact hd
        have hsf := dataset_features h0 Q.search hd0
        simp only
        cases hf : findMember s.engine.shared n with
        | none => unfold evaluateMember; rw [hf]; rfl
        | some m =>
          have hsound : m.Sound s0.opts s0.train ops N := by
            rcases (findMember_mem hf).2 with hm | rfl
            · obtain ⟨c, hc⟩ := mem_members.mp hm
              exact (hs.hall.entry c _ hc).1
            · exact hs.best
          obtain ⟨a, t, h1, -⟩ := evaluate_found Q.search hsf hf hsound
          rw [h1]; rfl
  | step n =>
    obtain ⟨e0, g1, g2⟩ := C64_stepwise Q seeds orderRng
    have := h0.engine
    rw [g1] at this
    cases this
    rcases g2 (askedCycles cs + n) with g | ⟨k', j, e', sh, t, i, res, g3, g4, g5, g6, g7⟩
    · left
      rw [C45_compositional, e] at g
      simp only [Option.bind_some, Option.isSome_map] at g
      obtain ⟨⟨k2, e2⟩, h2⟩ := Option.isSome_iff_exists.mp g
      have h2' : s.engine.step s.opts s.train n = some (k2, e2) := by rw [a1, a2]; exact h2
      have hs2 : e2.shared.Sound s0.opts s0.train ops N := by
        refine C59_stepwise Q.search g1 (n := askedCycles cs + n) (k := k + k2) ?_
        rw [C45_compositional, e]
        simp only [Option.bind_some, h2, Option.map_some]
      obtain ⟨b, hb, -⟩ := summary_spec Q.search T s.names hnames hs2.best
      simp only [Session.call, Session.step, Session.snapshot, h2', Option.bind_eq_bind, Option.bind_some, hb, Option.map_some, Option.isSome_some]
    · right
      exact ⟨n, k', j, e', sh, t, i, res, rfl, g3, g4, g5, g6, g7⟩

end
end
end SR

/-! ### A concrete session -/

namespace SR.Demo
open SR

/-- The small environment with operators of up to three arguments. -/
@[reducible] def webEnv : Env ℚ := { env with D := 3 }

local instance instWebSession : Env ℚ := webEnv

/-- The names of its operators. -/
def webTable : OpTable where
  maxArity := 3
  opsWithArity
    | 1 => [0]
    | 2 => [0, 1, 2]
    | _ => []
  metas
    | 1, 0 => some ⟨"neg".toList, "-".toList, none⟩
    | 2, 0 => some ⟨"add".toList, "+".toList, some "+".toList⟩
    | 2, 1 => some ⟨"mul".toList, "*".toList, some "*".toList⟩
    | 2, 2 => some ⟨"sub".toList, "-".toList, some "-".toList⟩
    | _, _ => none

/-- A table of seven rows with headings, a quarter of it for validation, loss ` Huber `. -/
def webRequest : WebRequest ℚ where
  headers := ["a", "b"]
  rows := (List.range 7).map fun i => [.fin i, .fin (2 * i)]
  columns := ⟨true, none, none, none⟩
  validationFraction := .fin (1 / 4)
  loss := ⟨" Huber ".toList, .fin 1, .fin 2, .fin (1 / 2), .fin (1 / 10)⟩
  unary := ["neg".toList]
  binary := ["+".toList, " MUL".toList, "sub".toList]
  ternary := []
  core := { runOpts false with shouldOptimizeConstants := false }

theorem web_operators : webRequest.Operators webTable Char.isWhitespace opIds := by
  refine ⟨by decide, ?_, by decide, by decide⟩
  show List.Forall₂ _ [("neg".toList, 1), ("+".toList, 2), (" MUL".toList, 2), ("sub".toList, 2)] opIds
  exact .cons (by decide +kernel) (.cons (by decide +kernel) (.cons (by decide +kernel) (.cons (by decide +kernel) .nil)))

theorem web_operators_unique {ops : List OpId} (h : webRequest.Operators webTable Char.isWhitespace ops) : ops = opIds := by
  have key : ∀ (l : List (List Char × Nat)) (a b : List OpId),
      List.Forall₂ (fun (n : List Char × Nat) op => webTable.lookupWithArity Char.isWhitespace n.1 n.2 = .ok op) l a →
      List.Forall₂ (fun (n : List Char × Nat) op => webTable.lookupWithArity Char.isWhitespace n.1 n.2 = .ok op) l b →
      a = b := by
    intro l
    induction l with
    | nil => intro a b ha hb; cases ha; cases hb; rfl
    | cons x l ih =>
      intro a b ha hb
      cases ha with
      | cons h1 h2 =>
        cases hb with
        | cons h3 h4 =>
          rw [h1] at h3
          cases h3
          rw [ih _ _ h2 h4]
  exact key _ _ _ h.2.1 web_operators.2.1

theorem web_loss : webRequest.loss.parse Char.isWhitespace = some (.mean (.huber (.fin 1))) := by
  have h : trimWs Char.isWhitespace " Huber ".toList = "Huber".toList := by decide +kernel
  show WebLoss.named _ ((trimWs Char.isWhitespace " Huber ".toList).map Char.toLower) = _
  rw [h]
  rfl

theorem web_valid : ValidRequest webRequest.rows webRequest.columns 2 1 where
  nonempty := by decide
  width := by
    intro row hr
    obtain ⟨i, -, rfl⟩ := List.mem_map.mp hr
    rfl
  two := Nat.le_refl 2
  target := rfl
  targetLt := by decide
  weights := by intro wc h; cases h
  features := by intro v h; cases h
  left := fun _ => ⟨0, by decide, by decide, by decide⟩

theorem size_le_weight (w : Weights) (hw : ∀ n, 1 ≤ w.node n) (t : Tree) : t.size ≤ (t.toPostfix.map w.node).sum := by
  rw [← length_toPostfix]
  generalize t.toPostfix = l
  induction l with
  | nil => simp
  | cons n l ih =>
    have := hw n
    simp only [List.length_cons, List.map_cons, List.sum_cons]
    omega

theorem webNoWarmup {o : SOptions ℚ} (h : o.warmupMaxsizeBy = .fin 0) (t r c : Nat) (hc : getCurMaxsize o t r = some c) :
    c ≤ o.maxsize := by
  unfold getCurMaxsize at hc
  rw [h] at hc
  have : Fl.lt (.fin 0) (.fin 0 : Fl ℚ) = false := by decide
  rw [this] at hc
  simp only [Bool.false_and, Bool.false_eq_true, if_false, Option.some.injEq] at hc
  exact hc.ge

/-- The configuration is sensible for every data set with one feature. -/
theorem web_run {ops : List OpId} {o : SOptions ℚ} (hops : webRequest.Operators webTable Char.isWhitespace ops)
    (ho : webRequest.Configures Char.isWhitespace ops o) {d : Dataset ℚ} (hd : d.WF) (hrows : 0 < d.x.cols)
    (hf : d.x.rows = 1) : RunSetting o d ops 3 := by
  have e := web_operators_unique hops
  subst e
  obtain ⟨h1, h2, h3, h4⟩ := ho
  rw [web_loss, Option.some.injEq] at h4
  rw [h2, h3, ← h4] at h1
  subst h1
  exact
  { search :=
      { evol :=
          { operators := rfl
            ops_ok := by decide
            cxD := rfl
            cx := by constructor <;> simp [webRequest, runOpts, smallOpts, opts, cx]
            data := hd
            rows := hrows
            nf_pos := by omega
            nf_le := by omega
            cur_lt := by decide
            maxsize_le := by show 3 ≤ 65535; decide
            size := fun t _ ha => (size_le_weight _ (fun n => by cases n <;> exact Nat.le_refl 1) t).trans ha.size
            room := by decide
            two := by decide }
        formats := ⟨Rounding.exact_lawful ℚ, Rounding.exact_lawful ℚ, fun _ h => h, fun _ _ _ => rfl⟩
        ls := ⟨rfl, by have := lsOk.c1; exact this⟩
        costs := ⟨Rounding.exact_lawful ℚ, ⟨1 / 100, rfl, by norm_num⟩, fun _ _ => rfl⟩
        batching := rfl
        populations := by decide
        populationSize := by decide
        init := by decide
        warmup := fun _ _ => webNoWarmup rfl _ _ _ }
    two := by decide
    tour :=
      { entrants := by decide
        draw := by decide
        place := .inr (.inr ⟨by decide +kernel, .inr ⟨.fin (99 / 100), by decide +kernel, rfl, by decide +kernel⟩⟩)
        maxsize := by decide
        scale := fun _ => .inl fun f _ _ => ⟨1, rfl, one_pos⟩ }
    weights :=
      { numbers := by
          intro w hw
          refine ⟨1, ?_, rfl⟩
          simpa [webRequest, runOpts, smallOpts, opts, MutWeights.choices] using hw
        drawable := ⟨.fin 12, by decide +kernel, rfl, by decide +kernel⟩
        always := .inl (by decide +kernel)
        eight := rfl }
    warmup := fun h => by
      have : Fl.lt (.fin 0) (webRequest.core.warmupMaxsizeBy) = false := by decide
      rw [this] at h; cases h
    counts := ⟨fun _ _ => rfl, fun _ _ _ _ => rfl⟩ }

/-- Every split of the table leaves five training rows of one feature. -/
theorem web_split {names : List String} {split : Split} {train : Dataset ℚ} {val : Option (Dataset ℚ)}
    (h : IsSplit webRequest.headers webRequest.rows webRequest.columns webRequest.validationFraction names split train val) :
    train.WF ∧ train.x.cols = 5 ∧ train.x.rows = 1 ∧ names = ["a"] ∧ split.val.length = 2 := by
  obtain ⟨hp, hs, nCols, yCol, f, cols, hv, ht, rfl, hr, -⟩ := h
  have hn : nVal 7 (.fin (1 / 4)) = 2 := by decide +kernel
  have hs : split.val.length = 2 := hs.trans hn
  have hl := hp.length_eq
  rw [List.length_append, List.length_range] at hl
  have hl : split.train.length + split.val.length = 7 := hl
  have h2 : nCols = 2 := (hv.width [.fin 0, .fin (2 * (0 : Nat))] (by
    simp only [webRequest, List.mem_map]; exact ⟨0, by decide, by simp⟩)).symm
  have hy : yCol = 1 := by rw [hv.target, h2]; rfl
  have hcols : cols = [0] := by
    have hw : ∀ c, c ∈ cols ↔ c = 0 := fun c => by
      rw [ht.wanted c]
      show c < nCols ∧ c ≠ yCol ∧ some c ≠ none ↔ _
      rw [h2, hy]
      constructor
      · rintro ⟨a, b, -⟩; omega
      · rintro rfl; exact ⟨by omega, by omega, by simp⟩
    have := ht.ascending
    match cols, this, hw with
    | [], _, hw => exact absurd ((hw 0).mpr rfl) (by simp)
    | [c], _, hw => rw [(hw c).mp (by simp)]
    | a :: b :: l, hp, hw =>
      have h1 := (hw a).mp (by simp)
      have h2 := (hw b).mp (by simp)
      rw [List.pairwise_cons] at hp
      have := hp.1 b (by simp)
      omega
  subst hcols
  refine ⟨⟨hr.shape.y, hr.shape.weights⟩, by rw [hr.rows]; omega, ?_, ?_, hs⟩
  · rw [hr.shape.features]; exact ht.nFeatures
  · have h1 := ht.nNames
    have h2' := ht.names 0 0 rfl
    rw [h2] at h2'
    have : (webRequest.columns.hasHeaders && webRequest.headers.length == 2) = true := rfl
    rw [this] at h2'
    match hf : f.names, h1, h2' with
    | [n], _, h2' =>
      simp only [if_true, webRequest, List.getElem?_cons_zero, Option.some.injEq] at h2'
      rw [h2']

end SR.Demo

namespace SR
open Demo
local instance instWebSession' : Env ℚ := webEnv

/-- The hypotheses of the theorems of this file are met: for all random streams the session of the example opens, with the
column `a` as feature and the configured search on its training rows, and no call on it ever fails to return. -/
example (splitRng : Rng (Fl ℚ)) (seeds : Nat → Rng (Fl ℚ)) (orderRng : Rng (Fl ℚ)) (T : Texts ℚ) :
    ∃ s ops, Session.open webTable Char.isWhitespace webRequest splitRng seeds orderRng = some (some s) ∧
      s.Opened webTable Char.isWhitespace webRequest seeds orderRng ops ∧ RunSetting s.opts s.train ops 3 ∧
      s.names = ["a"] ∧ s.val.isSome = true ∧
      ∀ cs s' rs c, s.calls T cs = some (s', rs) → (s'.call T c).isSome = true := by
  have hne : Session.open webTable Char.isWhitespace webRequest splitRng seeds orderRng ≠ some none := by
    intro h
    rcases (C73_refused _ _ _ _ _ _).mp h with h | h | h
    · exact h _ web_operators
    · exact h _ _ web_valid
    · rw [web_loss] at h; cases h
  obtain ⟨s, hs⟩ := C73_opens webTable Char.isWhitespace webRequest splitRng seeds orderRng hne (by
    intro ops o names split train val d h1 h2 h3 e1 e2 e3
    obtain ⟨g1, g2, g3, -⟩ := web_split h3
    refine ⟨3, web_run h1 h2 ⟨by rw [e1, e2]; exact g1.1, by rw [e1, e3]; exact g1.2⟩ (by rw [e1]; omega) (by rw [e1]; exact g3)⟩)
  obtain ⟨ops, ho⟩ := C73_opened _ _ _ _ _ _ _ hs
  obtain ⟨train, hd, ht⟩ := ho.data
  obtain ⟨g1, g2, g3, g4, g5⟩ := web_split hd
  obtain ⟨e1, e2, e3⟩ := tagged_fields ht
  have Q : RunSetting s.opts s.train ops 3 :=
    web_run ho.operators ho.options ⟨by rw [e1, e2]; exact g1.1, by rw [e1, e3]; exact g1.2⟩ (by rw [e1]; omega)
      (by rw [e1]; exact g3)
  refine ⟨s, ops, hs, ho, Q, g4, ?_, ?_⟩
  · obtain ⟨_, _, _, _, -, -, -, -, -, hv⟩ := hd.table
    obtain ⟨b, hb, -⟩ := hv fun e => by rw [e] at g5; cases g5
    rw [hb]; rfl
  · intro cs s' rs c h
    rcases C73_returns ho Q h c with h | ⟨_, _, _, _, _, _, _, _, -, -, -, -, -, h | h⟩
    · exact h
    · have := ho.options.core
      have hm : s.opts.migration = false := by rw [this]; rfl
      rw [hm] at h; cases h.1
    · have := ho.options.core
      have hm : s.opts.hofMigration = false := by rw [this]; rfl
      rw [hm] at h; cases h.1

end SR
