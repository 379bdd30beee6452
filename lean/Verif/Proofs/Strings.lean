import Verif.Spec.Formula
import Verif.Model.Strings
import Verif.Proofs.Postfix
/-
Lemmas about printing: stripping parentheses, balance, and the parser reading printed formulas back.
-/
namespace SR

/-! ### Balance -/

theorem BalancedFrom.append {a b : List Char} {k d : Nat} (ha : BalancedFrom k a) :
    BalancedFrom (k + d) (a ++ b) ↔ BalancedFrom d b := by
  induction a generalizing k with
  | nil => simp only [BalancedFrom] at ha; subst ha; simp
  | cons c a ih =>
    simp only [BalancedFrom, List.cons_append] at ha ⊢
    by_cases h1 : c = '('
    · simp only [h1, if_true] at ha ⊢
      rw [show k + d + 1 = (k + 1) + d by omega]
      exact ih ha
    · by_cases h2 : c = ')'
      · subst h2
        simp only [if_true] at ha ⊢
        cases k with
        | zero => simp at ha
        | succ k =>
          rw [if_neg (by decide)] at ha
          simp only [show k + 1 + d = (k + d) + 1 by omega]
          rw [if_neg (by decide)]
          exact ih ha
      · simp only [h1, h2, if_false] at ha ⊢
        exact ih ha

theorem Balanced.append {a b : List Char} (ha : Balanced a) (hb : Balanced b) : Balanced (a ++ b) :=
  (BalancedFrom.append (k := 0) (d := 0) ha).mpr hb

theorem balanced_of_noParen {s : List Char} (h : ∀ c ∈ s, c ≠ '(' ∧ c ≠ ')') : Balanced s := by
  induction s with
  | nil => rfl
  | cons c s ih =>
    have := h c (by simp)
    simp only [Balanced, BalancedFrom, this.1, this.2, if_false]
    exact ih fun d hd => h d (by simp [hd])

theorem Balanced.paren {m : List Char} (h : Balanced m) : Balanced ('(' :: m ++ [')']) := by
  have : BalancedFrom (0 + 1) (m ++ [')']) ↔ BalancedFrom 1 [')'] := BalancedFrom.append h
  simp only [Balanced, List.cons_append, BalancedFrom, if_true]
  rw [Nat.zero_add] at this
  rw [show 0 + 1 = 1 from rfl, this]
  simp [BalancedFrom]

theorem IsWord.noDelim {s : List Char} (h : IsWord s) (c : Char) (hc : c ∈ s) :
    c ≠ '(' ∧ c ≠ ')' ∧ c ≠ ',' ∧ c ≠ ' ' := by
  have := h.2 c hc
  simp only [isDelim, Bool.or_eq_false_iff, decide_eq_false_iff_not] at this
  exact ⟨this.1.1.1, this.1.1.2, this.1.2, this.2⟩

theorem IsWord.balanced {s : List Char} (h : IsWord s) : Balanced s :=
  balanced_of_noParen fun c hc => ⟨(h.noDelim c hc).1, (h.noDelim c hc).2.1⟩

/-! ### Stripping -/

theorem firstClose_iff (s : List Char) (k i j : Nat) :
    firstClose s ((k : Int) + 1) i = some j ↔
      ∃ m r, s = m ++ ')' :: r ∧ j = i + m.length ∧ BalancedFrom k m := by
  induction s generalizing k i with
  | nil => simp [firstClose]
  | cons c s ih =>
    simp only [firstClose]
    by_cases h1 : c = '('
    · subst h1
      simp only [if_true]
      have := ih (k + 1) (i + 1)
      rw [show ((k : Int) + 1 + 1) = ((k + 1 : Nat) : Int) + 1 by omega, this]
      constructor
      · rintro ⟨m, r, h, hj, hb⟩
        exact ⟨'(' :: m, r, by simp [h], by simp; omega, by simpa [BalancedFrom] using hb⟩
      · rintro ⟨m, r, h, hj, hb⟩
        cases m with
        | nil => simp at h
        | cons c' m =>
          simp only [List.cons_append, List.cons.injEq] at h
          obtain ⟨rfl, h⟩ := h
          exact ⟨m, r, h, by simp at hj; omega, by simpa [BalancedFrom] using hb⟩
    · by_cases h2 : c = ')'
      · subst h2
        rw [if_neg (by decide), if_pos rfl]
        cases k with
        | zero =>
          rw [if_pos (by omega)]
          simp only [Option.some.injEq]
          constructor
          · intro h; exact ⟨[], s, rfl, by simp [h], rfl⟩
          · rintro ⟨m, r, h, hj, hb⟩
            cases m with
            | nil => simpa using hj.symm
            | cons c' m =>
              simp only [List.cons_append, List.cons.injEq] at h
              obtain ⟨rfl, h⟩ := h
              rw [BalancedFrom, if_neg (by decide), if_pos rfl] at hb
              exact hb.elim
        | succ k =>
          rw [if_neg (by simp; omega)]
          have := ih k (i + 1)
          rw [show ((k + 1 : Nat) : Int) + 1 - 1 = (k : Int) + 1 by simp, this]
          constructor
          · rintro ⟨m, r, h, hj, hb⟩
            refine ⟨')' :: m, r, by simp [h], by simp; omega, ?_⟩
            rw [BalancedFrom, if_neg (by decide), if_pos rfl]
            exact hb
          · rintro ⟨m, r, h, hj, hb⟩
            cases m with
            | nil => simp [BalancedFrom] at hb
            | cons c' m =>
              simp only [List.cons_append, List.cons.injEq] at h
              obtain ⟨rfl, h⟩ := h
              rw [BalancedFrom, if_neg (by decide), if_pos rfl] at hb
              exact ⟨m, r, h, by simp at hj; omega, hb⟩
      · simp only [h1, h2, if_false]
        rw [ih]
        constructor
        · rintro ⟨m, r, h, hj, hb⟩
          exact ⟨c :: m, r, by simp [h], by simp; omega, by simpa [BalancedFrom, h1, h2] using hb⟩
        · rintro ⟨m, r, h, hj, hb⟩
          cases m with
          | nil => simp at h; exact (h2 h.1).elim
          | cons c' m =>
            simp only [List.cons_append, List.cons.injEq] at h
            obtain ⟨rfl, h⟩ := h
            exact ⟨m, r, h, by simp at hj; omega, by simpa [BalancedFrom, h1, h2] using hb⟩

/-- The test of `strip_outer_parens` succeeds exactly on a balanced text in one pair of parentheses. -/
theorem encloses_iff (s : List Char) :
    (¬(s.length < 2 ∨ s.head? ≠ some '(' ∨ s.getLast? ≠ some ')') ∧
      firstClose s 0 0 = some (s.length - 1)) ↔ ∃ m, s = '(' :: m ++ [')'] ∧ Balanced m := by
  constructor
  · rintro ⟨hc, hf⟩
    cases s with
    | nil => simp at hc
    | cons c s =>
      simp only [List.head?_cons, ne_eq, Option.some.injEq, not_or, Decidable.not_not] at hc
      obtain ⟨hl, rfl, hlast⟩ := hc
      simp only [firstClose, if_true] at hf
      have := (firstClose_iff s 0 1 _).mp hf
      obtain ⟨m, r, h, hj, hb⟩ := this
      have hr : r = [] := by
        have : s.length = m.length + 1 + r.length := by rw [h]; simp; omega
        simp at hj
        exact List.length_eq_zero_iff.mp (by omega)
      subst hr
      exact ⟨m, by simp [h], hb⟩
  · rintro ⟨m, rfl, hb⟩
    refine ⟨by simp [List.getLast?_cons], ?_⟩
    simp only [List.cons_append, firstClose, if_true]
    have := (firstClose_iff (m ++ [')']) 0 1 (1 + m.length)).mpr ⟨m, [], rfl, rfl, hb⟩
    rw [show (((0 : Nat) : Int) + 1) = 0 + 1 from rfl] at this
    simp only [Nat.zero_add, List.length_cons, List.length_append, List.length_nil]
    rw [this]
    congr 1; omega

theorem strip_eq (s : List Char) : stripOuterParens s =
    if (¬(s.length < 2 ∨ s.head? ≠ some '(' ∨ s.getLast? ≠ some ')') ∧
      firstClose s 0 0 = some (s.length - 1)) then stripOuterParens s.tail.dropLast else s := by
  rw [stripOuterParens]
  by_cases h1 : s.length < 2 ∨ s.head? ≠ some '(' ∨ s.getLast? ≠ some ')'
  · rw [if_pos h1, if_neg (by simp only [not_and]; exact fun h => absurd h1 h)]
  · rw [if_neg h1]
    by_cases h2 : firstClose s 0 0 = some (s.length - 1)
    · rw [if_pos h2, if_pos ⟨h1, h2⟩]
    · rw [if_neg h2, if_neg (by simp [h2])]

theorem strip_paren {m : List Char} (h : Balanced m) :
    stripOuterParens ('(' :: m ++ [')']) = stripOuterParens m := by
  rw [strip_eq, if_pos ((encloses_iff _).mpr ⟨m, rfl, h⟩)]
  simp

theorem strip_not {s : List Char} (h : ∀ m, s = '(' :: m ++ [')'] → ¬ Balanced m) :
    stripOuterParens s = s := by
  rw [strip_eq, if_neg]
  intro hc
  obtain ⟨m, e, hb⟩ := (encloses_iff _).mp hc
  exact h m e hb

/-! ### Printed forms of formula trees -/

mutual
/-- The text of a formula as an operand: infix formulas are parenthesised. -/
def DTree.unit : DTree → List Char
  | .leaf s => s
  | .node true tok ts => '(' :: joinWith (' ' :: tok ++ [' ']) (DTree.units ts) ++ [')']
  | .node false tok ts => tok ++ '(' :: joinWith [',', ' '] (DTree.bodies ts) ++ [')']
/-- The text of a formula on its own. -/
def DTree.body : DTree → List Char
  | .leaf s => s
  | .node true tok ts => joinWith (' ' :: tok ++ [' ']) (DTree.units ts)
  | .node false tok ts => tok ++ '(' :: joinWith [',', ' '] (DTree.bodies ts) ++ [')']
def DTree.units : List DTree → List (List Char)
  | [] => []
  | t :: ts => DTree.unit t :: DTree.units ts
def DTree.bodies : List DTree → List (List Char)
  | [] => []
  | t :: ts => DTree.body t :: DTree.bodies ts
end

theorem units_eq (ts : List DTree) : DTree.units ts = ts.map DTree.unit := by
  induction ts with
  | nil => simp [DTree.units]
  | cons t ts ih => simp [DTree.units, ih]
theorem bodies_eq (ts : List DTree) : DTree.bodies ts = ts.map DTree.body := by
  induction ts with
  | nil => simp [DTree.bodies]
  | cons t ts ih => simp [DTree.bodies, ih]

theorem joinWith_balanced (sep : List Char) (hs : Balanced sep) (l : List (List Char))
    (h : ∀ x ∈ l, Balanced x) : Balanced (joinWith sep l) := by
  induction l with
  | nil => rfl
  | cons x l ih =>
    cases l with
    | nil => simpa [joinWith] using h x (by simp)
    | cons y l =>
      rw [joinWith]
      · exact ((h x (by simp)).append hs).append (ih fun z hz => h z (by simp [List.mem_cons.mp hz]))
      · simp

theorem sep_balanced {tok : List Char} (h : IsWord tok) : Balanced (' ' :: tok ++ [' ']) :=
  balanced_of_noParen fun c hc => by
    simp only [List.cons_append, List.mem_cons, List.mem_append, List.mem_nil_iff, or_false] at hc
    rcases hc with rfl | hc | rfl
    · decide
    · exact ⟨(h.noDelim c hc).1, (h.noDelim c hc).2.1⟩
    · decide

theorem unit_balanced (t : DTree) (h : t.Labelled) : Balanced t.unit ∧ Balanced t.body := by
  induction t using DTree.ind with
  | hl s => cases h with | leaf h => simp only [DTree.unit, DTree.body]; exact ⟨h.balanced, h.balanced⟩
  | hn i tok ts ih =>
    cases h with
    | node hw hlen hk =>
      have hu : ∀ x ∈ DTree.units ts, Balanced x := by
        rw [units_eq]; intro x hx
        obtain ⟨t, ht, rfl⟩ := List.mem_map.mp hx
        exact (ih t ht (hk t ht)).1
      have hb : ∀ x ∈ DTree.bodies ts, Balanced x := by
        rw [bodies_eq]; intro x hx
        obtain ⟨t, ht, rfl⟩ := List.mem_map.mp hx
        exact (ih t ht (hk t ht)).2
      cases i with
      | true =>
        simp only [DTree.unit, DTree.body]
        have := joinWith_balanced _ (sep_balanced hw) _ hu
        exact ⟨this.paren, this⟩
      | false =>
        simp only [DTree.unit, DTree.body]
        have := joinWith_balanced [',', ' '] (balanced_of_noParen (by simp)) _ hb
        have h2 := hw.balanced.append this.paren
        simp only [List.cons_append, List.append_assoc] at h2 ⊢
        exact ⟨h2, h2⟩

/-- A balanced text in one pair of parentheses followed by more text is not enclosed by one pair. -/
theorem not_enclosed {b r m : List Char} (hb : Balanced b) (hr : r ≠ [])
    (h : '(' :: b ++ [')'] ++ r = '(' :: m ++ [')']) : ¬ Balanced m := by
  intro hm
  have e1 : firstClose (b ++ [')'] ++ r) ((0 : Nat) + 1) 0 = some (0 + b.length) :=
    (firstClose_iff _ 0 0 _).mpr ⟨b, r, by simp, rfl, hb⟩
  have e2 : firstClose (m ++ [')']) ((0 : Nat) + 1) 0 = some (0 + m.length) :=
    (firstClose_iff _ 0 0 _).mpr ⟨m, [], by simp, rfl, hm⟩
  have h' : b ++ [')'] ++ r = m ++ [')'] := by simpa using h
  rw [h', e2] at e1
  have := congrArg List.length h'
  simp only [List.length_append, List.length_cons, List.length_nil] at this
  have hr' : 0 < r.length := List.length_pos_iff.mpr hr
  simp only [Option.some.injEq] at e1
  omega

theorem head_not_paren {s : List Char} (h : IsWord s) (r m : List Char) : s ++ r ≠ '(' :: m := by
  intro e
  obtain ⟨hne, _⟩ := h
  cases s with
  | nil => exact hne rfl
  | cons c s =>
    simp only [List.cons_append, List.cons.injEq] at e
    exact (IsWord.noDelim ⟨hne, by assumption⟩ c (by simp)).1 e.1

theorem strip_body (t : DTree) (h : t.Labelled) : stripOuterParens t.body = t.body := by
  apply strip_not
  intro m e
  cases t with
  | leaf s =>
    cases h with
    | leaf h =>
      simp only [DTree.body] at e
      exact (head_not_paren h [] (m ++ [')']) (by simpa using e)).elim
  | node i tok ts =>
    cases h with
    | node hw hlen hk =>
      cases i with
      | false =>
        simp only [DTree.body, List.append_assoc] at e
        exact (head_not_paren hw _ (m ++ [')']) (by simpa using e)).elim
      | true =>
        simp only [DTree.body, units_eq] at e
        match ts, hlen, hk with
        | t1 :: t2 :: ts, _, hk =>
          rw [List.map_cons, List.map_cons, joinWith] at e
          rotate_left
          · simp
          have h1 := hk t1 (by simp)
          cases h1 with
          | @leaf s hs =>
            simp only [DTree.unit, List.append_assoc] at e
            exact (head_not_paren hs _ (m ++ [')']) (by simpa using e)).elim
          | @node i tok' ts' hw' hl' hk' =>
            cases i with
            | false =>
              simp only [DTree.unit, List.append_assoc] at e
              exact (head_not_paren hw' _ (m ++ [')']) (by simpa using e)).elim
            | true =>
              have hb := (unit_balanced (.node true tok' ts') (.node hw' hl' hk')).2
              simp only [DTree.body] at hb
              simp only [DTree.unit] at e
              refine not_enclosed hb (r := (' ' :: tok ++ [' ']) ++
                joinWith (' ' :: tok ++ [' ']) (t2.unit :: ts.map DTree.unit)) (by simp) ?_
              rw [← e]; simp
        | [], hlen, _ => simp at hlen
        | [_], hlen, _ => simp at hlen

theorem strip_unit (t : DTree) (h : t.Labelled) : stripOuterParens t.unit = t.body := by
  cases t with
  | leaf s => simpa [DTree.unit, DTree.body] using strip_body _ h
  | node i tok ts =>
    cases i with
    | false =>
      have := strip_body _ h
      simp only [DTree.body] at this
      simpa only [DTree.unit, DTree.body] using this
    | true =>
      have hb := (unit_balanced _ h).2
      have := strip_body _ h
      simp only [DTree.body] at hb this
      simp only [DTree.unit, DTree.body]
      rw [strip_paren hb, this]

/-! ### Reading back -/

/-- What may follow an operand. -/
def AfterUnit : List Char → Prop
  | [] => True
  | c :: _ => c = ')' ∨ c = ',' ∨ c = ' '

/-- What may follow a complete formula. -/
def AfterBody : List Char → Prop
  | [] => True
  | c :: _ => c = ')' ∨ c = ','

theorem AfterBody.unit {r : List Char} (h : AfterBody r) : AfterUnit r := by
  cases r with
  | nil => trivial
  | cons c r => rcases h with h | h <;> simp [AfterUnit, h]

theorem word_append {w r : List Char} (h : IsWord w)
    (hr : ∀ c r', r = c :: r' → isDelim c = true) : word (w ++ r) = (w, r) := by
  have h1 : r.takeWhile (fun c => !isDelim c) = [] ∧ r.dropWhile (fun c => !isDelim c) = r := by
    cases r with
    | nil => simp
    | cons c r => simp [hr c r rfl]
  simp only [word]
  rw [List.takeWhile_append_of_pos, List.dropWhile_append_of_pos, h1.1, h1.2]
  · simp
  · intro c hc; simp [h.2 c hc]
  · intro c hc; simp [h.2 c hc]

theorem afterUnit_delim {r : List Char} (h : AfterUnit r) (c : Char) (r' : List Char)
    (e : r = c :: r') : isDelim c = true := by
  subst e
  rcases h with h | h | h <;> subst h <;> decide

theorem unit_ne_nil (t : DTree) (h : t.Labelled) : 1 ≤ t.unit.length ∧ 1 ≤ t.body.length := by
  cases h with
  | @leaf s hs =>
    have := List.length_pos_iff.mpr hs.1
    simp only [DTree.unit, DTree.body]; exact ⟨this, this⟩
  | @node i tok ts hw hl hk =>
    cases i with
    | false =>
      simp only [DTree.unit, DTree.body, List.length_append, List.length_cons]; omega
    | true =>
      simp only [DTree.unit, DTree.body, units_eq]
      refine ⟨by simp, ?_⟩
      match ts, hl with
      | t1 :: t2 :: ts, _ =>
        rw [List.map_cons, List.map_cons, joinWith]
        · simp; omega
        · simp
      | [], hl => simp at hl
      | [_], hl => simp at hl

/-- Text of a tail: `" tok u1 tok u2 ..."`. -/
def tailText (tok : List Char) : List DTree → List Char
  | [] => []
  | t :: ts => ' ' :: tok ++ ' ' :: t.unit ++ tailText tok ts

theorem joinWith_tail (tok : List Char) (t : DTree) (ts : List DTree) :
    joinWith (' ' :: tok ++ [' ']) ((t :: ts).map DTree.unit) = t.unit ++ tailText tok ts := by
  induction ts generalizing t with
  | nil => simp [joinWith, tailText]
  | cons u ts ih =>
    rw [List.map_cons, List.map_cons, joinWith]
    · rw [← List.map_cons, ih]; simp [tailText]
    · simp

/-- The parser reads back a labelled tree as an operand. -/
def ReadsUnit (t : DTree) : Prop := ∀ f r, 3 * t.unit.length ≤ f → AfterUnit r →
  parseUnit f (t.unit ++ r) = some (t, r)
/-- ... and as a complete formula. -/
def ReadsBody (t : DTree) : Prop := ∀ f r, 3 * t.body.length + 1 ≤ f → AfterBody r →
  parseBody f (t.body ++ r) = some (t, r)

theorem afterUnit_tail (tok : List Char) (ts : List DTree) {r : List Char} (h : AfterUnit r) :
    AfterUnit (tailText tok ts ++ r) := by
  cases ts with
  | nil => simpa [tailText] using h
  | cons t ts => simp [tailText, AfterUnit]

theorem reads_tail (tok : List Char) (hw : IsWord tok) (ts : List DTree) (h : ∀ t ∈ ts, ReadsUnit t)
    (f : Nat) (r : List Char) (hf : 3 * (tailText tok ts).length + 1 ≤ f) (hr : AfterBody r) :
    parseTail f (tailText tok ts ++ r) = some (ts.map fun t => (tok, t), r) := by
  induction ts generalizing f with
  | nil =>
    cases f with
    | zero => simp at hf
    | succ f =>
      cases r with
      | nil => simp [tailText, parseTail]
      | cons c r =>
        simp only [tailText, List.nil_append, List.map_nil]
        rcases hr with rfl | rfl <;> rw [parseTail] <;> simp
  | cons t ts ih =>
    cases f with
    | zero => simp at hf
    | succ f =>
      simp only [tailText, List.cons_append, List.append_assoc, List.length_cons,
        List.length_append] at hf ⊢
      rw [parseTail, word_append hw (by rintro c r' e; simp at e; rw [← e.1]; decide)]
      simp only
      rw [h t (by simp) f _ (by omega) (afterUnit_tail tok ts hr.unit)]
      simp only
      rw [ih (fun u hu => h u (by simp [hu])) f (by omega)]
      simp

theorem reads_args (ts : List DTree) (hne : ts ≠ []) (h : ∀ t ∈ ts, ReadsBody t) (f : Nat)
    (r : List Char) (hf : 3 * (joinWith [',', ' '] (ts.map DTree.body)).length + 2 ≤ f) :
    parseArgs f (joinWith [',', ' '] (ts.map DTree.body) ++ ')' :: r) = some (ts, r) := by
  induction ts generalizing f with
  | nil => exact (hne rfl).elim
  | cons t ts ih =>
    cases f with
    | zero => simp at hf
    | succ f =>
      cases ts with
      | nil =>
        simp only [List.map_cons, List.map_nil, joinWith] at hf ⊢
        rw [parseArgs, h t (by simp) f _ (by omega) (by simp [AfterBody])]
        rfl
      | cons u ts =>
        simp only [List.map_cons] at hf ⊢
        rw [joinWith] at hf ⊢
        rotate_left
        · simp
        · simp
        simp only [List.append_assoc, List.length_append, List.length_cons, List.length_nil] at hf ⊢
        rw [parseArgs, h t (by simp) f _ (by omega) (by simp [AfterBody])]
        simp only [List.cons_append, List.nil_append]
        have := ih (by simp) (fun v hv => h v (by simp [List.mem_cons.mp hv])) f (by
          simp only [List.map_cons]; omega)
        simp only [List.map_cons] at this
        rw [this]; simp

theorem parseUnit_word {w r : List Char} (hw : IsWord w) (f : Nat)
    (hr : ∀ c r', r = c :: r' → isDelim c = true) :
    parseUnit (f + 1) (w ++ r) = match (generalizing := false) r with
      | '(' :: r => (parseArgs f r).map fun p => (.node false w p.1, p.2)
      | r => some (.leaf w, r) := by
  have hword := word_append hw hr
  clear hr
  obtain ⟨hne, hd⟩ := hw
  cases w with
  | nil => exact (hne rfl).elim
  | cons c w =>
    have hc : c ≠ '(' := (IsWord.noDelim ⟨hne, hd⟩ c (by simp)).1
    rw [parseUnit]
    · rw [hword]
      cases r with
      | nil => rfl
      | cons d r =>
        by_cases hdp : d = '('
        · subst hdp; rfl
        · split
          · next h => simp at h
          · next h => simp at h; exact (hdp h.2.1).elim
          · next h1 h2 h3 =>
            simp only [Prod.mk.injEq] at h3
            obtain ⟨rfl, rfl⟩ := h3
            split
            · next h => exact (hdp (List.cons.inj h).1).elim
            · rfl
    · intro s e
      simp only [List.cons_append, List.cons.injEq] at e
      exact hc e.1

theorem reads (t : DTree) (h : t.Labelled) : ReadsUnit t ∧ ReadsBody t := by
  induction t using DTree.ind with
  | hl s =>
    cases h with
    | leaf hs =>
      have hu : ReadsUnit (.leaf s) := by
        intro f r hf hr
        simp only [DTree.unit] at hf ⊢
        have := List.length_pos_iff.mpr hs.1
        obtain ⟨f, rfl⟩ : ∃ g, f = g + 1 := ⟨f - 1, by omega⟩
        rw [parseUnit_word hs f (afterUnit_delim hr)]
        cases r with
        | nil => rfl
        | cons c r => rcases hr with rfl | rfl | rfl <;> rfl
      refine ⟨hu, ?_⟩
      intro f r hf hr
      simp only [DTree.body] at hf ⊢
      have := List.length_pos_iff.mpr hs.1
      obtain ⟨f, rfl⟩ : ∃ g, f = g + 1 := ⟨f - 1, by omega⟩
      have e := hu f r (by simp only [DTree.unit]; omega) hr.unit
      simp only [DTree.unit] at e
      rw [parseBody, e]
      have e2 := reads_tail s hs [] (by simp) f r (by simp [tailText]; omega) hr
      simp only [tailText, List.nil_append] at e2
      simp [e2]
  | hn i tok ts ih =>
    cases h with
    | node hw hlen hk =>
      have iu : ∀ t ∈ ts, ReadsUnit t := fun t ht => (ih t ht (hk t ht)).1
      have ib : ∀ t ∈ ts, ReadsBody t := fun t ht => (ih t ht (hk t ht)).2
      cases i with
      | false =>
        have hne : ts ≠ [] := by rintro rfl; simp at hlen
        have hu : ReadsUnit (.node false tok ts) := by
          intro f r hf hr
          simp only [DTree.unit, bodies_eq, List.length_append, List.length_cons,
            List.append_assoc, List.cons_append] at hf ⊢
          have := List.length_pos_iff.mpr hw.1
          obtain ⟨f, rfl⟩ : ∃ g, f = g + 1 := ⟨f - 1, by omega⟩
          rw [parseUnit_word hw f (by rintro c r' e; simp at e; rw [← e.1]; decide)]
          simp only [List.nil_append]
          rw [reads_args ts hne ib f r (by omega)]
          rfl
        refine ⟨hu, ?_⟩
        intro f r hf hr
        have eb : (DTree.node false tok ts).body = (DTree.node false tok ts).unit := by
          simp only [DTree.unit, DTree.body]
        rw [eb] at hf ⊢
        have hl : 1 ≤ (DTree.node false tok ts).unit.length := by simp [DTree.unit]; omega
        obtain ⟨f, rfl⟩ : ∃ g, f = g + 1 := ⟨f - 1, by omega⟩
        have e2 := reads_tail tok hw [] (by simp) f r (by simp [tailText]; omega) hr
        simp only [tailText, List.nil_append] at e2
        rw [parseBody, hu f r (by omega) hr.unit]
        simp [e2]
      | true =>
        have hb : ReadsBody (.node true tok ts) := by
          intro f r hf hr
          simp only [DTree.body, units_eq] at hf ⊢
          match ts, hlen with
          | t1 :: t2 :: ts, _ =>
            rw [joinWith_tail] at hf ⊢
            simp only [List.length_append, List.append_assoc] at hf ⊢
            have h1 : 1 ≤ t1.unit.length := (unit_ne_nil t1 (hk t1 (by simp))).1
            obtain ⟨f, rfl⟩ : ∃ g, f = g + 1 := ⟨f - 1, by omega⟩
            rw [parseBody, iu t1 (by simp) f _ (by omega) (afterUnit_tail tok _ hr.unit)]
            simp only
            rw [reads_tail tok hw (t2 :: ts) (fun t ht => iu t (by simp [List.mem_cons.mp ht])) f r
              (by omega) hr]
            simp [Function.comp_def]
          | [], hl => simp at hl
          | [_], hl => simp at hl
        refine ⟨?_, hb⟩
        intro f r hf hr
        have e : (DTree.node true tok ts).unit = '(' :: (DTree.node true tok ts).body ++ [')'] := by
          simp only [DTree.unit, DTree.body]
        rw [e] at hf ⊢
        simp only [List.length_append, List.length_cons, List.length_nil] at hf
        obtain ⟨f, rfl⟩ : ∃ g, f = g + 1 := ⟨f - 1, by omega⟩
        simp only [List.cons_append, List.append_assoc, List.nil_append]
        rw [parseUnit, hb f (')' :: r) (by omega) (by simp [AfterBody])]
        rfl

theorem parseFormula_body (t : DTree) (h : t.Labelled) : parseFormula t.body = some t := by
  have := (reads t h).2 (3 * t.body.length + 1) [] (Nat.le_refl _) trivial
  simp only [List.append_nil] at this
  rw [parseFormula, this]

end SR
