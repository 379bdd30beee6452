import Verif.Model.Lookup
import Verif.Model.Simplify
import Mathlib.Data.List.Forall2
import Mathlib.Data.List.Nodup
/-
C18: operator lookup by token.  C52: operator sets built from names, and sampling from them.
-/
namespace SR

/-- The operator belongs to the set. -/
def OpTable.Has (S : OpTable) (op : OpId) : Prop :=
  1 ≤ op.arity ∧ op.arity ≤ S.maxArity ∧ op.id ∈ S.opsWithArity op.arity

/-- A token (already trimmed) denotes an operator: it is the name up to ASCII case, the display text, or
the infix text. -/
def OpTable.Denotes (S : OpTable) (t : List Char) (op : OpId) : Prop :=
  t.map Char.toLower = (S.metas.name op.arity op.id).map Char.toLower ∨
    t = S.metas.display op.arity op.id ∨ S.metas.infix_ op.arity op.id = some t

theorem matchesToken_iff (S : OpTable) (ws : Char → Bool) (op : OpId) (tok : List Char) :
    S.matchesToken ws op tok = true ↔ S.Denotes (trimWs ws tok) op := by
  simp only [OpTable.matchesToken, OpTable.Denotes, eqIgnoreAsciiCase, Bool.or_eq_true, beq_iff_eq,
    or_assoc]
  refine or_congr Iff.rfl (or_congr Iff.rfl ?_)
  cases S.metas.infix_ op.arity op.id with
  | none => simp
  | some s => simp only [beq_iff_eq, Option.some.injEq]; exact eq_comm

theorem mem_allOps (S : OpTable) (op : OpId) : op ∈ S.allOps ↔ S.Has op := by
  obtain ⟨a, i⟩ := op
  simp only [OpTable.allOps, OpTable.Has, List.mem_flatMap, List.mem_range'_1, List.mem_map,
    OpId.mk.injEq]
  constructor
  · rintro ⟨a', ⟨h1, h2⟩, i', hi, rfl, rfl⟩
    exact ⟨h1, by omega, hi⟩
  · rintro ⟨h1, h2, h3⟩
    exact ⟨a, ⟨h1, by omega⟩, i, h3, rfl, rfl⟩

theorem nodup_allOps (S : OpTable) (h : ∀ a, (S.opsWithArity a).Nodup) : S.allOps.Nodup := by
  rw [OpTable.allOps, List.nodup_flatMap]
  refine ⟨fun a _ => (h a).map (fun i j e => by simpa using e), ?_⟩
  refine List.Pairwise.imp_of_mem ?_ (List.nodup_range' (s := 1) (n := S.maxArity))
  intro a b _ _ hab
  simp only [Function.onFun, List.disjoint_left, List.mem_map]
  rintro x ⟨i, _, rfl⟩ ⟨j, _, e⟩
  exact hab (by simpa using (congrArg OpId.arity e).symm)

theorem le_sum_of_mem {l : List Nat} {x : Nat} (h : x ∈ l) : x ≤ l.sum := by
  induction l with
  | nil => simp at h
  | cons a l ih =>
    rw [List.sum_cons]
    rcases List.mem_cons.mp h with rfl | h
    · omega
    · have := ih h; omega

theorem takeWhile_all {p : Char → Bool} {l : List Char} {c : Char} (h : c ∈ l.takeWhile p) : p c := by
  induction l with
  | nil => simp at h
  | cons a l ih =>
    rw [List.takeWhile_cons] at h
    split at h
    · rcases List.mem_cons.mp h with rfl | h
      · assumption
      · exact ih h
    · simp at h

/-- Trimming removes exactly the leading and trailing white space. -/
theorem C18_trim (ws : Char → Bool) (s : List Char) :
    ∃ a b, s = a ++ trimWs ws s ++ b ∧ (∀ c ∈ a, ws c) ∧ (∀ c ∈ b, ws c) ∧
      (∀ c, (trimWs ws s).head? = some c → ws c = false) ∧
      (∀ c, (trimWs ws s).getLast? = some c → ws c = false) := by
  have hd : ∀ (l : List Char) c, (l.dropWhile ws).head? = some c → ws c = false := by
    intro l c hc
    have := List.head?_dropWhile_not ws l
    rw [hc] at this; simpa using this
  refine ⟨s.takeWhile ws, ((s.dropWhile ws).reverse.takeWhile ws).reverse, ?_, ?_, ?_, ?_, ?_⟩
  · rw [trimWs, List.append_assoc, ← List.reverse_append, List.takeWhile_append_dropWhile,
      List.reverse_reverse, List.takeWhile_append_dropWhile]
  · exact fun c hc => (takeWhile_all hc)
  · exact fun c hc => (takeWhile_all (List.mem_reverse.mp hc))
  · intro c hc
    -- the head of the trimmed text is the head of the left-trimmed text
    have hsplit : s.dropWhile ws = trimWs ws s ++ ((s.dropWhile ws).reverse.takeWhile ws).reverse := by
      rw [trimWs, ← List.reverse_append, List.takeWhile_append_dropWhile, List.reverse_reverse]
    apply hd s c
    rw [hsplit, List.head?_append, hc]; rfl
  · intro c hc
    rw [trimWs, List.getLast?_reverse] at hc
    exact hd _ c hc

section
variable (S : OpTable) (ws : Char → Bool) (tok : List Char)

theorem lookupResult_spec (all : List OpId) (hn : all.Nodup) (has : OpId → Prop)
    (hm : ∀ op, op ∈ all ↔ has op) :
    let r := lookupResult S ws tok (all.filter fun op => S.matchesToken ws op tok)
    (∀ op, r = .ok op ↔ (has op ∧ S.Denotes (trimWs ws tok) op ∧
      ∀ op', has op' → S.Denotes (trimWs ws tok) op' → op' = op)) ∧
    (r = .error (.unknown (trimWs ws tok)) ↔ ∀ op, has op → ¬ S.Denotes (trimWs ws tok) op) ∧
    ((∃ t cands, r = .error (.ambiguous t cands)) ↔ ∃ op op', op ≠ op' ∧ has op ∧ has op' ∧
      S.Denotes (trimWs ws tok) op ∧ S.Denotes (trimWs ws tok) op') ∧
    (∀ t cands, r = .error (.ambiguous t cands) → t = trimWs ws tok ∧ ∀ n, n ∈ cands ↔
      ∃ op, has op ∧ S.Denotes (trimWs ws tok) op ∧ n = S.metas.name op.arity op.id) := by
  have hmem : ∀ op, op ∈ all.filter (fun op => S.matchesToken ws op tok) ↔
      has op ∧ S.Denotes (trimWs ws tok) op := by
    intro op; rw [List.mem_filter, hm, matchesToken_iff]
  have hnd := hn.filter (fun op => S.matchesToken ws op tok)
  generalize all.filter (fun op => S.matchesToken ws op tok) = ms at *
  match ms, hmem, hnd with
  | [], hmem, hnd =>
    have hr : lookupResult S ws tok [] = .error (.unknown (trimWs ws tok)) := rfl
    simp only [hr]
    have hno : ∀ op, has op → ¬ S.Denotes (trimWs ws tok) op := fun op h1 h2 => by
      have := (hmem op).mpr ⟨h1, h2⟩; simp at this
    refine ⟨fun op => ⟨fun h => by simp at h, fun h => (hno op h.1 h.2.1).elim⟩,
      ⟨fun _ => hno, fun _ => trivial⟩, ⟨fun ⟨t, c, h⟩ => by simp at h, ?_⟩, by simp⟩
    rintro ⟨op, _, _, h1, _, h2, _⟩
    exact (hno op h1 h2).elim
  | [s], hmem, hnd =>
    have hr : lookupResult S ws tok [s] = .ok s := rfl
    simp only [hr]
    have hs := (hmem s).mp (by simp)
    have hu : ∀ op, has op → S.Denotes (trimWs ws tok) op → op = s := fun op h1 h2 => by
      have := (hmem op).mpr ⟨h1, h2⟩; simpa using this
    refine ⟨fun op => ⟨fun h => ?_, fun h => ?_⟩, ⟨fun h => by simp at h, fun h => (h s hs.1 hs.2).elim⟩,
      ⟨fun ⟨t, c, h⟩ => by simp at h, ?_⟩, by simp⟩
    · simp only [Except.ok.injEq] at h; subst h; exact ⟨hs.1, hs.2, hu⟩
    · rw [hu op h.1 h.2.1]
    · rintro ⟨op, op', hne, h1, h1', h2, h2'⟩
      exact (hne ((hu op h1 h2).trans (hu op' h1' h2').symm)).elim
  | s :: s' :: ms', hmem, hnd =>
    have hr : lookupResult S ws tok (s :: s' :: ms') = .error (.ambiguous (trimWs ws tok)
      ((s :: s' :: ms').map fun op => S.metas.name op.arity op.id)) := rfl
    simp only [hr]
    have hs := (hmem s).mp (by simp)
    have hs' := (hmem s').mp (by simp)
    have hne : s ≠ s' := by
      intro e; subst e; simp at hnd
    refine ⟨fun op => ⟨fun h => by simp at h, fun h => ?_⟩, ⟨fun h => by simp at h, fun h => ?_⟩,
      ⟨fun _ => ⟨s, s', hne, hs.1, hs'.1, hs.2, hs'.2⟩, fun _ => ⟨_, _, rfl⟩⟩, ?_⟩
    · exact (hne ((h.2.2 s hs.1 hs.2).trans (h.2.2 s' hs'.1 hs'.2).symm)).elim
    · exact (h s hs.1 hs.2).elim
    · intro t cands h
      simp only [Except.error.injEq, LookupError.ambiguous.injEq] at h
      refine ⟨h.1.symm, fun n => ?_⟩
      rw [← h.2, List.mem_map]
      constructor
      · rintro ⟨op, ho, rfl⟩; exact ⟨op, ((hmem op).mp ho).1, ((hmem op).mp ho).2, rfl⟩
      · rintro ⟨op, h1, h2, rfl⟩; exact ⟨op, (hmem op).mpr ⟨h1, h2⟩, rfl⟩

/-- C18: for every operator set (without repeated ids) and every token, `lookup` returns an operator
exactly when it is the only operator of the set the trimmed token denotes; it reports *unknown* (with the
trimmed token) exactly when the token denotes none, and *ambiguous* exactly when it denotes two different
ones, listing exactly their names. -/
theorem C18_lookup (h : ∀ a, (S.opsWithArity a).Nodup) :
    (∀ op, S.lookup ws tok = .ok op ↔ (S.Has op ∧ S.Denotes (trimWs ws tok) op ∧
      ∀ op', S.Has op' → S.Denotes (trimWs ws tok) op' → op' = op)) ∧
    (S.lookup ws tok = .error (.unknown (trimWs ws tok)) ↔
      ∀ op, S.Has op → ¬ S.Denotes (trimWs ws tok) op) ∧
    ((∃ t cands, S.lookup ws tok = .error (.ambiguous t cands)) ↔ ∃ op op', op ≠ op' ∧ S.Has op ∧
      S.Has op' ∧ S.Denotes (trimWs ws tok) op ∧ S.Denotes (trimWs ws tok) op') ∧
    (∀ t cands, S.lookup ws tok = .error (.ambiguous t cands) → t = trimWs ws tok ∧ ∀ n, n ∈ cands ↔
      ∃ op, S.Has op ∧ S.Denotes (trimWs ws tok) op ∧ n = S.metas.name op.arity op.id) :=
  lookupResult_spec S ws tok S.allOps (nodup_allOps S h) S.Has (mem_allOps S)

/-- C18, with an arity: the same, only operators of that arity being considered. -/
theorem C18_lookup_with_arity (a : Nat) (h : (S.opsWithArity a).Nodup) :
    let has (op : OpId) : Prop := op.arity = a ∧ op.id ∈ S.opsWithArity a
    (∀ op, S.lookupWithArity ws tok a = .ok op ↔ (has op ∧ S.Denotes (trimWs ws tok) op ∧
      ∀ op', has op' → S.Denotes (trimWs ws tok) op' → op' = op)) ∧
    (S.lookupWithArity ws tok a = .error (.unknown (trimWs ws tok)) ↔
      ∀ op, has op → ¬ S.Denotes (trimWs ws tok) op) ∧
    ((∃ t cands, S.lookupWithArity ws tok a = .error (.ambiguous t cands)) ↔ ∃ op op', op ≠ op' ∧
      has op ∧ has op' ∧ S.Denotes (trimWs ws tok) op ∧ S.Denotes (trimWs ws tok) op') ∧
    (∀ t cands, S.lookupWithArity ws tok a = .error (.ambiguous t cands) → t = trimWs ws tok ∧
      ∀ n, n ∈ cands ↔ ∃ op, has op ∧ S.Denotes (trimWs ws tok) op ∧
        n = S.metas.name op.arity op.id) := by
  intro has
  refine lookupResult_spec S ws tok ((S.opsWithArity a).map fun i => (⟨a, i⟩ : OpId))
    (h.map fun i j e => by simpa using e) has fun op => ?_
  obtain ⟨a', i⟩ := op
  simp only [List.mem_map, OpId.mk.injEq, has]
  constructor
  · rintro ⟨j, hj, rfl, rfl⟩; exact ⟨rfl, hj⟩
  · rintro ⟨rfl, hi⟩; exact ⟨i, hi, rfl, rfl⟩

end

/-- The preset operator set: `-` is ambiguous without an arity and resolves with one; names resolve
whatever their case and surrounding blanks; these are the ids `simplify` uses (`presetCfg`). -/
example : presetTable.lookup Char.isWhitespace "-".toList
      = .error (.ambiguous "-".toList ["neg".toList, "sub".toList]) ∧
    presetTable.lookupWithArity Char.isWhitespace "-".toList 2 = .ok ⟨2, 7⟩ ∧
    presetTable.lookupWithArity Char.isWhitespace "+".toList 2 = .ok ⟨2, 0⟩ ∧
    presetTable.lookupWithArity Char.isWhitespace "*".toList 2 = .ok ⟨2, 5⟩ ∧
    presetTable.lookup Char.isWhitespace " SIN ".toList = .ok ⟨1, 25⟩ ∧
    presetTable.lookup Char.isWhitespace "foo".toList = .error (.unknown "foo".toList) := by
  decide +kernel

example : ∀ a, (presetTable.opsWithArity a).Nodup := fun a => List.nodup_range

/-! ## C52 -/

/-- The operator set holding exactly the given operators, grouped by arity, in order. -/
def Operators.of (D : Nat) (ops : List OpId) : Operators :=
  ⟨D, (List.range D).map fun i => ops.filter fun op => op.arity = i + 1⟩

theorem Operators.of_nil (D : Nat) : Operators.new D = Operators.of D [] := by
  simp [Operators.new, Operators.of, List.map_const']

theorem Operators.push_of (D : Nat) (ops : List OpId) (op : OpId) (h1 : 1 ≤ op.arity)
    (h2 : op.arity ≤ D) : (Operators.of D ops).push op = some (Operators.of D (ops ++ [op])) := by
  have hget : (Operators.of D ops).byArity[op.arity - 1]?
      = some (ops.filter fun p => p.arity = op.arity) := by
    simp only [Operators.of, List.getElem?_map, List.getElem?_range (show op.arity - 1 < D by omega),
      Option.map_some, Nat.sub_add_cancel h1]
  rw [Operators.push, if_pos ⟨h1, h2⟩, hget]
  simp only [Operators.of, Option.some.injEq, Operators.mk.injEq, true_and]
  refine List.ext_getElem (by simp) fun i hi hi' => ?_
  simp only [List.length_set, List.length_map, List.length_range] at hi
  rw [List.getElem_set]
  simp only [List.getElem_map, List.getElem_range, List.filter_append]
  by_cases e : op.arity - 1 = i
  · have : op.arity = i + 1 := by omega
    simp [e, this]
  · have : op.arity ≠ i + 1 := by omega
    simp [e, this]

/-- How a token is resolved: by lookup, with the arity of its list if it has one. -/
def Resolves (S : OpTable) (ws : Char → Bool) (item : List Char × Option Nat) (op : OpId) : Prop :=
  match item.2 with
  | none => S.lookup ws item.1 = .ok op
  | some a => S.lookupWithArity ws item.1 a = .ok op

theorem resolves_arity (S : OpTable) (ws : Char → Bool) (item : List Char × Option Nat) (op : OpId)
    (hpos : ∀ a, item.2 = some a → 1 ≤ a) (h : Resolves S ws item op) :
    1 ≤ op.arity ∧ (item.2.isSome && item.2 ≠ some op.arity) = false := by
  obtain ⟨tok, e⟩ := item
  cases e with
  | none =>
    simp only [Resolves, OpTable.lookup] at h
    have : op ∈ S.lookupAll ws tok := by
      generalize S.lookupAll ws tok = ms at h
      match ms with
      | [] => simp [lookupResult] at h
      | [s] => simp [lookupResult] at h; simp [h]
      | _ :: _ :: _ => simp [lookupResult] at h
    rw [OpTable.lookupAll, List.mem_filter, mem_allOps] at this
    exact ⟨this.1.1, by simp⟩
  | some a =>
    simp only [Resolves, OpTable.lookupWithArity] at h
    have : op ∈ ((S.opsWithArity a).map fun i => (⟨a, i⟩ : OpId)).filter
        fun op => S.matchesToken ws op tok := by
      generalize ((S.opsWithArity a).map fun i => (⟨a, i⟩ : OpId)).filter
        (fun op => S.matchesToken ws op tok) = ms at h
      match ms with
      | [] => simp [lookupResult] at h
      | [s] => simp [lookupResult] at h; simp [h]
      | _ :: _ :: _ => simp [lookupResult] at h
    rw [List.mem_filter, List.mem_map] at this
    obtain ⟨⟨i, _, rfl⟩, _⟩ := this
    exact ⟨hpos a rfl, by simp⟩

theorem selectLoop_iff (S : OpTable) (ws : Char → Bool) (D : Nat)
    (items : List (List Char × Option Nat)) (hpos : ∀ it ∈ items, ∀ a, it.2 = some a → 1 ≤ a)
    (done : List OpId) (hdone : done.Nodup) :
    ∃ r, selectLoop S ws D items (Operators.of D done, done.reverse) = some r ∧
      ∀ s, r = .ok s ↔ ∃ ops, List.Forall₂ (Resolves S ws) items ops ∧ (∀ op ∈ ops, op.arity ≤ D) ∧
        (done ++ ops).Nodup ∧ s = Operators.of D (done ++ ops) := by
  induction items generalizing done with
  | nil =>
    refine ⟨.ok (Operators.of D done), rfl, fun s => ?_⟩
    constructor
    · intro h; simp only [Except.ok.injEq] at h
      exact ⟨[], .nil, by simp, by simpa using hdone, by simp [← h]⟩
    · rintro ⟨ops, hf, _, _, rfl⟩
      cases hf; simp
  | cons it items ih =>
    obtain ⟨tok, e⟩ := it
    have hloop : ∀ st, ∃ res, (∀ op, Resolves S ws (tok, e) op ↔ res = .ok op) ∧
        selectLoop S ws D ((tok, e) :: items) st = (match selectStep D tok e res st with
          | none => none
          | some (.error e) => some (.error e)
          | some (.ok st') => selectLoop S ws D items st') := by
      intro st
      cases e with
      | none => exact ⟨S.lookup ws tok, fun _ => Iff.rfl, rfl⟩
      | some a => exact ⟨S.lookupWithArity ws tok a, fun _ => Iff.rfl, rfl⟩
    obtain ⟨res, hR, hl⟩ := hloop (Operators.of D done, done.reverse)
    rw [hl]
    clear hl hloop
    cases hr : res with
    | error er =>
      refine ⟨.error (.lookup er), rfl, fun s => ⟨fun h => by simp at h, ?_⟩⟩
      rintro ⟨ops, hf, _⟩
      cases hf with
      | cons h1 _ => rw [hR, hr] at h1; simp at h1
    | ok op =>
      have ha := resolves_arity S ws (tok, e) op (hpos _ (by simp)) ((hR op).mpr hr)
      have huniq : ∀ op', Resolves S ws (tok, e) op' → op' = op := by
        intro op' h; rw [hR, hr] at h; simpa using h.symm
      simp only [selectStep]
      rw [if_neg (by simpa using ha.2)]
      by_cases hD : D < op.arity
      · rw [if_pos hD]
        refine ⟨_, rfl, fun s => ⟨fun h => by simp at h, ?_⟩⟩
        rintro ⟨ops, hf, hle, _⟩
        cases hf with
        | cons h1 _ =>
          have := hle _ List.mem_cons_self
          rw [huniq _ h1] at this; omega
      · rw [if_neg hD]
        by_cases hdup : op ∈ done.reverse
        · rw [if_pos hdup]
          refine ⟨_, rfl, fun s => ⟨fun h => by simp at h, ?_⟩⟩
          rintro ⟨ops, hf, hle, hnd, _⟩
          cases hf with
          | cons h1 _ =>
            rw [huniq _ h1] at hnd
            rw [List.nodup_append] at hnd
            exact (hnd.2.2 op (by simpa using hdup) op (by simp) rfl).elim
        · rw [if_neg hdup, Operators.push_of D done op ha.1 (by omega)]
          simp only
          have hnd : (done ++ [op]).Nodup := by
            rw [List.nodup_append]
            refine ⟨hdone, by simp, ?_⟩
            intro a ha' b hb
            simp at hb; subst hb
            rintro rfl
            exact hdup (by simpa using ha')
          obtain ⟨r, er, hiff⟩ := ih (fun it hit => hpos it (by simp [hit])) (done ++ [op]) hnd
          rw [List.reverse_append] at er
          refine ⟨r, er, fun s => ?_⟩
          rw [hiff]
          constructor
          · rintro ⟨ops, hf, hle, hn, rfl⟩
            refine ⟨op :: ops, .cons ((hR op).mpr hr) hf, ?_, by simpa using hn, by simp⟩
            intro o ho
            rcases List.mem_cons.mp ho with rfl | ho
            · omega
            · exact hle o ho
          · rintro ⟨ops, hf, hle, hn, rfl⟩
            cases hf with
            | cons h1 hf =>
              have := huniq _ h1; subst this
              exact ⟨_, hf, fun o ho => hle o (by simp [ho]), by simpa using hn, by simp⟩

/-- C52: building an operator set from a list of names never panics, and succeeds exactly when the list
is not empty, every name resolves (uniquely, see C18) to an operator of arity at most `D`, and no
operator is named twice; the result then holds exactly those operators, grouped by arity. -/
theorem C52_from_names (S : OpTable) (ws : Char → Bool) (D : Nat) (names : List (List Char)) :
    ∃ r, fromNames S ws D names = some r ∧ ∀ s, r = .ok s ↔
      (names ≠ [] ∧ ∃ ops, List.Forall₂ (fun n op => S.lookup ws n = .ok op) names ops ∧
        (∀ op ∈ ops, op.arity ≤ D) ∧ ops.Nodup ∧ s = Operators.of D ops) := by
  unfold fromNames
  cases names with
  | nil => exact ⟨_, rfl, by simp⟩
  | cons n ns =>
    simp only [List.isEmpty_cons, Bool.false_eq_true, if_false]
    rw [Operators.of_nil]
    obtain ⟨r, er, hiff⟩ := selectLoop_iff S ws D ((n :: ns).map fun t => (t, none)) (by simp) []
      List.nodup_nil
    refine ⟨r, er, fun s => ?_⟩
    rw [hiff]
    simp only [List.nil_append, ne_eq, reduceCtorEq, not_false_eq_true, true_and,
      List.forall₂_map_left_iff]
    rfl

/-- C52: the same for separate unary, binary and ternary lists, each resolved with its own arity. -/
theorem C52_from_names_by_arity (S : OpTable) (ws : Char → Bool) (D : Nat)
    (unary binary ternary : List (List Char)) :
    ∃ r, fromNamesByArity S ws D unary binary ternary = some r ∧ ∀ s, r = .ok s ↔
      (¬(unary = [] ∧ binary = [] ∧ ternary = []) ∧ ∃ ops,
        List.Forall₂ (fun (n : List Char × Nat) op => S.lookupWithArity ws n.1 n.2 = .ok op)
          (unary.map (·, 1) ++ binary.map (·, 2) ++ ternary.map (·, 3)) ops ∧
        (∀ op ∈ ops, op.arity ≤ D) ∧ ops.Nodup ∧ s = Operators.of D ops) := by
  unfold fromNamesByArity
  by_cases hemp : unary = [] ∧ binary = [] ∧ ternary = []
  · obtain ⟨rfl, rfl, rfl⟩ := hemp
    exact ⟨_, rfl, by simp⟩
  · rw [if_neg (by
      simp only [Bool.and_eq_true, List.isEmpty_iff]
      rintro ⟨⟨rfl, rfl⟩, rfl⟩; exact hemp ⟨rfl, rfl, rfl⟩), Operators.of_nil]
    obtain ⟨r, er, hiff⟩ := selectLoop_iff S ws D (unary.map (fun t => (t, some 1)) ++
      binary.map (fun t => (t, some 2)) ++ ternary.map (fun t => (t, some 3))) (by
        intro it hit a ha
        simp only [List.mem_append, List.mem_map] at hit
        rcases hit with (⟨t, _, rfl⟩ | ⟨t, _, rfl⟩) | ⟨t, _, rfl⟩ <;> simp at ha <;> omega) []
      List.nodup_nil
    refine ⟨r, er, fun s => ?_⟩
    rw [hiff]
    have e : (unary.map (fun t => (t, some 1)) ++ binary.map (fun t => (t, some 2)) ++
        ternary.map (fun t => (t, some 3)) : List (List Char × Option Nat))
      = (unary.map (·, 1) ++ binary.map (·, 2) ++ ternary.map (·, 3)).map
        fun n : List Char × Nat => (n.1, some n.2) := by
      simp [List.map_append, Function.comp_def]
    rw [e]
    simp only [List.nil_append, hemp, not_false_eq_true, true_and, List.forall₂_map_left_iff]
    rfl

/-- The operators of arity `a` held by a set, as counted by the code. -/
theorem nops_of (D : Nat) (ops : List OpId) (a : Nat) (h1 : 1 ≤ a) (h2 : a ≤ D) :
    (Operators.of D ops).nops a = (ops.filter fun op => op.arity = a).length := by
  simp only [Operators.nops, Operators.of, List.getElem?_map,
    List.getElem?_range (show a - 1 < D by omega), Option.map_some, Option.getD_some,
    Nat.sub_add_cancel h1]

theorem sampleArityLoop_lt (nops : Nat → Nat) (as : List Nat) (r : Nat)
    (h : r < (as.map nops).sum) : ∃ a ∈ as, sampleArityLoop nops as r = some a ∧ 0 < nops a := by
  induction as generalizing r with
  | nil => simp at h
  | cons a as ih =>
    rw [sampleArityLoop]
    split
    · exact ⟨a, by simp, rfl, by omega⟩
    · simp only [List.map_cons, List.sum_cons] at h
      obtain ⟨b, hb, e, hp⟩ := ih (r - nops a) (by omega)
      exact ⟨b, by simp [hb], e, hp⟩

/-- C52: sampling an arity never panics when an operator of arity at most `maxArity` exists, and returns
an arity within the bound for which there is an operator. -/
theorem C52_sample_arity {F : Type} (D m : Nat) (ops : List OpId)
    (hex : ∃ op ∈ ops, 1 ≤ op.arity ∧ op.arity ≤ m ∧ op.arity ≤ D) :
    Rand.Total ((Operators.of D ops).sampleArity m : Rand F Nat)
      (fun a => a ≤ m ∧ ∃ op ∈ ops, op.arity = a) := by
  have hpos : 0 < (Operators.of D ops).totalOpsUpTo m := by
    obtain ⟨op, hop, h1, h2, h3⟩ := hex
    rw [Operators.totalOpsUpTo]
    have hm : op.arity ∈ List.range' 1 (min m (Operators.of D ops).D) := by
      rw [List.mem_range'_1]; simp only [Operators.of]; omega
    have hn : 0 < (Operators.of D ops).nops op.arity := by
      rw [nops_of D ops _ h1 h3, List.length_pos_iff_exists_mem]
      exact ⟨op, by simp [hop]⟩
    have := le_sum_of_mem (l := (List.range' 1 (min m (Operators.of D ops).D)).map
      (Operators.of D ops).nops) (List.mem_map.mpr ⟨_, hm, rfl⟩)
    omega
  unfold Operators.sampleArity
  refine Rand.Total.bind (Rand.Total.below hpos) fun r hr => Rand.Total.lift ?_
  obtain ⟨a, ha, e, hp⟩ := sampleArityLoop_lt _ _ r hr
  refine ⟨a, e, ?_⟩
  rw [List.mem_range'_1] at ha
  simp only [Operators.of] at ha
  rw [nops_of D ops a (by omega) (by omega), List.length_pos_iff_exists_mem] at hp
  obtain ⟨op, hop⟩ := hp
  simp only [List.mem_filter, decide_eq_true_eq] at hop
  exact ⟨by omega, op, hop.1, hop.2⟩

/-- C52: sampling an operator of an arity for which there is one returns an operator of the set with
that arity. -/
theorem C52_sample_op {F : Type} (D a : Nat) (ops : List OpId) (h1 : 1 ≤ a) (h2 : a ≤ D)
    (hex : ∃ op ∈ ops, op.arity = a) :
    Rand.Total ((Operators.of D ops).sampleOp a : Rand F OpId) (fun op => op ∈ ops ∧ op.arity = a) := by
  obtain ⟨op, hop, ha⟩ := hex
  have hget : (Operators.of D ops).byArity[a - 1]? = some (ops.filter fun p => p.arity = a) := by
    simp only [Operators.of, List.getElem?_map, List.getElem?_range (show a - 1 < D by omega),
      Option.map_some, Nat.sub_add_cancel h1]
  have hpos : 0 < (ops.filter fun p => p.arity = a).length := by
    rw [List.length_pos_iff_exists_mem]; exact ⟨op, by simp [hop, ha]⟩
  unfold Operators.sampleOp
  rw [hget]
  refine Rand.Total.bind (Rand.Total.below hpos) fun i hi => Rand.Total.lift ?_
  refine ⟨_, List.getElem?_eq_getElem hi, ?_⟩
  have := List.mem_filter.mp (List.getElem_mem hi)
  simpa only [decide_eq_true_eq] using this

theorem sampleArityLoop_hit (nops : Nat → Nat) (as : List Nat) (a j : Nat) (ha : a ∈ as)
    (hnd : as.Nodup) (hj : j < nops a) :
    ∃ r, r < (as.map nops).sum ∧ sampleArityLoop nops as r = some a := by
  induction as with
  | nil => simp at ha
  | cons b as ih =>
    simp only [List.map_cons, List.sum_cons]
    by_cases e : a = b
    · subst e
      exact ⟨j, by omega, by rw [sampleArityLoop, if_pos hj]⟩
    · obtain ⟨r, hr, hh⟩ := ih (by simpa [e] using ha) (List.nodup_cons.mp hnd).2
      refine ⟨nops b + r, by omega, ?_⟩
      rw [sampleArityLoop, if_neg (by omega), Nat.add_sub_cancel_left, hh]

/-- C52: every operator of the set is drawn by some random stream (arity first, then operator). -/
theorem C52_every_op_reachable {F : Type} (D m : Nat) (ops : List OpId) (op : OpId) (hop : op ∈ ops)
    (h1 : 1 ≤ op.arity) (h2 : op.arity ≤ D) (h3 : op.arity ≤ m) (g : Rng F) :
    ∃ g' : Rng F, ((do let a ← (Operators.of D ops).sampleArity m
                       (Operators.of D ops).sampleOp a) : Rand F OpId) g' = some (op, g) := by
  have hf : op ∈ ops.filter fun p => p.arity = op.arity := by simp [hop]
  obtain ⟨i, hi, hie⟩ := List.getElem_of_mem hf
  have hm : op.arity ∈ List.range' 1 (min m (Operators.of D ops).D) := by
    rw [List.mem_range'_1]; simp only [Operators.of]; omega
  obtain ⟨r, hr, hh⟩ := sampleArityLoop_hit (Operators.of D ops).nops _ op.arity i hm
    List.nodup_range' (by rw [nops_of D ops _ h1 h2]; exact hi)
  refine ⟨Rand.consInt r (Rand.consInt i g), ?_⟩
  have hget : (Operators.of D ops).byArity[op.arity - 1]?
      = some (ops.filter fun p => p.arity = op.arity) := by
    simp only [Operators.of, List.getElem?_map, List.getElem?_range (show op.arity - 1 < D by omega),
      Option.map_some, Nat.sub_add_cancel h1]
  have e1 : (Operators.of D ops).sampleArity m (Rand.consInt r (Rand.consInt i g))
      = some (op.arity, Rand.consInt i g) := by
    simp only [Operators.sampleArity, Rand.run_bind, Operators.totalOpsUpTo]
    rw [Rand.below_cons hr]
    simp [Rand.lift, hh]
  have e2 : (Operators.of D ops).sampleOp op.arity (Rand.consInt i g) = some (op, g) := by
    simp only [Operators.sampleOp, hget, Rand.run_bind]
    rw [Rand.below_cons hi]
    simp only [Rand.lift, List.getElem?_eq_getElem hi, hie, Option.map_some]
  rw [Rand.run_bind, e1]
  exact e2

/-- C52: among the equally likely draws of `sample_arity`, exactly as many select arity `a` as there are
operators of arity `a`; with the uniform choice in `sample_op` every operator is equally likely. -/
theorem C52_sample_arity_counts (D m : Nat) (ops : List OpId) (a : Nat) (h1 : 1 ≤ a) (h2 : a ≤ D)
    (h3 : a ≤ m) :
    ((List.range ((Operators.of D ops).totalOpsUpTo m)).filter fun r =>
      sampleArityLoop (Operators.of D ops).nops (List.range' 1 (min m D)) r = some a).length
      = (ops.filter fun op => op.arity = a).length := by
  have key : ∀ (nops : Nat → Nat) (as : List Nat), as.Nodup →
      ((List.range (as.map nops).sum).filter fun r => sampleArityLoop nops as r = some a).length
        = if a ∈ as then nops a else 0 := by
    intro nops as hnd
    induction as with
    | nil => simp
    | cons b as ih =>
      have ih := ih (List.nodup_cons.mp hnd).2
      have hb := (List.nodup_cons.mp hnd).1
      rw [List.map_cons, List.sum_cons, List.range_add, List.filter_append, List.length_append,
        List.filter_map, List.length_map]
      have e2 : (List.range (as.map nops).sum).filter ((fun r => decide (sampleArityLoop nops (b :: as) r
          = some a)) ∘ fun x => nops b + x)
        = (List.range (as.map nops).sum).filter fun r => decide (sampleArityLoop nops as r = some a) := by
        apply List.filter_congr
        intro r _
        simp only [Function.comp_apply, sampleArityLoop, Nat.add_sub_cancel_left,
          if_neg (show ¬ nops b + r < nops b by omega)]
      rw [e2, ih]
      by_cases e : a = b
      · subst e
        have : (List.range (nops a)).filter (fun r => decide (sampleArityLoop nops (a :: as) r = some a))
            = List.range (nops a) := by
          rw [List.filter_eq_self]
          intro r hr
          simp [sampleArityLoop, List.mem_range.mp hr]
        rw [this]; simp [hb]
      · have : (List.range (nops b)).filter (fun r => decide (sampleArityLoop nops (b :: as) r = some a))
            = [] := by
          rw [List.filter_eq_nil_iff]
          intro r hr
          simp [sampleArityLoop, List.mem_range.mp hr, Ne.symm e]
        rw [this]; simp [e]
  have hk := key (Operators.of D ops).nops (List.range' 1 (min m D)) List.nodup_range'
  have hmem : a ∈ List.range' 1 (min m D) := by rw [List.mem_range'_1]; omega
  rw [if_pos hmem, nops_of D ops a h1 h2] at hk
  exact hk

/-- Non-vacuity: `["+", "sin", "max"]` builds a set for `D = 2`; `["+", "add"]` is rejected as a
duplicate, `["fma"]` because its arity exceeds 2. -/
example : fromNames presetTable Char.isWhitespace 2 ["+".toList, "sin".toList, "max".toList]
      = some (.ok (Operators.of 2 [⟨2, 0⟩, ⟨1, 25⟩, ⟨2, 3⟩])) ∧
    fromNames presetTable Char.isWhitespace 2 ["+".toList, "add".toList]
      = some (.error (.duplicate "add".toList)) ∧
    fromNames presetTable Char.isWhitespace 2 ["fma".toList]
      = some (.error (.arityTooLarge "fma".toList 3 2)) := by
  decide +kernel

end SR
