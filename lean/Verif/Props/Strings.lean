import Verif.Proofs.Strings
import Verif.Spec.Scalar
import Verif.Spec.Consts
/-
C17: printed formulas are balanced and unambiguous.
-/
namespace SR
variable {T : Type}

/-- The removal of matching outer parentheses: zero or more times, a pair enclosing a balanced text is
dropped. -/
inductive Strips : List Char → List Char → Prop where
  | refl (s : List Char) : Strips s s
  | step {m s : List Char} : Balanced m → Strips m s → Strips ('(' :: m ++ [')']) s

/-- C17: for every text whatsoever, stripping outer parentheses removes only matching pairs, and removes
all of them. -/
theorem C17_strip (s : List Char) :
    Strips s (stripOuterParens s) ∧
      ∀ m, Balanced m → stripOuterParens s ≠ '(' :: m ++ [')'] := by
  induction h : s.length using Nat.strongRecOn generalizing s with
  | ind n ih =>
    by_cases hc : ∃ m, s = '(' :: m ++ [')'] ∧ Balanced m
    · obtain ⟨m, rfl, hb⟩ := hc
      rw [strip_paren hb]
      have := ih m.length (by simp at h; omega) m rfl
      exact ⟨.step hb this.1, this.2⟩
    · have hn : stripOuterParens s = s := strip_not fun m e hb => hc ⟨m, e, hb⟩
      rw [hn]
      exact ⟨.refl s, fun m hb e => hc ⟨m, e, hb⟩⟩

/-- The text of an operator: its infix form if it has one (else its name), or its display name in pretty
mode. -/
def opText (m : Metas) (pretty : Bool) (a o : Nat) : List Char :=
  if pretty then m.display a o else (m.infix_ a o).getD (m.name a o)

/-- The variable names in force: those of the call, else those stored in the expression if any. -/
def namesInForce (optNames : Option (List (List Char))) (metaNames : List (List Char)) :
    Option (List (List Char)) :=
  match optNames with
  | some n => some n
  | none => if metaNames.isEmpty then none else some metaNames

/-- The labelled formula a tree denotes: the same shape, leaves and operators carrying their texts; an
operator is infix when it has an infix form and at least two arguments. -/
def formulaOf (m : Metas) (pretty : Bool) (varText constText : Nat → List Char) : Tree → DTree :=
  Tree.fold (fun f => .leaf (varText f)) (fun c => .leaf (constText c))
    (fun o ts => .node ((m.infix_ ts.length o).isSome && 1 < ts.length) (opText m pretty ts.length o) ts)

theorem formulaOf_labelled (m : Metas) (pretty : Bool) (varText constText : Nat → List Char) (t : Tree)
    (h : t.All (fun f => IsWord (varText f)) (fun c => IsWord (constText c))
      (fun o a => 1 ≤ a ∧ IsWord (opText m pretty a o))) :
    (formulaOf m pretty varText constText t).Labelled := by
  induction t using Tree.ind with
  | hv f => simp only [formulaOf, Tree.fold_var]; exact .leaf (by simpa using h)
  | hc c => simp only [formulaOf, Tree.fold_const]; exact .leaf (by simpa using h)
  | ho o ts ih =>
    rw [Tree.all_op] at h
    simp only [formulaOf, Tree.fold_op, List.length_map]
    refine .node h.1.2 ?_ ?_
    · simp only [List.length_map]
      split
      · next hi => simp only [Bool.and_eq_true, decide_eq_true_eq] at hi; omega
      · exact h.1.1
    · intro d hd
      obtain ⟨t, ht, rfl⟩ := List.mem_map.mp hd
      exact ih t ht (h.2 t ht)

theorem interp_unit (m : Metas) (pretty : Bool) (show_ : T → List Char)
    (names : Option (List (List Char))) (consts : List T) (t : Tree)
    (h : t.All (fun f => IsWord (defaultStringVariable f names))
      (fun c => IsWord ((consts[c]?.map show_).getD []))
      (fun o a => 1 ≤ a ∧ IsWord (opText m pretty a o))) :
    t.interp (stringLeaf show_ names consts)
      (fun n => match n with | .op a o => (a, o) | _ => (0, 0)) (stringBranch m pretty)
    = (formulaOf m pretty (fun f => defaultStringVariable f names)
        (fun c => (consts[c]?.map show_).getD []) t).unit := by
  induction t using Tree.ind with
  | hv f => simp [Tree.interp, formulaOf, stringLeaf, DTree.unit]
  | hc c => simp [Tree.interp, formulaOf, stringLeaf, DTree.unit]
  | ho o ts ih =>
    have hl := formulaOf_labelled m pretty (fun f => defaultStringVariable f names)
        (fun c => (consts[c]?.map show_).getD []) 
    rw [Tree.all_op] at h
    have e : ts.map (Tree.interp (stringLeaf show_ names consts)
      (fun n => match n with | .op a o => (a, o) | _ => (0, 0)) (stringBranch m pretty))
      = (ts.map (formulaOf m pretty (fun f => defaultStringVariable f names)
        (fun c => (consts[c]?.map show_).getD []))).map DTree.unit := by
      rw [List.map_map]
      exact List.map_congr_left fun t ht => ih t ht (h.2 t ht)
    have e2 : (ts.map (formulaOf m pretty (fun f => defaultStringVariable f names)
        (fun c => (consts[c]?.map show_).getD []))).map (stripOuterParens ∘ DTree.unit)
      = (ts.map (formulaOf m pretty (fun f => defaultStringVariable f names)
        (fun c => (consts[c]?.map show_).getD []))).map DTree.body := by
      apply List.map_congr_left
      intro d hd
      obtain ⟨t, ht, rfl⟩ := List.mem_map.mp hd
      exact strip_unit _ (hl t (h.2 t ht))
    simp only [Tree.interp, formulaOf, Tree.fold_op] at e e2 ⊢
    rw [e]
    simp only [List.length_map]
    cases hi : (m.infix_ ts.length o).isSome && decide (1 < ts.length) with
    | true =>
      simp only [stringBranch, hi, if_true, DTree.unit, units_eq]
      simp [opText]
    | false =>
      simp only [stringBranch, hi, DTree.unit, bodies_eq, List.map_map]
      simp only [List.map_map] at e2
      rw [← e2]
      simp [opText, Function.comp_def]

/-- C17: for every expression whose variable names, constants and operator texts are words (non-empty,
no parentheses, comma or space), the printed formula has balanced parentheses and reads back as exactly
the formula of the expression's tree. -/
theorem C17_parses_back (m : Metas) (show_ : T → List Char) (optNames : Option (List (List Char)))
    (metaNames : List (List Char)) (pretty : Bool) (t : Tree) (consts : List T)
    (hc : ∀ c ∈ t.constIdxs, c < consts.length)
    (h : t.All (fun f => IsWord (defaultStringVariable f (namesInForce optNames metaNames)))
      (fun c => IsWord ((consts[c]?.map show_).getD []))
      (fun o a => 1 ≤ a ∧ IsWord (opText m pretty a o))) :
    ∃ s, stringTree m show_ optNames metaNames pretty ⟨t.toPostfix, consts⟩ = some s ∧ Balanced s ∧
      parseFormula s = some (formulaOf m pretty
        (fun f => defaultStringVariable f (namesInForce optNames metaNames))
        (fun c => (consts[c]?.map show_).getD []) t) := by
  have hl := formulaOf_labelled m pretty _ _ t h
  have hi := interp_unit m pretty show_ _ consts t h
  refine ⟨_, ?_, (unit_balanced _ hl).2, parseFormula_body _ hl⟩
  have hall : (t.toPostfix.all fun n => match n with | .const c => decide (c < consts.length) | _ => true)
      = true := by
    rw [List.all_eq_true]
    intro n hn
    cases n with
    | const c =>
      have : c ∈ t.constIdxs := by
        rw [← constIdxs_toPostfix]
        exact List.mem_filterMap.mpr ⟨.const c, hn, rfl⟩
      simpa using hc c this
    | _ => rfl
  simp only [stringTree]
  refine (if_pos hall).trans ?_
  have := (treeMapreduce_iff (stringLeaf show_ (namesInForce optNames metaNames) consts)
    (fun n => match n with | .op a o => (a, o) | _ => (0, 0)) (stringBranch m pretty) t.toPostfix
    _).mpr ⟨t, rfl, rfl⟩
  have e : (treeMapreduce (stringLeaf show_ (namesInForce optNames metaNames) consts)
    (fun n => match n with | .op a o => (a, o) | _ => (0, 0)) (stringBranch m pretty)
    t.toPostfix).map stripOuterParens = some (formulaOf m pretty
        (fun f => defaultStringVariable f (namesInForce optNames metaNames))
        (fun c => (consts[c]?.map show_).getD []) t).body := by
    rw [this, hi, Option.map_some, strip_unit _ hl]
  exact e

/-- Default variable names `x0`, `x1`, ... are words. -/
theorem default_name_word (f : Nat) : IsWord (defaultStringVariable f none) := by
  refine ⟨by simp [defaultStringVariable], ?_⟩
  intro c hc
  simp only [defaultStringVariable, Option.bind_none, List.mem_cons] at hc
  rcases hc with rfl | hc
  · decide
  · have := Nat.isDigit_of_mem_toDigits (by decide) (by decide) hc
    simp only [isDelim, Bool.or_eq_false_iff, decide_eq_false_iff_not]
    refine ⟨⟨⟨?_, ?_⟩, ?_⟩, ?_⟩ <;> (rintro rfl; revert this; decide)

/-- Default variable names are distinct. -/
theorem default_name_injective (f g : Nat)
    (h : defaultStringVariable f none = defaultStringVariable g none) : f = g := by
  simp only [defaultStringVariable, Option.bind_none, List.cons.injEq, true_and] at h
  have := congrArg (Nat.ofDigitChars 10 · 0) h
  simpa using this

/-- C17: the printed text determines the expression.  If two expressions print to the same text, distinct
used variables have distinct texts, no variable prints like a constant, distinct constants print
differently and distinct used operators of the same arity print differently, then the two expressions
have the same value under every interpretation of the operators, on every input. -/
theorem C17_unambiguous [Scalar T] (m : Metas) (show_ : T → List Char)
    (optNames : Option (List (List Char))) (metaNames : List (List Char)) (pretty : Bool)
    (t1 t2 : Tree) (c1 c2 : List T) (s : List Char)
    (hc1 : ∀ c ∈ t1.constIdxs, c < c1.length) (hc2 : ∀ c ∈ t2.constIdxs, c < c2.length)
    (h1 : t1.All (fun f => IsWord (defaultStringVariable f (namesInForce optNames metaNames)))
      (fun c => IsWord ((c1[c]?.map show_).getD [])) (fun o a => 1 ≤ a ∧ IsWord (opText m pretty a o)))
    (h2 : t2.All (fun f => IsWord (defaultStringVariable f (namesInForce optNames metaNames)))
      (fun c => IsWord ((c2[c]?.map show_).getD [])) (fun o a => 1 ≤ a ∧ IsWord (opText m pretty a o)))
    (hvar : ∀ f ∈ t1.features, ∀ g ∈ t2.features,
      defaultStringVariable f (namesInForce optNames metaNames)
        = defaultStringVariable g (namesInForce optNames metaNames) → f = g)
    (hvc : ∀ f ∈ t1.features ++ t2.features, ∀ x ∈ c1 ++ c2,
      defaultStringVariable f (namesInForce optNames metaNames) ≠ show_ x)
    (hcc : ∀ x ∈ c1, ∀ y ∈ c2, show_ x = show_ y → x = y)
    (hop : ∀ o a o', (o, a) ∈ t1.opNodes → (o', a) ∈ t2.opNodes →
      opText m pretty a o = opText m pretty a o' → o = o')
    (e1 : stringTree m show_ optNames metaNames pretty ⟨t1.toPostfix, c1⟩ = some s)
    (e2 : stringTree m show_ optNames metaNames pretty ⟨t2.toPostfix, c2⟩ = some s)
    (ops : OpSet T) (feat : Nat → T) :
    t1.eval ops feat (constAt c1) = t2.eval ops feat (constAt c2) := by
  obtain ⟨s1, p1, _, q1⟩ := C17_parses_back m show_ optNames metaNames pretty t1 c1 hc1 h1
  obtain ⟨s2, p2, _, q2⟩ := C17_parses_back m show_ optNames metaNames pretty t2 c2 hc2 h2
  rw [e1] at p1; rw [e2] at p2
  simp only [Option.some.injEq] at p1 p2
  subst p1; subst p2
  rw [q1] at q2
  simp only [Option.some.injEq] at q2
  clear q1 h1 h2 e1 e2
  generalize namesInForce optNames metaNames = names at *
  have hget : ∀ (cs : List T) (c : Nat) (hc : c < cs.length),
      (cs[c]?.map show_).getD [] = show_ cs[c] ∧ constAt cs c = cs[c] := by
    intro cs c hc; simp [constAt, hc]
  induction t1 using Tree.ind generalizing t2 with
  | hv f =>
    cases t2 with
    | var g =>
      simp only [formulaOf, Tree.fold_var, DTree.leaf.injEq] at q2
      rw [hvar f (by simp) g (by simp) q2]; simp
    | const c =>
      have hc := hc2 c (by simp)
      simp only [formulaOf, Tree.fold_var, Tree.fold_const, DTree.leaf.injEq] at q2
      rw [(hget c2 c hc).1] at q2
      exact (hvc f (by simp) c2[c] (by simp) q2).elim
    | op o ts => simp [formulaOf] at q2
  | hc c =>
    have hc := hc1 c (by simp)
    cases t2 with
    | var g =>
      simp only [formulaOf, Tree.fold_var, Tree.fold_const, DTree.leaf.injEq] at q2
      rw [(hget c1 c hc).1] at q2
      exact (hvc g (by simp) c1[c] (by simp) q2.symm).elim
    | const d =>
      have hd := hc2 d (by simp)
      simp only [formulaOf, Tree.fold_const, DTree.leaf.injEq] at q2
      rw [(hget c1 c hc).1, (hget c2 d hd).1] at q2
      have := hcc _ (by simp) _ (by simp) q2
      simp only [Tree.eval_const]
      rw [(hget c1 c hc).2, (hget c2 d hd).2, this]
    | op o ts => simp [formulaOf] at q2
  | ho o ts ih =>
    cases t2 with
    | var g => simp [formulaOf] at q2
    | const d => simp [formulaOf] at q2
    | op o' us =>
      simp only [formulaOf, Tree.fold_op, DTree.node.injEq, List.length_map] at q2
      obtain ⟨_, qtok, qk⟩ := q2
      have hlen : ts.length = us.length := by simpa using congrArg List.length qk
      have ho : o = o' := by
        refine hop o ts.length o' (by simp) (by simp [hlen]) ?_
        rw [qtok, hlen]
      subst ho
      have key : ts.map (fun t => t.eval ops feat (constAt c1))
          = us.map (fun t => t.eval ops feat (constAt c2)) := by
        refine List.ext_getElem (by simpa using hlen) ?_
        intro i hi hi'
        simp only [List.length_map] at hi hi'
        simp only [List.getElem_map]
        have m1 : ts[i] ∈ ts := List.getElem_mem hi
        have m2 : us[i] ∈ us := List.getElem_mem hi'
        have qi : (ts.map (formulaOf m pretty (fun f => defaultStringVariable f names)
            fun c => (c1[c]?.map show_).getD []))[i]? = (us.map (formulaOf m pretty
              (fun f => defaultStringVariable f names) fun c => (c2[c]?.map show_).getD []))[i]? := by
          simp only [formulaOf]; rw [qk]
        simp only [List.getElem?_map, List.getElem?_eq_getElem hi, List.getElem?_eq_getElem hi',
          Option.map_some, Option.some.injEq] at qi
        have sf1 : ∀ f ∈ ts[i].features, f ∈ (Tree.op o ts).features := fun f hf => by
          rw [Tree.features_op]; exact List.mem_flatten.mpr ⟨_, List.mem_map.mpr ⟨_, m1, rfl⟩, hf⟩
        have sf2 : ∀ f ∈ us[i].features, f ∈ (Tree.op o us).features := fun f hf => by
          rw [Tree.features_op]; exact List.mem_flatten.mpr ⟨_, List.mem_map.mpr ⟨_, m2, rfl⟩, hf⟩
        have sc1 : ∀ f ∈ ts[i].constIdxs, f ∈ (Tree.op o ts).constIdxs := fun f hf => by
          rw [Tree.constIdxs_op]; exact List.mem_flatten.mpr ⟨_, List.mem_map.mpr ⟨_, m1, rfl⟩, hf⟩
        have sc2 : ∀ f ∈ us[i].constIdxs, f ∈ (Tree.op o us).constIdxs := fun f hf => by
          rw [Tree.constIdxs_op]; exact List.mem_flatten.mpr ⟨_, List.mem_map.mpr ⟨_, m2, rfl⟩, hf⟩
        have so1 : ∀ f ∈ ts[i].opNodes, f ∈ (Tree.op o ts).opNodes := fun f hf => by
          rw [Tree.opNodes_op, List.mem_append]
          exact .inl (List.mem_flatten.mpr ⟨_, List.mem_map.mpr ⟨_, m1, rfl⟩, hf⟩)
        have so2 : ∀ f ∈ us[i].opNodes, f ∈ (Tree.op o us).opNodes := fun f hf => by
          rw [Tree.opNodes_op, List.mem_append]
          exact .inl (List.mem_flatten.mpr ⟨_, List.mem_map.mpr ⟨_, m2, rfl⟩, hf⟩)
        have a1 : ∀ c ∈ ts[i].constIdxs, c < c1.length := fun c hc => hc1 c (sc1 c hc)
        have a2 : ∀ c ∈ us[i].constIdxs, c < c2.length := fun c hc => hc2 c (sc2 c hc)
        have a3 : ∀ f ∈ ts[i].features, ∀ g ∈ us[i].features,
            defaultStringVariable f names = defaultStringVariable g names → f = g :=
          fun f hf g hg => hvar f (sf1 f hf) g (sf2 g hg)
        have a4 : ∀ f ∈ ts[i].features ++ us[i].features, ∀ x ∈ c1 ++ c2,
            defaultStringVariable f names ≠ show_ x := fun f hf => hvc f (by
          rcases List.mem_append.mp hf with hf | hf
          · exact List.mem_append_left _ (sf1 f hf)
          · exact List.mem_append_right _ (sf2 f hf))
        have a5 : ∀ o a o', (o, a) ∈ ts[i].opNodes → (o', a) ∈ us[i].opNodes →
            opText m pretty a o = opText m pretty a o' → o = o' :=
          fun o a o' ho ho' => hop o a o' (so1 _ ho) (so2 _ ho')
        apply ih ts[i] m1 us[i] <;> assumption
      simp only [Tree.eval_op]
      rw [key, hlen]

/-- A small operator set: `+` (id 0) and `sin` (id 0). -/
def demoMetas : Metas := fun a o =>
  if a = 2 ∧ o = 0 then some ⟨"add".toList, "+".toList, some "+".toList⟩
  else if a = 1 ∧ o = 0 then some ⟨"sin".toList, "sin".toList, none⟩ else none

/-- Non-vacuity: `sin(x0 + 7) + x12` meets the hypotheses (numbers print as their digits). -/
example : (Tree.op 0 [.op 0 [.op 0 [.var 0, .const 0]], .var 12]).All
      (fun f => IsWord (defaultStringVariable f (namesInForce none [])))
      (fun c => IsWord ((([7] : List Nat)[c]?.map (Nat.toDigits 10)).getD []))
      (fun o a => 1 ≤ a ∧ IsWord (opText demoMetas false a o)) ∧
    (∀ c ∈ (Tree.op 0 [.op 0 [.op 0 [.var 0, .const 0]], .var 12]).constIdxs, c < [7].length) := by
  have h1 : IsWord (opText demoMetas false 2 0) := ⟨by decide, by decide⟩
  have h2 : IsWord (opText demoMetas false 1 0) := ⟨by decide, by decide⟩
  have h3 : IsWord (((([7] : List Nat)[0]?).map (Nat.toDigits 10)).getD []) := ⟨by decide, by decide⟩
  refine ⟨?_, by simp⟩
  simp only [Tree.all_op, List.mem_cons, List.mem_nil_iff, or_false, forall_eq_or_imp, forall_eq,
    List.length_cons, List.length_nil]
  simp [h1, h2, namesInForce, default_name_word]
  simpa using h3

/-- C17 (names): a variable prints as its configured name, and without one as `x` followed by its index. -/
theorem C17_variable_names (f : Nat) :
    (∀ (names : List (List Char)) (n : List Char), names[f]? = some n →
      defaultStringVariable f (some names) = n) ∧
    (∀ names : Option (List (List Char)), (∀ l, names = some l → l.length ≤ f) →
      defaultStringVariable f names = 'x' :: (toString f).toList) := by
  constructor
  · intro names n h; simp [defaultStringVariable, h]
  · intro names h
    have e : names.bind (·[f]?) = none := by
      cases names with
      | none => rfl
      | some l => simpa using h l rfl
    rw [defaultStringVariable, e]
    show 'x' :: Nat.toDigits 10 f = 'x' :: (Nat.repr f).toList
    simp [Nat.repr]

end SR
