import Verif.Proofs.CombineShape
/-
The arena as a representation of a tree: parsing and emission.
-/
namespace SR
variable {T : Type}

mutual
/-- The node `id` of the arena represents the tree, using exactly the nodes `S` (in pre-order). -/
def Rep (A : List ANode) : Tree → Nat → List Nat → Prop
  | .var f, id, S => A[id]? = some (.var f) ∧ S = [id]
  | .const c, id, S => A[id]? = some (.const c) ∧ S = [id]
  | .op o ts, id, S => ∃ ch S', A[id]? = some (.op ts.length o ch) ∧ ts.length ≤ ch.length ∧
      RepL A ts (ch.take ts.length) S' ∧ S = id :: S'
/-- The same for lists. -/
def RepL (A : List ANode) : List Tree → List Nat → List Nat → Prop
  | [], ids, S => ids = [] ∧ S = []
  | t :: ts, ids, S => ∃ i is S1 S2, ids = i :: is ∧ Rep A t i S1 ∧ RepL A ts is S2 ∧ S = S1 ++ S2
end

theorem rep_frame {A A' : List ANode} (t : Tree) : ∀ {id : Nat} {S : List Nat}, Rep A t id S →
    (∀ j ∈ S, A'[j]? = A[j]?) → Rep A' t id S := by
  refine Tree.rec (motive_1 := fun t => ∀ {id S}, Rep A t id S → (∀ j ∈ S, A'[j]? = A[j]?) →
      Rep A' t id S)
    (motive_2 := fun ts => ∀ {ids S}, RepL A ts ids S → (∀ j ∈ S, A'[j]? = A[j]?) →
      RepL A' ts ids S) ?_ ?_ ?_ ?_ ?_ t
  · rintro f id S ⟨h, rfl⟩ hf; exact ⟨by rw [hf id (by simp)]; exact h, rfl⟩
  · rintro f id S ⟨h, rfl⟩ hf; exact ⟨by rw [hf id (by simp)]; exact h, rfl⟩
  · rintro o ts ih id S ⟨ch, S', h, hl, hr, rfl⟩ hf
    exact ⟨ch, S', by rw [hf id (by simp)]; exact h, hl, ih hr fun j hj => hf j (by simp [hj]), rfl⟩
  · rintro ids S ⟨rfl, rfl⟩ _; exact ⟨rfl, rfl⟩
  · rintro t ts h1 h2 ids S ⟨i, is, S1, S2, rfl, hr1, hr2, rfl⟩ hf
    exact ⟨i, is, S1, S2, rfl, h1 hr1 fun j hj => hf j (by simp [hj]),
      h2 hr2 fun j hj => hf j (by simp [hj]), rfl⟩

theorem repL_frame {A A' : List ANode} : ∀ {ts : List Tree} {ids S : List Nat}, RepL A ts ids S →
    (∀ j ∈ S, A'[j]? = A[j]?) → RepL A' ts ids S := by
  intro ts
  induction ts with
  | nil => rintro ids S ⟨rfl, rfl⟩ _; exact ⟨rfl, rfl⟩
  | cons t ts ih =>
    rintro ids S ⟨i, is, S1, S2, rfl, h1, h2, rfl⟩ hf
    exact ⟨i, is, S1, S2, rfl, rep_frame t h1 fun j hj => hf j (by simp [hj]),
      ih h2 fun j hj => hf j (by simp [hj]), rfl⟩

theorem repL_length {A : List ANode} : ∀ {ts : List Tree} {ids S : List Nat}, RepL A ts ids S →
    ids.length = ts.length := by
  intro ts
  induction ts with
  | nil => rintro ids S ⟨rfl, rfl⟩; rfl
  | cons t ts ih =>
    rintro ids S ⟨i, is, S1, S2, rfl, h1, h2, rfl⟩
    simp [ih h2]

theorem repL_append {A : List ANode} : ∀ {ts us : List Tree} {is js S S' : List Nat},
    RepL A ts is S → RepL A us js S' → RepL A (ts ++ us) (is ++ js) (S ++ S') := by
  intro ts
  induction ts with
  | nil => rintro us is js S S' ⟨rfl, rfl⟩ h; exact h
  | cons t ts ih =>
    rintro us is js S S' ⟨i, is', S1, S2, rfl, h1, h2, rfl⟩ h
    exact ⟨i, is' ++ js, S1, S2 ++ S', rfl, h1, ih h2 h, by simp⟩

theorem le_maxList {l : List Nat} {x : Nat} (h : x ∈ l) : x ≤ Tree.maxList l := by
  induction l with
  | nil => cases h
  | cons a l ih =>
    simp only [Tree.maxList, List.foldr_cons] at ih ⊢
    rcases List.mem_cons.mp h with rfl | h
    · omega
    · have := ih h; omega

theorem bd_mono_d_le {A : List ANode} {d d' id n : Nat} (h : Bd A d id n) (hd : d ≤ d') :
    Bd A d' id n := by
  induction hd with
  | refl => exact h
  | step _ ih => exact bd_mono_d ih

/-- A represented tree is bounded by its size and depth. -/
theorem rep_bd {A : List ANode} (t : Tree) : ∀ {id : Nat} {S : List Nat}, Rep A t id S →
    Bd A t.depth id t.size := by
  refine Tree.rec (motive_1 := fun t => ∀ {id S}, Rep A t id S → Bd A t.depth id t.size)
    (motive_2 := fun ts => ∀ {ids S} d, RepL A ts ids S → (∀ t ∈ ts, t.depth ≤ d) →
      KidsBd A d ids (ts.map Tree.size).sum) ?_ ?_ ?_ ?_ ?_ t
  · rintro f id S ⟨h, rfl⟩; rw [Tree.depth_var, bd_leaf h (by simp)]; simp
  · rintro f id S ⟨h, rfl⟩; rw [Tree.depth_const, bd_leaf h (by simp)]; simp
  · rintro o ts ih id S ⟨ch, S', h, hl, hr, rfl⟩
    rw [Tree.depth_op, Nat.add_comm, bd_op h]
    refine ⟨by simp, ?_⟩
    have := ih (Tree.maxList (ts.map Tree.depth)) hr fun t ht =>
      le_maxList (List.mem_map_of_mem ht)
    simpa using this
  · rintro ids S d ⟨rfl, rfl⟩ _; exact ⟨[], .nil, by simp⟩
  · rintro t ts h1 h2 ids S d ⟨i, is, S1, S2, rfl, hr1, hr2, rfl⟩ hd
    obtain ⟨ns, g1, g2⟩ := h2 d hr2 fun t ht => hd t (by simp [ht])
    exact ⟨t.size :: ns, .cons (bd_mono_d_le (h1 hr1) (hd t (by simp))) g1, by simp; omega⟩

/-! ### Parsing -/

theorem parseLoop_append (D : Nat) (l1 l2 : List PNode) : ∀ st st', parseLoop D l1 st = some (some st') →
    parseLoop D (l1 ++ l2) st = parseLoop D l2 st' := by
  induction l1 with
  | nil => intro st st' h; simp only [parseLoop, Option.some.injEq] at h; subst h; rfl
  | cons n l1 ih =>
    intro st st' h
    simp only [parseLoop, List.cons_append] at h ⊢
    split at h
    · simp at h
    · simp at h
    · next st1 e => exact ih st1 st' h

/-- What parsing one subtree does. -/
def ParsesTo (D : Nat) (t : Tree) : Prop :=
  ∀ (A0 : List ANode) (st : List Nat),
    t.All (fun _ => True) (fun _ => True) (fun _ a => 1 ≤ a ∧ a ≤ D) →
    (∀ (id a o : Nat) (ch : List Nat), A0[id]? = some (.op a o ch) →
      ch.length = D ∧ 1 ≤ a ∧ a ≤ D ∧ (∀ c ∈ ch, c < id) ∧ (∀ c ∈ ch.drop a, c = 0)) →
    ∃ (B : List ANode) (S : List Nat),
      parseLoop D t.toPostfix (A0, st) = some (some (A0 ++ B, (A0.length + t.size - 1) :: st)) ∧
      B.length = t.size ∧ Rep (A0 ++ B) t (A0.length + t.size - 1) S ∧
      (∀ j ∈ S, A0.length ≤ j ∧ j < A0.length + B.length) ∧ S.Nodup ∧
      (∀ (id a o : Nat) (ch : List Nat), (A0 ++ B)[id]? = some (.op a o ch) →
        ch.length = D ∧ 1 ≤ a ∧ a ≤ D ∧ (∀ c ∈ ch, c < id) ∧ (∀ c ∈ ch.drop a, c = 0)) ∧
      (∀ f, .var f ∈ B → f ∈ t.features) ∧ (∀ c, .const c ∈ B → c ∈ t.constIdxs) ∧
      (∀ a o ch, .op a o ch ∈ B → (o, a) ∈ t.opNodes)

theorem parses_list {D : Nat} {ts : List Tree} (ih : ∀ t ∈ ts, ParsesTo D t) :
    ∀ (A0 : List ANode) (st : List Nat),
    (∀ t ∈ ts, t.All (fun _ => True) (fun _ => True) (fun _ a => 1 ≤ a ∧ a ≤ D)) →
    (∀ (id a o : Nat) (ch : List Nat), A0[id]? = some (.op a o ch) →
      ch.length = D ∧ 1 ≤ a ∧ a ≤ D ∧ (∀ c ∈ ch, c < id) ∧ (∀ c ∈ ch.drop a, c = 0)) →
    ∃ (B : List ANode) (ids S : List Nat),
      parseLoop D (ts.map Tree.toPostfix).flatten (A0, st) = some (some (A0 ++ B, ids.reverse ++ st)) ∧
      B.length = (ts.map Tree.size).sum ∧ RepL (A0 ++ B) ts ids S ∧
      (∀ j ∈ S, A0.length ≤ j ∧ j < A0.length + B.length) ∧ S.Nodup ∧
      (∀ j ∈ ids, j < A0.length + B.length) ∧
      (∀ (id a o : Nat) (ch : List Nat), (A0 ++ B)[id]? = some (.op a o ch) →
        ch.length = D ∧ 1 ≤ a ∧ a ≤ D ∧ (∀ c ∈ ch, c < id) ∧ (∀ c ∈ ch.drop a, c = 0)) ∧
      (∀ f, .var f ∈ B → f ∈ (ts.map Tree.features).flatten) ∧
      (∀ c, .const c ∈ B → c ∈ (ts.map Tree.constIdxs).flatten) ∧
      (∀ a o ch, .op a o ch ∈ B → (o, a) ∈ (ts.map Tree.opNodes).flatten) := by
  induction ts with
  | nil =>
    intro A0 st _ hA
    exact ⟨[], [], [], by simp [parseLoop], rfl, ⟨rfl, rfl⟩, by simp, by simp, by simp,
      by simpa using hA, by simp, by simp, by simp⟩
  | cons t ts ihl =>
    intro A0 st hall hA
    obtain ⟨B1, S1, e1, hl1, hr1, hs1, hn1, hA1, hv1, hc1, ho1⟩ :=
      ih t (by simp) A0 st (hall t (by simp)) hA
    obtain ⟨B2, ids, S2, e2, hl2, hr2, hs2, hn2, hi2, hA2, hv2, hc2, ho2⟩ :=
      ihl (fun u hu => ih u (by simp [hu])) (A0 ++ B1) ((A0.length + t.size - 1) :: st)
        (fun u hu => hall u (by simp [hu])) hA1
    simp only [List.length_append] at hs2 hi2
    refine ⟨B1 ++ B2, (A0.length + t.size - 1) :: ids, S1 ++ S2, ?_, ?_, ?_, ?_, ?_, ?_, ?_, ?_, ?_, ?_⟩
    · simp only [List.map_cons, List.flatten_cons]
      rw [parseLoop_append D _ _ _ _ e1, e2]
      simp
    · simp [hl1, hl2]
    · refine ⟨_, ids, S1, S2, rfl, ?_, by simpa using hr2, rfl⟩
      refine rep_frame t hr1 fun j hj => ?_
      have := hs1 j hj
      rw [← List.append_assoc, List.getElem?_append_left (by simp; omega)]
    · intro j hj
      simp only [List.length_append]
      rcases List.mem_append.mp hj with hj | hj
      · have := hs1 j hj; omega
      · have := hs2 j hj; omega
    · rw [List.nodup_append]
      refine ⟨hn1, hn2, ?_⟩
      intro a ha b hb
      have := hs1 a ha
      have := hs2 b hb
      omega
    · intro j hj
      simp only [List.length_append]
      rcases List.mem_cons.mp hj with rfl | hj
      · have := t.size_pos; omega
      · have := hi2 j hj; omega
    · rw [← List.append_assoc]; exact hA2
    · intro f hf
      simp only [List.map_cons, List.flatten_cons, List.mem_append] at hf ⊢
      exact hf.imp (hv1 f) (hv2 f)
    · intro f hf
      simp only [List.map_cons, List.flatten_cons, List.mem_append] at hf ⊢
      exact hf.imp (hc1 f) (hc2 f)
    · intro a o ch hf
      simp only [List.map_cons, List.flatten_cons, List.mem_append] at hf ⊢
      exact hf.imp (ho1 a o ch) (ho2 a o ch)

theorem parsesTo (D : Nat) (t : Tree) : ParsesTo D t := by
  induction t using Tree.ind with
  | hv f =>
    intro A0 st _ hA
    refine ⟨[.var f], [A0.length], by simp [parseLoop, parseStep], rfl, ?_, by simp, by simp, ?_,
      by simp, by simp, by simp⟩
    · simp [Rep]
    · intro id a o ch h
      rcases Nat.lt_or_ge id A0.length with hh | hh
      · rw [List.getElem?_append_left hh] at h; exact hA id a o ch h
      · rw [List.getElem?_append_right hh] at h
        have := List.mem_of_getElem? h
        simp at this
  | hc f =>
    intro A0 st _ hA
    refine ⟨[.const f], [A0.length], by simp [parseLoop, parseStep], rfl, ?_, by simp, by simp, ?_,
      by simp, by simp, by simp⟩
    · simp [Rep]
    · intro id a o ch h
      rcases Nat.lt_or_ge id A0.length with hh | hh
      · rw [List.getElem?_append_left hh] at h; exact hA id a o ch h
      · rw [List.getElem?_append_right hh] at h
        have := List.mem_of_getElem? h
        simp at this
  | ho o ts ih =>
    intro A0 st hall hA
    rw [Tree.all_op] at hall
    obtain ⟨⟨ha1, haD⟩, hall⟩ := hall
    obtain ⟨B, ids, S, e, hl, hr, hs, hn, hi, hA1, hv, hc, hop⟩ := parses_list ih A0 st hall hA
    have hlen : ids.length = ts.length := repL_length hr
    have hsz : (Tree.op o ts).size = B.length + 1 := by rw [Tree.size_op, hl]; omega
    have hid : A0.length + (Tree.op o ts).size - 1 = (A0 ++ B).length := by
      simp only [List.length_append]; omega
    have hnew : (A0 ++ (B ++ [ANode.op ts.length o (ids ++ List.replicate (D - ts.length) 0)]))[
        (A0 ++ B).length]? = some (.op ts.length o (ids ++ List.replicate (D - ts.length) 0)) := by
      rw [← List.append_assoc]; simp
    refine ⟨B ++ [.op ts.length o (ids ++ List.replicate (D - ts.length) 0)], (A0 ++ B).length :: S,
      ?_, ?_, ?_, ?_, ?_, ?_, ?_, ?_, ?_⟩
    · rw [Tree.toPostfix_op, parseLoop_append D _ _ _ _ e]
      have h1 : ¬ (ids.reverse ++ st).length < ts.length := by simp [hlen]
      have h2 : ((ids.reverse ++ st).take ts.length).reverse = ids := by
        rw [← hlen, List.take_append_of_le_length (by simp), List.take_of_length_le (by simp)]
        simp
      have h3 : (ids.reverse ++ st).drop ts.length = st := by
        have : ts.length = ids.reverse.length := by simp [hlen]
        rw [this, List.drop_left]
      simp only [parseLoop, parseStep, if_neg h1, if_neg (Nat.not_lt.mpr haD), h2, h3, hid]
      simp
    · simp [hsz]
    · rw [hid]
      refine ⟨_, S, hnew, by simp [hlen], ?_, rfl⟩
      have : (ids ++ List.replicate (D - ts.length) 0).take ts.length = ids := by
        rw [← hlen, List.take_left]
      rw [this]
      refine repL_frame hr fun j hj => ?_
      have := hs j hj
      rw [← List.append_assoc, List.getElem?_append_left (by simp; omega)]
    · intro j hj
      simp only [List.length_append, List.length_singleton] at hj ⊢
      rcases List.mem_cons.mp hj with rfl | hj
      · simp
      · have := hs j hj; omega
    · rw [List.nodup_cons]
      refine ⟨?_, hn⟩
      intro hm
      have := hs _ hm
      simp at this
    · intro id a o' ch h
      rw [← List.append_assoc] at h
      rcases Nat.lt_or_ge id (A0 ++ B).length with hh | hh
      · rw [List.getElem?_append_left hh] at h; exact hA1 id a o' ch h
      · rw [List.getElem?_append_right hh] at h
        have hm := List.mem_of_getElem? h
        simp only [List.mem_singleton, ANode.op.injEq] at hm
        obtain ⟨rfl, rfl, rfl⟩ := hm
        refine ⟨by simp [hlen]; omega, ha1, haD, ?_, ?_⟩
        · intro c hc'
          simp only [List.length_append] at hh
          rcases List.mem_append.mp hc' with hc' | hc'
          · have := hi c hc'; omega
          · have := (List.mem_replicate.mp hc').2
            have hB : 0 < B.length := by
              rw [hl]
              match ts, ha1 with
              | t :: _, _ => have := t.size_pos; simp; omega
            omega
        · intro c hc'
          have : (ids ++ List.replicate (D - ts.length) 0).drop ts.length
              = List.replicate (D - ts.length) 0 := by
            rw [← hlen, List.drop_left]
          rw [this] at hc'
          exact (List.mem_replicate.mp hc').2
    · intro f hf
      simp only [List.mem_append, List.mem_singleton, reduceCtorEq, or_false] at hf
      simpa using hv f hf
    · intro f hf
      simp only [List.mem_append, List.mem_singleton, reduceCtorEq, or_false] at hf
      simpa using hc f hf
    · intro a o' ch hf
      simp only [List.mem_append, List.mem_singleton, ANode.op.injEq] at hf
      rw [Tree.opNodes_op, List.mem_append]
      rcases hf with hf | ⟨rfl, rfl, _⟩
      · exact Or.inl (hop a o' ch hf)
      · right; simp

/-- Parsing a well-formed expression. -/
theorem parsePostfix_ok (D : Nat) (t : Tree) (cs : List T)
    (h : t.All (fun _ => True) (· < cs.length) (fun _ a => 1 ≤ a ∧ a ≤ D)) :
    ∃ (A : List ANode) (root : Nat) (S : List Nat), parsePostfix D t.toPostfix = some (some (A, root)) ∧
      A.length = t.size ∧ Rep A t root S ∧ S.Nodup ∧ Inv D A cs ∧
      (∀ (j f : Nat), A[j]? = some (.var f) → f ∈ t.features) ∧
      (∀ (j a o : Nat) (ch : List Nat), A[j]? = some (.op a o ch) → (o, a) ∈ t.opNodes) := by
  obtain ⟨B, S, e, hl, hr, _, hn, hA, hv, hc, ho⟩ := parsesTo D t [] []
    (h.mono (fun _ h => h) (fun _ _ => trivial) (fun _ _ h => h)) (by simp)
  refine ⟨B, 0 + t.size - 1, S, ?_, hl, by simpa using hr, hn, ⟨by simpa using hA, ?_⟩, ?_, ?_⟩
  · simp only [parsePostfix, e]
    simp
  · intro id c hh
    exact (Tree.all_iff.mp h).2.1 c (hc c (List.mem_of_getElem? hh))
  · intro j f hh; exact hv f (List.mem_of_getElem? hh)
  · intro j a o ch hh; exact ho a o ch (List.mem_of_getElem? hh)

/-! ### Emission -/

theorem emit_ok {D : Nat} {A : List ANode} {cs : List T} (hI : Inv D A cs) : ∀ fuel : Nat,
    (∀ (id d n : Nat), Bd A d id n → 2 * n ≤ fuel →
      ∃ t : Tree, emitPostfix fuel id A = some t.toPostfix ∧ t.size ≤ n ∧ t.depth ≤ d ∧
        (∀ f ∈ t.features, ∃ j : Nat, A[j]? = some (.var f)) ∧ (∀ c ∈ t.constIdxs, c < cs.length) ∧
        (∀ p ∈ t.opNodes, ∃ (j : Nat) (ch : List Nat), A[j]? = some (.op p.2 p.1 ch))) ∧
    (∀ (ks : List Nat) (d n : Nat), KidsBd A d ks n → 2 * n + 1 ≤ fuel →
      ∃ ts : List Tree, emitKids fuel ks A = some (ts.map Tree.toPostfix).flatten ∧
        ts.length = ks.length ∧
        (ts.map Tree.size).sum ≤ n ∧ (∀ t ∈ ts, t.depth ≤ d) ∧
        (∀ f ∈ (ts.map Tree.features).flatten, ∃ j : Nat, A[j]? = some (.var f)) ∧
        (∀ c ∈ (ts.map Tree.constIdxs).flatten, c < cs.length) ∧
        (∀ p ∈ (ts.map Tree.opNodes).flatten, ∃ (j : Nat) (ch : List Nat), A[j]? = some (.op p.2 p.1 ch))) := by
  intro fuel
  induction fuel with
  | zero =>
    refine ⟨?_, ?_⟩
    · intro id d n hb hf; have := bd_pos hb; omega
    · intro ks d n hb hf; omega
  | succ fuel ih =>
    refine ⟨?_, ?_⟩
    · intro id d n hb hf
      cases d with
      | zero => exact hb.elim
      | succ d =>
        rw [emitPostfix]
        cases hx : A[id]? with
        | none => simp [Bd, hx] at hb
        | some x =>
          have hp := bd_pos hb
          cases x with
          | var f =>
            refine ⟨.var f, by simp, by simpa, by simp, ?_, by simp, by simp⟩
            intro g hg; simp only [Tree.features_var, List.mem_singleton] at hg; subst hg
            exact ⟨id, hx⟩
          | const f =>
            refine ⟨.const f, by simp, by simpa, by simp, by simp, ?_, by simp⟩
            intro g hg; simp only [Tree.constIdxs_const, List.mem_singleton] at hg; subst hg
            exact hI.const id _ hx
          | op a o children =>
            simp only
            have ho := hI.ord _ _ _ _ hx
            obtain ⟨hn, hk⟩ := (bd_op hx).mp hb
            obtain ⟨ts, e, hl, hs, hd, hf', hc, hop⟩ := ih.2 _ d (n - 1) hk (by omega)
            have hl' : ts.length = a := by rw [hl, List.length_take]; omega
            refine ⟨.op o ts, ?_, ?_, ?_, by simpa using hf', by simpa using hc, ?_⟩
            · rw [e]; simp [hl']
            · rw [Tree.size_op]; omega
            · rw [Tree.depth_op]
              have : Tree.maxList (ts.map Tree.depth) ≤ d := by
                clear e hl hs hf' hc hop hl'
                induction ts with
                | nil => simp [Tree.maxList]
                | cons t ts ih =>
                  have h1 := hd t (by simp)
                  have h2 := ih fun u hu => hd u (by simp [hu])
                  simp only [Tree.maxList, List.map_cons, List.foldr_cons] at h2 ⊢
                  omega
              omega
            · intro p hp
              rw [Tree.opNodes_op, List.mem_append] at hp
              rcases hp with hp | hp
              · exact hop p hp
              · simp only [List.mem_singleton] at hp; subst hp
                exact ⟨id, children, by simpa [hl'] using hx⟩
    · intro ks d n hk hf
      cases ks with
      | nil =>
        exact ⟨[], by simp [emitKids], rfl, by simp, by simp, by simp, by simp, by simp⟩
      | cons k ks =>
        obtain ⟨ns, h1, h2⟩ := hk
        cases h1 with
        | @cons _ m _ ms hb h1 =>
          simp only [List.sum_cons] at h2
          have hm := bd_pos hb
          obtain ⟨t, e1, a1, a2, a3, a4, a5⟩ := ih.1 k d m hb (by omega)
          obtain ⟨ts, e2, b0, b1, b2, b3, b4, b5⟩ := ih.2 ks d ms.sum ⟨ms, h1, Nat.le_refl _⟩
            (by omega)
          refine ⟨t :: ts, ?_, by simp [b0], by simp; omega, ?_, ?_, ?_, ?_⟩
          · rw [emitKids, e1, e2]; simp
          · intro u hu
            rcases List.mem_cons.mp hu with rfl | hu
            · exact a2
            · exact b2 u hu
          · intro f hf
            simp only [List.map_cons, List.flatten_cons, List.mem_append] at hf
            exact hf.elim (a3 f) (b3 f)
          · intro f hf
            simp only [List.map_cons, List.flatten_cons, List.mem_append] at hf
            exact hf.elim (a4 f) (b4 f)
          · intro f hf
            simp only [List.map_cons, List.flatten_cons, List.mem_append] at hf
            exact hf.elim (a5 f) (b5 f)

/-- Operator combination on a well-formed expression, for every operator set: never panics, and the
result is well-formed, not larger, not deeper. -/
theorem combineOperators_shape [SubScalar T] (cfg : CombineCfg) (D : Nat) (t : Tree) (cs : List T)
    (h : t.All (fun _ => True) (· < cs.length) (fun _ a => 1 ≤ a ∧ a ≤ D)) :
    ∃ (t' : Tree) (cs' : List T) (ch : Bool),
      combineOperators cfg D ⟨t.toPostfix, cs⟩ = some (⟨t'.toPostfix, cs'⟩, ch) ∧
      cs <+: cs' ∧ t'.size ≤ t.size ∧ t'.depth ≤ t.depth ∧
      (∀ f ∈ t'.features, f ∈ t.features) ∧ (∀ c ∈ t'.constIdxs, c < cs'.length) ∧
      (∀ p ∈ t'.opNodes, p ∈ t.opNodes) := by
  obtain ⟨A, root, S, e, hl, hr, hn, hI, hv, ho⟩ := parsePostfix_ok D t cs h
  obtain ⟨⟨root', A', cs', ch⟩, e2, hok⟩ := (combine_ok (D := D) cfg (2 * A.length)).1 root A cs false
    t.depth t.size hI (rep_bd t hr) (by omega)
  have hpre : cs <+: cs' := hok.pre
  simp only [combineOperators, e, e2]
  split
  · refine ⟨t, cs', false, rfl, hpre, Nat.le_refl _, Nat.le_refl _, fun _ h => h, ?_, fun _ h => h⟩
    intro c hc
    have := (Tree.all_iff.mp h).2.1 c hc
    have := hpre.length_le
    omega
  · obtain ⟨t', e3, h1, h2, h3, h4, h5⟩ := (emit_ok hok.inv (2 * A.length)).1 root' t.depth t.size
      (hok.res _ _ (rep_bd t hr)) (by omega)
    simp only at e3
    rw [e3]
    refine ⟨t', cs', ch, rfl, hpre, h1, h2, ?_, h4, ?_⟩
    · intro f hf
      obtain ⟨j, hj⟩ := h3 f hf
      exact hv j f (hok.shr.var j f hj)
    · intro p hp
      obtain ⟨j, chd, hj⟩ := h5 p hp
      obtain ⟨ch', hj'⟩ := hok.shr.op j _ _ _ hj
      exact ho j _ _ _ hj'

end SR
