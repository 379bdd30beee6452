import Verif.Spec.Consts
import Verif.Model.Eval
import Verif.Model.Lookup
/-
Specification vocabulary for edits of expressions.
-/
namespace SR
variable {T : Type}

/-- The expression `e` is the tree `u` over the constant table `cs`, up to a renumbering of the constants:
same shape, same features, same operators, and every constant leaf has the same value. -/
def SameExpr (u : Tree) (cs : List T) (e : PostfixExpr T) : Prop :=
  ∃ ρ : Nat → Nat, e.nodes = (u.mapConst ρ).toPostfix ∧
    ∀ c ∈ u.constIdxs, e.consts[ρ c]? = cs[c]?

/-- The tree uses only features below `nf`, constants below `nc` and the operators of `ops`. -/
def Tree.Uses (ops : List OpId) (nf nc : Nat) : Tree → Prop :=
  Tree.All (· < nf) (· < nc) (fun o a => (⟨a, o⟩ : OpId) ∈ ops)

/-- The expression is well formed: it serialises a tree using only features below `nf`, operators of
`ops` and constants of its own table. -/
def ExprOk (ops : List OpId) (nf : Nat) (e : PostfixExpr T) : Prop :=
  ∃ t : Tree, e.nodes = t.toPostfix ∧ t.Uses ops nf e.consts.length

/-- A freshly generated leaf: a feature below `nf`, or a constant with index in `[a, b)`. -/
def Fresh (nf a b : Nat) (t : Tree) : Prop :=
  (∃ f, f < nf ∧ t = .var f) ∨ ∃ c, a ≤ c ∧ c < b ∧ t = .const c

/-- `All` for the part of a tree around a hole. -/
def Ctx.All (pv pc : Nat → Prop) (po : Nat → Nat → Prop) : Ctx → Prop
  | .hole => True
  | .node o l c r => po o (l.length + 1 + r.length) ∧ (∀ t ∈ l, Tree.All pv pc po t) ∧
      (∀ t ∈ r, Tree.All pv pc po t) ∧ c.All pv pc po

theorem all_plug {pv pc : Nat → Prop} {po : Nat → Nat → Prop} (c : Ctx) (s : Tree) :
    (c.plug s).All pv pc po ↔ c.All pv pc po ∧ s.All pv pc po := by
  induction c with
  | hole => simp [Ctx.plug, Ctx.All]
  | node o l c r ih =>
    simp only [Ctx.plug, Ctx.All, Tree.all_op, List.length_append, List.length_cons, List.mem_append,
      List.mem_cons]
    have e : l.length + (r.length + 1) = l.length + 1 + r.length := by omega
    rw [e]
    constructor
    · rintro ⟨h1, h2⟩
      have h3 := ih.mp (h2 (c.plug s) (by simp))
      exact ⟨⟨h1, fun t ht => h2 t (Or.inl ht), fun t ht => h2 t (Or.inr (Or.inr ht)), h3.1⟩, h3.2⟩
    · rintro ⟨⟨h1, h2, h3, h4⟩, h5⟩
      refine ⟨h1, ?_⟩
      rintro t (ht | rfl | ht)
      · exact h2 t ht
      · exact ih.mpr ⟨h4, h5⟩
      · exact h3 t ht

theorem Ctx.All.mono {pv pc pv' pc' : Nat → Prop} {po po' : Nat → Nat → Prop}
    (h1 : ∀ f, pv f → pv' f) (h2 : ∀ f, pc f → pc' f) (h3 : ∀ o a, po o a → po' o a) {c : Ctx}
    (h : c.All pv pc po) : c.All pv' pc' po' := by
  induction c with
  | hole => trivial
  | node o l c r ih =>
    obtain ⟨a, b, d, e⟩ := h
    exact ⟨h3 _ _ a, fun t ht => (b t ht).mono h1 h2 h3, fun t ht => (d t ht).mono h1 h2 h3, ih e⟩

theorem Tree.Uses.mono {ops : List OpId} {nf nc nc' : Nat} {t : Tree} (h : t.Uses ops nf nc)
    (hle : nc ≤ nc') : t.Uses ops nf nc' :=
  Tree.All.mono (fun _ h => h) (fun _ h => Nat.lt_of_lt_of_le h hle) (fun _ _ h => h) h

theorem Tree.mapConst_congr {ρ σ : Nat → Nat} {t : Tree} (h : ∀ c ∈ t.constIdxs, ρ c = σ c) :
    t.mapConst ρ = t.mapConst σ := by
  induction t using Tree.ind with
  | hv f => simp
  | hc c => simpa using h c (by simp)
  | ho o ts ih =>
    simp only [mapConst_op]
    congr 1
    apply List.map_congr_left
    intro u hu
    exact ih u hu fun c hc => h c (by
      rw [constIdxs_op]; exact List.mem_flatten.mpr ⟨_, List.mem_map_of_mem hu, hc⟩)

theorem Tree.mapConst_id' {ρ : Nat → Nat} {t : Tree} (h : ∀ c ∈ t.constIdxs, ρ c = c) :
    t.mapConst ρ = t := by
  rw [Tree.mapConst_congr (σ := id) h]
  clear h
  induction t using Tree.ind with
  | hv f => simp
  | hc c => simp
  | ho o ts ih => simp only [mapConst_op]; congr 1; exact (List.map_congr_left ih).trans (by simp)

theorem Tree.mapConst_comp {ρ σ : Nat → Nat} {t : Tree} :
    (t.mapConst σ).mapConst ρ = t.mapConst (fun c => ρ (σ c)) := by
  induction t using Tree.ind with
  | hv f => simp
  | hc c => simp
  | ho o ts ih => simp only [mapConst_op, List.map_map]; congr 1; exact List.map_congr_left ih

/-- Renumbering that fixes the constants of the context only acts in the hole. -/
theorem plug_mapConst {n : Nat} {pv : Nat → Prop} {po : Nat → Nat → Prop} {c : Ctx} {s : Tree}
    {σ : Nat → Nat} (hc : c.All pv (· < n) po) (hσ : ∀ i, i < n → σ i = i) :
    (c.plug s).mapConst σ = c.plug (s.mapConst σ) := by
  have hid : ∀ t : Tree, t.All pv (· < n) po → t.mapConst σ = t := fun t ht =>
    Tree.mapConst_id' fun c hc => hσ c ((Tree.all_iff.mp ht).2.1 c hc)
  induction c with
  | hole => rfl
  | node o l c r ih =>
    obtain ⟨_, h1, h2, h3⟩ := hc
    simp only [Ctx.plug, Tree.mapConst_op, List.map_append, List.map_cons, ih h3]
    rw [List.map_congr_left (g := id) (fun t ht => hid t (h1 t ht)),
      List.map_congr_left (g := id) (fun t ht => hid t (h2 t ht))]
    simp

/-- Expressions that are the same up to renumbering have the same value everywhere. -/
theorem SameExpr.eval_eq [Scalar T] {u : Tree} {cs : List T} {e : PostfixExpr T} (h : SameExpr u cs e) :
    ∃ t : Tree, e.nodes = t.toPostfix ∧ t.size = u.size ∧ t.depth = u.depth ∧
      t.features = u.features ∧ t.opNodes = u.opNodes ∧
      ∀ (ops : OpSet T) (feat : Nat → T),
        t.eval ops feat (constAt e.consts) = u.eval ops feat (constAt cs) := by
  obtain ⟨ρ, h1, h2⟩ := h
  refine ⟨_, h1, Tree.size_mapConst .., Tree.depth_mapConst .., Tree.features_mapConst ..,
    Tree.opNodes_mapConst .., fun ops feat => ?_⟩
  apply Tree.eval_mapConst
  intro c hc
  rw [constAt, constAt, h2 c hc]

theorem SameExpr.refl (u : Tree) (cs : List T) : SameExpr u cs ⟨u.toPostfix, cs⟩ :=
  ⟨id, by rw [Tree.mapConst_id' (ρ := id) (fun _ _ => rfl)], fun _ _ => rfl⟩

/-- A well-formed edited tree gives a well-formed expression. -/
theorem SameExpr.ok {ops : List OpId} {nf : Nat} {u : Tree} {cs : List T} {e : PostfixExpr T}
    (h : SameExpr u cs e) (hu : u.Uses ops nf cs.length) : ExprOk ops nf e := by
  obtain ⟨ρ, h1, h2⟩ := h
  refine ⟨_, h1, ?_⟩
  rw [Tree.Uses, Tree.all_iff] at hu ⊢
  rw [Tree.features_mapConst, Tree.opNodes_mapConst, Tree.constIdxs_mapConst]
  refine ⟨hu.1, ?_, hu.2.2⟩
  intro c hc
  obtain ⟨d, hd, rfl⟩ := List.mem_map.mp hc
  have := h2 d hd
  rw [List.getElem?_eq_getElem (hu.2.1 d hd)] at this
  exact (List.getElem?_eq_some_iff.mp this).1

theorem SameExpr.trans {u u0 : Tree} {cs cs0 : List T} {e : PostfixExpr T} {σ : Nat → Nat}
    (h : SameExpr u cs e) (hu : u = u0.mapConst σ) (hc : ∀ c ∈ u0.constIdxs, cs[σ c]? = cs0[c]?) :
    SameExpr u0 cs0 e := by
  obtain ⟨ρ, h1, h2⟩ := h
  subst hu
  refine ⟨fun c => ρ (σ c), by rw [h1, Tree.mapConst_comp], fun c hcm => ?_⟩
  rw [← hc c hcm]
  exact h2 (σ c) (by rw [Tree.constIdxs_mapConst]; exact List.mem_map_of_mem hcm)

end SR
