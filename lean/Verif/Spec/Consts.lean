import Verif.Spec.Scalar
/-
Specification vocabulary about the constants of a tree.
-/
namespace SR
namespace Tree

/-- Renumber the constants of a tree, keeping its shape. -/
def mapConst (ρ : Nat → Nat) : Tree → Tree :=
  fold .var (fun c => .const (ρ c)) (fun o ts => .op o ts)

/-- The constant indices at the leaves, left to right. -/
def constIdxs : Tree → List Nat := fold (fun _ => []) (fun c => [c]) (fun _ cs => cs.flatten)

/-- The features at the leaves, left to right. -/
def features : Tree → List Nat := fold (fun f => [f]) (fun _ => []) (fun _ cs => cs.flatten)

/-- The operator nodes (id, arity), post-order. -/
def opNodes : Tree → List (Nat × Nat) :=
  fold (fun _ => []) (fun _ => []) (fun o cs => cs.flatten ++ [(o, cs.length)])

@[simp] theorem mapConst_var (ρ f) : mapConst ρ (.var f) = .var f := by simp [mapConst]
@[simp] theorem mapConst_const (ρ c) : mapConst ρ (.const c) = .const (ρ c) := by simp [mapConst]
@[simp] theorem mapConst_op (ρ o ts) : mapConst ρ (.op o ts) = .op o (ts.map (mapConst ρ)) := by
  simp [mapConst]
@[simp] theorem constIdxs_var (f) : constIdxs (.var f) = [] := by simp [constIdxs]
@[simp] theorem constIdxs_const (c) : constIdxs (.const c) = [c] := by simp [constIdxs]
@[simp] theorem constIdxs_op (o ts) : constIdxs (.op o ts) = (ts.map constIdxs).flatten := by
  simp [constIdxs]
@[simp] theorem features_var (f) : features (.var f) = [f] := by simp [features]
@[simp] theorem features_const (c) : features (.const c) = [] := by simp [features]
@[simp] theorem features_op (o ts) : features (.op o ts) = (ts.map features).flatten := by
  simp [features]
@[simp] theorem opNodes_var (f) : opNodes (.var f) = [] := by simp [opNodes]
@[simp] theorem opNodes_const (c) : opNodes (.const c) = [] := by simp [opNodes]
@[simp] theorem opNodes_op (o ts) :
    opNodes (.op o ts) = (ts.map opNodes).flatten ++ [(o, ts.length)] := by
  simp [opNodes]

theorem eval_mapConst {T : Type} (ops : OpSet T) (feat c1 c2 : Nat → T) (ρ : Nat → Nat) (t : Tree)
    (h : ∀ c ∈ t.constIdxs, c2 (ρ c) = c1 c) :
    (t.mapConst ρ).eval ops feat c2 = t.eval ops feat c1 := by
  induction t using Tree.ind with
  | hv f => simp
  | hc c => simpa using h c (by simp)
  | ho o ts ih =>
    simp only [mapConst_op, eval_op, List.length_map, List.map_map]
    congr 1
    apply List.map_congr_left
    intro u hu
    exact ih u hu fun c hc => h c (by
      rw [constIdxs_op]; exact List.mem_flatten.mpr ⟨_, List.mem_map_of_mem hu, hc⟩)

theorem all_iff {pv pc : Nat → Prop} {po : Nat → Nat → Prop} {t : Tree} :
    All pv pc po t ↔ (∀ f ∈ t.features, pv f) ∧ (∀ c ∈ t.constIdxs, pc c) ∧
      (∀ p ∈ t.opNodes, po p.1 p.2) := by
  induction t using Tree.ind with
  | hv f => simp
  | hc c => simp
  | ho o ts ih =>
    simp only [all_op, features_op, constIdxs_op, opNodes_op, List.mem_flatten, List.mem_map,
      List.mem_append, List.mem_singleton]
    constructor
    · rintro ⟨h1, h2⟩
      refine ⟨?_, ?_, ?_⟩
      · rintro f ⟨_, ⟨u, hu, rfl⟩, hf⟩; exact ((ih u hu).mp (h2 u hu)).1 f hf
      · rintro f ⟨_, ⟨u, hu, rfl⟩, hf⟩; exact ((ih u hu).mp (h2 u hu)).2.1 f hf
      · rintro p (⟨_, ⟨u, hu, rfl⟩, hf⟩ | rfl)
        · exact ((ih u hu).mp (h2 u hu)).2.2 p hf
        · exact h1
    · rintro ⟨h1, h2, h3⟩
      refine ⟨h3 _ (Or.inr rfl), fun u hu => (ih u hu).mpr ⟨?_, ?_, ?_⟩⟩
      · exact fun f hf => h1 f ⟨_, ⟨u, hu, rfl⟩, hf⟩
      · exact fun f hf => h2 f ⟨_, ⟨u, hu, rfl⟩, hf⟩
      · exact fun f hf => h3 f (Or.inl ⟨_, ⟨u, hu, rfl⟩, hf⟩)

end Tree

/-- Renumber a flat node's constant. -/
def PNode.mapConst (ρ : Nat → Nat) : PNode → PNode
  | .const c => .const (ρ c)
  | n => n

/-- The constant index of a flat node. -/
def PNode.constIdx? : PNode → Option Nat
  | .const c => some c
  | _ => none

theorem toPostfix_mapConst (ρ : Nat → Nat) (t : Tree) :
    (t.mapConst ρ).toPostfix = t.toPostfix.map (PNode.mapConst ρ) := by
  induction t using Tree.ind with
  | hv f => simp [PNode.mapConst]
  | hc c => simp [PNode.mapConst]
  | ho o ts ih =>
    simp only [Tree.mapConst_op, Tree.toPostfix_op, List.length_map, List.map_map, List.map_append,
      List.map_flatten, List.map_singleton]
    congr 2
    apply List.map_congr_left
    intro u hu
    exact ih u hu

theorem constIdxs_toPostfix (t : Tree) : t.toPostfix.filterMap PNode.constIdx? = t.constIdxs := by
  induction t using Tree.ind with
  | hv f => simp [PNode.constIdx?]
  | hc c => simp [PNode.constIdx?]
  | ho o ts ih =>
    simp only [Tree.constIdxs_op, Tree.toPostfix_op, List.filterMap_append, List.filterMap_flatten,
      List.map_map]
    simp only [List.filterMap_cons, PNode.constIdx?, List.filterMap_nil, List.append_nil]
    congr 1
    apply List.map_congr_left
    intro u hu
    exact ih u hu

theorem opNodes_toPostfix (t : Tree) :
    (t.toPostfix.filterMap fun n => match n with | .op a o => some (o, a) | _ => none) = t.opNodes := by
  induction t using Tree.ind with
  | hv f => simp
  | hc c => simp
  | ho o ts ih =>
    simp only [Tree.opNodes_op, Tree.toPostfix_op, List.filterMap_append, List.filterMap_flatten,
      List.map_map]
    simp only [List.filterMap_cons, List.filterMap_nil]
    congr 2
    apply List.map_congr_left
    intro u hu
    exact ih u hu

/-- Shape of a tree is unchanged by renumbering. -/
theorem Tree.size_mapConst (ρ : Nat → Nat) (t : Tree) : (t.mapConst ρ).size = t.size := by
  induction t using Tree.ind with
  | hv f => simp
  | hc c => simp
  | ho o ts ih =>
    simp only [Tree.mapConst_op, Tree.size_op, List.map_map]
    congr 2
    exact List.map_congr_left fun u hu => ih u hu

theorem Tree.depth_mapConst (ρ : Nat → Nat) (t : Tree) : (t.mapConst ρ).depth = t.depth := by
  induction t using Tree.ind with
  | hv f => simp
  | hc c => simp
  | ho o ts ih =>
    simp only [Tree.mapConst_op, Tree.depth_op, List.map_map]
    congr 2
    exact List.map_congr_left fun u hu => ih u hu

theorem Tree.features_mapConst (ρ : Nat → Nat) (t : Tree) : (t.mapConst ρ).features = t.features := by
  induction t using Tree.ind with
  | hv f => simp
  | hc c => simp
  | ho o ts ih =>
    simp only [Tree.mapConst_op, Tree.features_op, List.map_map]
    congr 1
    exact List.map_congr_left fun u hu => ih u hu

theorem Tree.opNodes_mapConst (ρ : Nat → Nat) (t : Tree) : (t.mapConst ρ).opNodes = t.opNodes := by
  induction t using Tree.ind with
  | hv f => simp
  | hc c => simp
  | ho o ts ih =>
    simp only [Tree.mapConst_op, Tree.opNodes_op, List.map_map, List.length_map]
    congr 2
    exact List.map_congr_left fun u hu => ih u hu

theorem Tree.constIdxs_mapConst (ρ : Nat → Nat) (t : Tree) :
    (t.mapConst ρ).constIdxs = t.constIdxs.map ρ := by
  induction t using Tree.ind with
  | hv f => simp
  | hc c => simp
  | ho o ts ih =>
    simp only [Tree.mapConst_op, Tree.constIdxs_op, List.map_map, List.map_flatten]
    congr 1
    exact List.map_congr_left fun u hu => ih u hu

end SR
