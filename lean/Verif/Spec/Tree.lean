/-
Specification layer: expression trees, written without reference to the flat
(postfix) representation the code uses, plus the serialisation relating the two.
-/
namespace SR

/-- A node of the flat representation.
Models `dynamic_expressions/src/node.rs:2-6` (`PNode`).  `u8`/`u16` fields are `Nat`s here; the
places where the width matters carry explicit bounds. -/
inductive PNode where
  | var (feature : Nat)
  | const (idx : Nat)
  | op (arity : Nat) (op : Nat)
deriving DecidableEq, Repr, Inhabited

/-- Expression trees: the objects the properties talk about.  An operator's arity is the number of
its children. -/
inductive Tree where
  | var (feature : Nat)
  | const (idx : Nat)
  | op (op : Nat) (args : List Tree)
deriving Repr, Inhabited

namespace Tree

/-- Induction principle for trees (hypothesis for every child). -/
theorem ind {P : Tree → Prop} (hv : ∀ f, P (.var f)) (hc : ∀ c, P (.const c))
    (ho : ∀ o ts, (∀ t ∈ ts, P t) → P (.op o ts)) : ∀ t, P t := by
  intro t
  refine Tree.rec (motive_1 := P) (motive_2 := fun ts => ∀ t ∈ ts, P t) hv hc ?_ ?_ ?_ t
  · intro o ts h; exact ho o ts h
  · intro t h; cases h
  · intro t ts h1 h2 u hu
    rcases List.mem_cons.mp hu with h | h
    · exact h ▸ h1
    · exact h2 u h

mutual
/-- The generic bottom-up fold over a tree. -/
def fold {α : Type u} (fv fc : Nat → α) (fo : Nat → List α → α) : Tree → α
  | .var f => fv f
  | .const c => fc c
  | .op o ts => fo o (foldList fv fc fo ts)
/-- `fold` on every tree of a list. -/
def foldList {α : Type u} (fv fc : Nat → α) (fo : Nat → List α → α) : List Tree → List α
  | [] => []
  | t :: ts => fold fv fc fo t :: foldList fv fc fo ts
end

theorem foldList_eq_map {α : Type u} (fv fc : Nat → α) (fo : Nat → List α → α) (ts : List Tree) :
    foldList fv fc fo ts = ts.map (fold fv fc fo) := by
  induction ts with
  | nil => simp [foldList]
  | cons t ts ih => simp [foldList, ih]

@[simp] theorem fold_var {α : Type u} (fv fc : Nat → α) (fo : Nat → List α → α) (f : Nat) :
    fold fv fc fo (.var f) = fv f := by simp [fold]
@[simp] theorem fold_const {α : Type u} (fv fc : Nat → α) (fo : Nat → List α → α) (c : Nat) :
    fold fv fc fo (.const c) = fc c := by simp [fold]
@[simp] theorem fold_op {α : Type u} (fv fc : Nat → α) (fo : Nat → List α → α) (o : Nat)
    (ts : List Tree) :
    fold fv fc fo (.op o ts) = fo o (ts.map (fold fv fc fo)) := by
  simp [fold, foldList_eq_map]

/-- Post-order serialisation: children left to right, then the operator with its arity. -/
def toPostfix : Tree → List PNode :=
  fold (fun f => [.var f]) (fun c => [.const c]) (fun o cs => cs.flatten ++ [.op cs.length o])

/-- Number of nodes of the tree. -/
def size : Tree → Nat := fold (fun _ => 1) (fun _ => 1) (fun _ cs => 1 + cs.sum)

/-- Largest element of a list of naturals (0 when empty). -/
def maxList (l : List Nat) : Nat := l.foldr max 0

/-- Height of the tree, a leaf having height 1. -/
def depth : Tree → Nat := fold (fun _ => 1) (fun _ => 1) (fun _ cs => 1 + maxList cs)

/-- Number of constant leaves. -/
def numConsts : Tree → Nat := fold (fun _ => 0) (fun _ => 1) (fun _ cs => cs.sum)
/-- Number of variable leaves. -/
def numVars : Tree → Nat := fold (fun _ => 1) (fun _ => 0) (fun _ cs => cs.sum)
/-- Number of operator nodes. -/
def numOps : Tree → Nat := fold (fun _ => 0) (fun _ => 0) (fun _ cs => 1 + cs.sum)

/-- A property holds at every node of the tree: `pv`/`pc` on leaves, `po op arity` on operators. -/
inductive All (pv pc : Nat → Prop) (po : Nat → Nat → Prop) : Tree → Prop
  | var {f} : pv f → All pv pc po (.var f)
  | const {c} : pc c → All pv pc po (.const c)
  | op {o ts} : po o ts.length → (∀ t ∈ ts, All pv pc po t) → All pv pc po (.op o ts)

/-- Every operator node has at least one child. -/
def Proper : Tree → Prop := All (fun _ => True) (fun _ => True) (fun _ a => 1 ≤ a)

/-- `s` occurs as a subtree of `t` (possibly `t` itself). -/
inductive Sub (s : Tree) : Tree → Prop
  | refl : Sub s s
  | child {o ts t} : t ∈ ts → Sub s t → Sub s (.op o ts)

@[simp] theorem toPostfix_var (f) : toPostfix (.var f) = [.var f] := by simp [toPostfix]
@[simp] theorem toPostfix_const (f) : toPostfix (.const f) = [.const f] := by simp [toPostfix]
@[simp] theorem toPostfix_op (o ts) :
    toPostfix (.op o ts) = (ts.map toPostfix).flatten ++ [.op ts.length o] := by
  simp [toPostfix]
@[simp] theorem size_var (f) : size (.var f) = 1 := by simp [size]
@[simp] theorem size_const (f) : size (.const f) = 1 := by simp [size]
@[simp] theorem size_op (o ts) : size (.op o ts) = 1 + (ts.map size).sum := by simp [size]
@[simp] theorem depth_var (f) : depth (.var f) = 1 := by simp [depth]
@[simp] theorem depth_const (f) : depth (.const f) = 1 := by simp [depth]
@[simp] theorem depth_op (o ts) : depth (.op o ts) = 1 + maxList (ts.map depth) := by simp [depth]

@[simp] theorem all_var {pv pc po f} : All pv pc po (.var f) ↔ pv f :=
  ⟨fun h => by cases h; assumption, .var⟩
@[simp] theorem all_const {pv pc po f} : All pv pc po (.const f) ↔ pc f :=
  ⟨fun h => by cases h; assumption, .const⟩
@[simp] theorem all_op {pv pc po o ts} :
    All pv pc po (.op o ts) ↔ po o ts.length ∧ ∀ t ∈ ts, All pv pc po t :=
  ⟨fun h => by cases h with | op h1 h2 => exact ⟨h1, h2⟩, fun h => .op h.1 h.2⟩

theorem All.mono {pv pc pv' pc' : Nat → Prop} {po po' : Nat → Nat → Prop}
    (h1 : ∀ f, pv f → pv' f) (h2 : ∀ f, pc f → pc' f) (h3 : ∀ o a, po o a → po' o a) {t : Tree}
    (h : All pv pc po t) : All pv' pc' po' t := by
  induction h with
  | var h => exact .var (h1 _ h)
  | const h => exact .const (h2 _ h)
  | op h _ ih => exact .op (h3 _ _ h) ih

end Tree
end SR

namespace SR

/-- One-hole contexts: a tree with a distinguished position. -/
inductive Ctx where
  | hole
  | node (op : Nat) (left : List Tree) (inner : Ctx) (right : List Tree)
deriving Repr, Inhabited

namespace Ctx

/-- Put a tree into the hole. -/
def plug : Ctx → Tree → Tree
  | .hole, t => t
  | .node o l c r, t => .op o (l ++ c.plug t :: r)

/-- The nodes serialised before the subtree in the hole. -/
def pre : Ctx → List PNode
  | .hole => []
  | .node _ l c _ => (l.map Tree.toPostfix).flatten ++ c.pre

/-- The nodes serialised after the subtree in the hole. -/
def post : Ctx → List PNode
  | .hole => []
  | .node o l c r => c.post ++ (r.map Tree.toPostfix).flatten ++ [.op (l.length + 1 + r.length) o]

/-- Composition of contexts: the hole of `c` is filled with the context `d`. -/
def comp : Ctx → Ctx → Ctx
  | .hole, d => d
  | .node o l c r, d => .node o l (c.comp d) r

theorem toPostfix_plug (c : Ctx) (t : Tree) :
    (c.plug t).toPostfix = c.pre ++ t.toPostfix ++ c.post := by
  induction c with
  | hole => simp [plug, pre, post]
  | node o l c r ih =>
    simp [plug, pre, post, ih, Nat.add_comm, Nat.add_left_comm]

@[simp] theorem plug_comp (c d : Ctx) (t : Tree) : (c.comp d).plug t = c.plug (d.plug t) := by
  induction c with
  | hole => simp [plug, comp]
  | node o l c r ih => simp [plug, comp, ih]

end Ctx

namespace Tree

mutual
/-- All subtrees in post-order (the order of the serialisation). -/
def subtrees : Tree → List Tree
  | .var f => [.var f]
  | .const c => [.const c]
  | .op o ts => subtreesList ts ++ [.op o ts]
/-- `subtrees` of every tree of a list, concatenated. -/
def subtreesList : List Tree → List Tree
  | [] => []
  | t :: ts => subtrees t ++ subtreesList ts
end

theorem subtreesList_eq (ts : List Tree) : subtreesList ts = (ts.map subtrees).flatten := by
  induction ts with
  | nil => simp [subtreesList]
  | cons t ts ih => simp [subtreesList, ih]

@[simp] theorem subtrees_var (f) : subtrees (.var f) = [.var f] := by simp [subtrees]
@[simp] theorem subtrees_const (f) : subtrees (.const f) = [.const f] := by simp [subtrees]
@[simp] theorem subtrees_op (o ts) :
    subtrees (.op o ts) = (ts.map subtrees).flatten ++ [.op o ts] := by
  simp [subtrees, subtreesList_eq]

/-- The node at the root of a tree. -/
def rootNode : Tree → PNode
  | .var f => .var f
  | .const c => .const c
  | .op o ts => .op ts.length o

end Tree
end SR
