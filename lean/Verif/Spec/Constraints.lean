import Verif.Model.Lookup
/-
Specification of complexity and of the constraints on expressions, on trees.
-/
namespace SR

/-- Configured weight of every kind of node. -/
structure Weights where
  var : Nat → Nat
  const : Nat
  op : OpId → Nat

/-- Weight of one node. -/
def Weights.node (W : Weights) : PNode → Nat
  | .var f => W.var f
  | .const _ => W.const
  | .op a o => W.op ⟨a, o⟩

/-- Complexity of a tree: the sum of the weights of its nodes. -/
def Weights.total (W : Weights) (t : Tree) : Nat := (t.toPostfix.map W.node).sum

/-- The node sequences met on the way from the root to each leaf. -/
def Tree.paths : Tree → List (List PNode) :=
  Tree.fold (fun f => [[.var f]]) (fun c => [[.const c]])
    (fun o ps => ps.flatten.map (PNode.op ps.length o :: ·))

/-- The constraints a user configures. -/
structure Limits where
  weights : Weights
  /-- largest complexity -/
  size : Nat
  /-- largest depth -/
  depth : Nat
  /-- largest complexity of argument `j` of an operator, if limited -/
  arg : OpId → Nat → Option Nat
  /-- `nest p q m`: below an operator `p`, operator `q` may occur at most `m` times on any path -/
  nest : OpId → OpId → Nat → Prop

/-- The expression satisfies all constraints. -/
structure Limits.Allows (L : Limits) (t : Tree) : Prop where
  size : L.weights.total t ≤ L.size
  depth : t.depth ≤ L.depth
  arg : ∀ (o : Nat) (ts : List Tree), Tree.Sub (.op o ts) t → ∀ (j lim : Nat) (u : Tree),
    ts[j]? = some u → L.arg ⟨ts.length, o⟩ j = some lim → L.weights.total u ≤ lim
  nest : ∀ (o : Nat) (ts : List Tree), Tree.Sub (.op o ts) t → ∀ (q : OpId) (m : Nat),
    L.nest ⟨ts.length, o⟩ q m → ∀ u ∈ ts, ∀ p ∈ u.paths, p.count (.op q.arity q.id) ≤ m

end SR
