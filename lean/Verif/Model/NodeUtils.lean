import Verif.Spec.Tree
/-
Model of `dynamic_expressions/src/node_utils.rs`.
Rust `Vec` stacks (top at the end) are Lean lists with the top at the head; `stack[start..]`
(oldest first) is therefore `(stack.take a).reverse`.  A panic is `none`.
-/
namespace SR

/-- One loop body of `tree_mapreduce_impl`, node_utils.rs:40-51. -/
def mapreduceStep {R B : Type} (fLeaf : PNode → R) (fBranch : PNode → B) (op : B → List R → R)
    (stack : List R) (n : PNode) : Option (List R) :=
  match n with
  | .op arity _ =>
    if arity ≤ stack.length then
      some (op (fBranch n) (stack.take arity).reverse :: stack.drop arity)
    else none
  | _ => some (fLeaf n :: stack)

/-- `tree_mapreduce` / `tree_mapreduce_with_stack` / `tree_mapreduce_impl`, node_utils.rs:5-55.
The reusable stack is cleared on entry (line 23), so both variants start from the empty stack.
Closures are pure here (all callers in the repo that matter pass pure closures). -/
def treeMapreduce {R B : Type} (fLeaf : PNode → R) (fBranch : PNode → B) (op : B → List R → R)
    (nodes : List PNode) : Option R :=
  match nodes.foldlM (mapreduceStep fLeaf fBranch op) [] with
  | some [r] => some r
  | _ => none

/-- `children.iter().copied().max().unwrap_or(0)`, node_utils.rs:68. -/
def iterMaxOr0 (l : List Nat) : Nat := (l.max?).getD 0

/-- `count_depth`, node_utils.rs:61-72. -/
def countDepth (nodes : List PNode) : Option Nat :=
  treeMapreduce (fun _ => 1) (fun _ => 0) (fun (_ : Nat) children => iterMaxOr0 children + 1) nodes

/-- `count_nodes`, node_utils.rs:74-76. -/
def countNodes (nodes : List PNode) : Nat := nodes.length

/-- `matches!(n, PNode::Const { .. })`. -/
def PNode.isConst : PNode → Bool | .const _ => true | _ => false
/-- `matches!(n, PNode::Var { .. })`. -/
def PNode.isVar : PNode → Bool | .var _ => true | _ => false
/-- `matches!(n, PNode::Op { .. })`. -/
def PNode.isOp : PNode → Bool | .op _ _ => true | _ => false

/-- `has_constants`, node_utils.rs:78-80. -/
def hasConstants (nodes : List PNode) : Bool := nodes.any PNode.isConst
/-- `count_constant_nodes`, node_utils.rs:82-84. -/
def countConstantNodes (nodes : List PNode) : Nat := (nodes.filter PNode.isConst).length
/-- `has_operators`, node_utils.rs:86-88. -/
def hasOperators (nodes : List PNode) : Bool := nodes.any PNode.isOp
/-- `has_variables`, node_utils.rs:90-92. -/
def hasVariables (nodes : List PNode) : Bool := nodes.any PNode.isVar
/-- `count_variable_nodes`, node_utils.rs:94-96. -/
def countVariableNodes (nodes : List PNode) : Nat := (nodes.filter PNode.isVar).length
/-- `count_operator_nodes`, node_utils.rs:98-100. -/
def countOperatorNodes (nodes : List PNode) : Nat := (nodes.filter PNode.isOp).length

/-- `max_arity`, node_utils.rs:102-111. -/
def maxArity (nodes : List PNode) : Nat :=
  iterMaxOr0 (nodes.filterMap fun n => match n with | .op a _ => some a | _ => none)

/-- `is_leaf`, node_utils.rs:113-115. -/
def isLeaf : List PNode → Bool
  | [.var _] => true
  | [.const _] => true
  | _ => false

/-- Loop of `is_valid_postfix`, node_utils.rs:118-134; `stack` is the running `isize` counter
(it never goes negative, so `Nat` is faithful). -/
def isValidPostfixGo : List PNode → Nat → Bool
  | [], stack => stack == 1
  | .op a _ :: ns, stack =>
    if a = 0 then false
    else if stack < a then false
    else isValidPostfixGo ns (stack - a + 1)
  | _ :: ns, stack => isValidPostfixGo ns (stack + 1)

/-- `is_valid_postfix`, node_utils.rs:117-135. -/
def isValidPostfix (nodes : List PNode) : Bool := isValidPostfixGo nodes 0

/-- Loop of `subtree_sizes`, node_utils.rs:141-157: returns the sizes written for the remaining
nodes and the final stack. -/
def subtreeSizesGo : List PNode → List Nat → Option (List Nat × List Nat)
  | [], stack => some ([], stack)
  | .op a _ :: ns, stack =>
    if a ≤ stack.length then
      let sum := 1 + (stack.take a).sum
      (subtreeSizesGo ns (sum :: stack.drop a)).map fun r => (sum :: r.1, r.2)
    else none
  | _ :: ns, stack => (subtreeSizesGo ns (1 :: stack)).map fun r => (1 :: r.1, r.2)

/-- `subtree_sizes`, node_utils.rs:137-161. -/
def subtreeSizes (nodes : List PNode) : Option (List Nat) :=
  match subtreeSizesGo nodes [] with
  | some (sizes, [_]) => some sizes
  | _ => none

/-- `subtree_range`, node_utils.rs:163-166.  `none` models the index panic; `root_idx + 1 - sz`
does not underflow for tables produced by `subtree_sizes`. -/
def subtreeRange (sizes : List Nat) (rootIdx : Nat) : Option (Nat × Nat) :=
  sizes[rootIdx]?.map fun sz => (rootIdx + 1 - sz, rootIdx)

end SR
