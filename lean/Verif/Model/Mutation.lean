import Verif.Model.Lookup
import Verif.Model.Utils
/-
Model of `symbolic_regression/src/mutation_functions.rs`.
`F` is the type of float draws, `T` the scalar type of the expression.  `arity as u8` never truncates for
operator arities up to 255, and arities are `Nat`s here.
-/
namespace SR
variable {F T : Type}

/-- `&nodes[a..=b]` (panics when out of range). -/
def slice (nodes : List PNode) (a b : Nat) : Option (List PNode) :=
  if b < nodes.length ∧ a ≤ b + 1 then some ((nodes.take (b + 1)).drop a) else none

/-- `nodes.splice(a..=b, new)`. -/
def splice (nodes : List PNode) (a b : Nat) (new : List PNode) : Option (List PNode) :=
  if b < nodes.length ∧ a ≤ b + 1 then some (nodes.take a ++ new ++ nodes.drop (b + 1)) else none

/-- The index collections `nodes.iter().enumerate().filter_map(..)`, mutation_functions.rs:48-52, 121-143,
248-253. -/
def positions (p : PNode → Bool) (nodes : List PNode) : List Nat :=
  (nodes.zipIdx.filter fun x => p x.1).map fun x => x.2

/-- `idxs[usize_range(rng, 0..idxs.len())]`. -/
def pick {α : Type} (l : List α) : Rand F α := do
  let k ← Rand.below l.length
  Rand.lift l[k]?

/-- Leaf test of mutation_functions.rs:51 and 95. -/
def PNode.isLeafNode : PNode → Bool | .op _ _ => false | _ => true

/-- `random_leaf`, mutation_functions.rs:11-27.  `normal u1 u2` is `standard_normal` (random.rs:15-19) of the
two float draws, converted to the scalar type. -/
def randomLeaf (normal : F → F → T) (nFeatures : Nat) (consts : List T) : Rand F (PNode × List T) := do
  let b ← Rand.bool
  if b then
    let u1 ← Rand.float
    let u2 ← Rand.float
    if consts.length ≤ u16Max then pure (.const consts.length, consts ++ [normal u1 u2]) else Rand.fail
  else
    let f ← Rand.below nFeatures
    if f ≤ u16Max then pure (.var f, consts) else Rand.fail

/-- `for _ in 0..arity { repl.push(random_leaf(..)) }`, mutation_functions.rs:55-57, 106-108, 470-472. -/
def randomLeaves (normal : F → F → T) (nFeatures : Nat) : Nat → List T → Rand F (List PNode × List T)
  | 0, consts => pure ([], consts)
  | k + 1, consts => do
    let (n, consts) ← randomLeaf normal nFeatures consts
    let (ns, consts) ← randomLeaves normal nFeatures k consts
    pure (n :: ns, consts)

/-- Loop of `random_expr`, mutation_functions.rs:40-62; `fuel` bounds the number of iterations (each adds at
least one node, so `target_size` of them suffice). -/
def randomExprLoop (normal : F → F → T) (operators : Operators) (nFeatures target : Nat) :
    Nat → PostfixExpr T → Rand F (PostfixExpr T)
  | 0, e => pure e
  | fuel + 1, e =>
    if e.nodes.length < target ∧
        0 < operators.totalOpsUpTo (min operators.D (target - e.nodes.length)) then do
      let rem := target - e.nodes.length
      let arity ← operators.sampleArity (min rem operators.D)
      let op ← operators.sampleOp arity
      let leafIdx ← pick (positions PNode.isLeafNode e.nodes)
      let (repl, consts) ← randomLeaves normal nFeatures arity e.consts
      let nodes ← Rand.lift (splice e.nodes leafIdx leafIdx (repl ++ [.op arity op.id]))
      randomExprLoop normal operators nFeatures target fuel ⟨nodes, consts⟩
    else pure e

/-- `random_expr`, mutation_functions.rs:29-65. -/
def randomExpr (normal : F → F → T) (operators : Operators) (nFeatures target : Nat) :
    Rand F (PostfixExpr T) :=
  if 1 ≤ target then do
    let (n, consts) ← randomLeaf normal nFeatures []
    randomExprLoop normal operators nFeatures target target ⟨[n], consts⟩
  else Rand.fail

/-- Loop of `random_expr_append_ops`, mutation_functions.rs:83-114. -/
def randomExprAppendLoop (normal : F → F → T) (operators : Operators) (nFeatures maxSize : Nat) :
    Nat → PostfixExpr T → Rand F (PostfixExpr T)
  | 0, e => pure e
  | k + 1, e =>
    let rem := maxSize - e.nodes.length
    if rem = 0 then pure e
    else if operators.totalOpsUpTo (min rem operators.D) = 0 then pure e
    else do
      let arity ← operators.sampleArity (min rem operators.D)
      let op ← operators.sampleOp arity
      let leaves := positions PNode.isLeafNode e.nodes
      if leaves.isEmpty then pure e
      else
        let leafIdx ← pick leaves
        let (repl, consts) ← randomLeaves normal nFeatures arity e.consts
        let nodes ← Rand.lift (splice e.nodes leafIdx leafIdx (repl ++ [.op arity op.id]))
        randomExprAppendLoop normal operators nFeatures maxSize k ⟨nodes, consts⟩

/-- `dynamic_expressions::compress_constants(expr)` used for its effect. -/
def compressR (e : PostfixExpr T) : Rand F (PostfixExpr T) :=
  Rand.lift ((compressConstants e).map Prod.fst)

/-- `random_expr_append_ops`, mutation_functions.rs:73-119. -/
def randomExprAppendOps [Scalar T] (normal : F → F → T) (operators : Operators)
    (nFeatures nAppend maxSize : Nat) : Rand F (PostfixExpr T) := do
  let e ← randomExprAppendLoop normal operators nFeatures (max maxSize 1) nAppend zeroExpr
  compressR e

/-- Loop of `child_ranges`, mutation_functions.rs:147-154: `k` children remain, `end1` is `end + 1`. -/
def childRangesGo (sizes : List Nat) : Nat → Nat → List (Nat × Nat) → Option (List (Nat × Nat))
  | 0, _, acc => some acc
  | k + 1, end1, acc =>
    if end1 = 0 then none
    else match sizes[end1 - 1]? with
      | none => none
      | some sz =>
        if sz ≤ end1 then childRangesGo sizes k (end1 - sz) ((end1 - sz, end1 - 1) :: acc) else none

/-- `child_ranges`, mutation_functions.rs:145-156. -/
def childRanges (sizes : List Nat) (rootIdx arity : Nat) : Option (List (Nat × Nat)) :=
  childRangesGo sizes arity rootIdx []

/-- The `f64` arithmetic used by the constant mutation. -/
structure FArith (F : Type) where
  zero : F
  one : F
  /-- the literal 1.1 -/
  onePointOne : F
  add : F → F → F
  mul : F → F → F
  div : F → F → F
  neg : F → F
  max : F → F → F
  powf : F → F → F
  gt : F → F → Bool

/-- The factor of the constant mutation, mutation_functions.rs:175-184: temperature, perturbation factor,
negation probability, then the three draws. -/
def mutateFactor (A : FArith F) (perturb temperature probNegate : F) (exponent : F) (bigger : Bool)
    (u : F) : F :=
  let pf := A.mul perturb (A.max temperature A.zero)
  let maxChange := A.add pf A.onePointOne
  let mul := A.powf maxChange exponent
  let mul := if bigger then mul else A.div A.one mul
  if A.gt u probNegate then A.neg mul else mul

/-- `mutate_constant_in_place`, mutation_functions.rs:158-186; `cast` is `T::from`. -/
def mutateConstant (A : FArith F) (cast : F → T) (mulT : T → T → T) (perturb temperature probNegate : F)
    (e : PostfixExpr T) : Rand F (PostfixExpr T × Bool) := do
  let idxs := positions PNode.isConst e.nodes
  if idxs.isEmpty then pure (e, false)
  else
    let i ← pick idxs
    match e.nodes[i]? with
    | some (.const ci) =>
      let exponent ← Rand.float
      let bigger ← Rand.bool
      let u ← Rand.float
      match e.consts[ci]? with
      | none => Rand.fail
      | some v =>
        let factor := cast (mutateFactor A perturb temperature probNegate exponent bigger u)
        pure ({ e with consts := e.consts.set ci (mulT v factor) }, true)
    | _ => pure (e, false)

/-- `mutate_operator_in_place`, mutation_functions.rs:188-211. -/
def mutateOperator (operators : Operators) (e : PostfixExpr T) : Rand F (PostfixExpr T × Bool) := do
  let idxs := positions PNode.isOp e.nodes
  if idxs.isEmpty then pure (e, false)
  else
    let i ← pick idxs
    match e.nodes[i]? with
    | some (.op a _) =>
      if operators.nops a = 0 then pure (e, false)
      else
        let op ← operators.sampleOp a
        pure ({ e with nodes := e.nodes.set i (.op a op.id) }, true)
    | _ => pure (e, false)

/-- The eight tries of `mutate_feature_in_place`, mutation_functions.rs:234-244. -/
def mutateFeatureLoop (nFeatures old i : Nat) (e : PostfixExpr T) : Nat → Rand F (PostfixExpr T × Bool)
  | 0 => pure (e, false)
  | k + 1 => do
    let f ← Rand.below nFeatures
    if f ≠ old then
      if f ≤ u16Max then pure ({ e with nodes := e.nodes.set i (.var f) }, true) else Rand.fail
    else mutateFeatureLoop nFeatures old i e k

/-- `mutate_feature_in_place`, mutation_functions.rs:213-245. -/
def mutateFeature (nFeatures : Nat) (e : PostfixExpr T) : Rand F (PostfixExpr T × Bool) :=
  if nFeatures ≤ 1 then pure (e, false)
  else do
    let idxs := positions PNode.isVar e.nodes
    if idxs.isEmpty then pure (e, false)
    else
      let i ← pick idxs
      match e.nodes[i]? with
      | some (.var old) =>
        if nFeatures ≤ old then pure (e, false) else mutateFeatureLoop nFeatures old i e 8
      | _ => pure (e, false)

/-- `matches!(n, PNode::Op { arity: 2, .. })`, mutation_functions.rs:252. -/
def PNode.isBinary : PNode → Bool | .op 2 _ => true | _ => false

/-- `swap_operands_in_place`, mutation_functions.rs:247-270. -/
def swapOperands (e : PostfixExpr T) : Rand F (PostfixExpr T × Bool) := do
  let idxs := positions PNode.isBinary e.nodes
  if idxs.isEmpty then pure (e, false)
  else
    let sizes ← Rand.lift (subtreeSizes e.nodes)
    let rootIdx ← pick idxs
    match e.nodes[rootIdx]? with
    | some (.op _ op) =>
      let (subStart, subEnd) ← Rand.lift (subtreeRange sizes rootIdx)
      let child ← Rand.lift (childRanges sizes rootIdx 2)
      let c0 ← Rand.lift child[0]?
      let c1 ← Rand.lift child[1]?
      let s1 ← Rand.lift (slice e.nodes c1.1 c1.2)
      let s0 ← Rand.lift (slice e.nodes c0.1 c0.2)
      let nodes ← Rand.lift (splice e.nodes subStart subEnd (s1 ++ s0 ++ [.op 2 op]))
      pure ({ e with nodes := nodes }, true)
    | _ => pure (e, false)

/-- Is the node at the end of the range an operator? (`matches!(expr.nodes[c.1], PNode::Op { .. })`) -/
def endIsOp (nodes : List PNode) (c : Nat × Nat) : Bool :=
  match nodes[c.2]? with
  | some n => n.isOp
  | none => false

/-- The search for rotation roots, mutation_functions.rs:277-290: indices `i ≥ start` of the remaining nodes. -/
def validRoots (nodes : List PNode) (sizes : List Nat) : List PNode → Nat → Option (List Nat)
  | [], _ => some []
  | .op a _ :: rest, i =>
    if a = 0 then validRoots nodes sizes rest (i + 1)
    else match childRanges sizes i a with
      | none => none
      | some cs =>
        if cs.any (endIsOp nodes) then (validRoots nodes sizes rest (i + 1)).map (i :: ·)
        else validRoots nodes sizes rest (i + 1)
  | _ :: rest, i => validRoots nodes sizes rest (i + 1)

/-- Concatenate the slices of the child ranges, the `pos`-th replaced by `repl`,
mutation_functions.rs:340-346 and 353-358. -/
def gather (nodes : List PNode) (pos : Nat) (repl : List PNode) : List (Nat × Nat) → Nat →
    Option (List PNode)
  | [], _ => some []
  | c :: cs, j =>
    match (if j = pos then some repl else slice nodes c.1 c.2) with
    | none => none
    | some h => (gather nodes pos repl cs (j + 1)).map (h ++ ·)

/-- `rotate_tree_in_place`, mutation_functions.rs:272-368. -/
def rotateTree (e : PostfixExpr T) : Rand F (PostfixExpr T × Bool) := do
  let sizes ← Rand.lift (subtreeSizes e.nodes)
  let roots ← Rand.lift (validRoots e.nodes sizes e.nodes 0)
  if roots.isEmpty then pure (e, false)
  else
    let rootIdx ← pick roots
    match e.nodes[rootIdx]? with
    | some (.op rootArity opRoot) =>
      if rootArity = 0 then pure (e, false)
      else
        let rootChildren : List (Nat × Nat) ← Rand.lift (childRanges sizes rootIdx rootArity)
        let pivots := (rootChildren.zipIdx.filter fun x => endIsOp e.nodes x.1).map fun x => x.2
        if pivots.isEmpty then pure (e, false)
        else
          let pivotPos : Nat ← pick pivots
          let pc : Nat × Nat ← Rand.lift rootChildren[pivotPos]?
          match e.nodes[pc.2]? with
          | some (.op pivotArity opPivot) =>
            if pivotArity = 0 then pure (e, false)
            else
              let pivotChildren ← Rand.lift (childRanges sizes pc.2 pivotArity)
              let gpos ← Rand.below pivotArity
              let gc ← Rand.lift pivotChildren[gpos]?
              let (subStart, subEnd) ← Rand.lift (subtreeRange sizes rootIdx)
              let gslice ← Rand.lift (slice e.nodes gc.1 gc.2)
              let rr ← Rand.lift (gather e.nodes pivotPos gslice rootChildren 0)
              let ns ← Rand.lift (gather e.nodes gpos (rr ++ [.op rootArity opRoot]) pivotChildren 0)
              let nodes ← Rand.lift (splice e.nodes subStart subEnd (ns ++ [.op pivotArity opPivot]))
              pure ({ e with nodes := nodes }, true)
          | _ => pure (e, false)
    | _ => pure (e, false)

/-- The loop `for j in 0..arity { if j == carry_pos {..} else {..} }`, mutation_functions.rs:391-397, 425-431:
`k` iterations remain, the current index is `j`. -/
def carryLoop (normal : F → F → T) (nFeatures carry : Nat) (old : List PNode) :
    Nat → Nat → List T → Rand F (List PNode × List T)
  | 0, _, consts => pure ([], consts)
  | k + 1, j, consts =>
    if j = carry then do
      let (ns, consts) ← carryLoop normal nFeatures carry old k (j + 1) consts
      pure (old ++ ns, consts)
    else do
      let (n, consts) ← randomLeaf normal nFeatures consts
      let (ns, consts) ← carryLoop normal nFeatures carry old k (j + 1) consts
      pure (n :: ns, consts)

/-- `insert_random_op_in_place`, mutation_functions.rs:370-406. -/
def insertRandomOp (normal : F → F → T) (operators : Operators) (nFeatures : Nat) (e : PostfixExpr T) :
    Rand F (PostfixExpr T × Bool) :=
  if e.nodes.isEmpty then pure (e, false)
  else if operators.totalOpsUpTo operators.D = 0 then pure (e, false)
  else do
    let rootIdx ← Rand.below e.nodes.length
    let sizes ← Rand.lift (subtreeSizes e.nodes)
    let (start, stop) ← Rand.lift (subtreeRange sizes rootIdx)
    let oldSub ← Rand.lift (slice e.nodes start stop)
    let arity ← operators.sampleArity operators.D
    let op ← operators.sampleOp arity
    let carry ← Rand.below arity
    let (newSub, consts) ← carryLoop normal nFeatures carry oldSub arity 0 e.consts
    let nodes ← Rand.lift (splice e.nodes start stop (newSub ++ [.op arity op.id]))
    let e' ← compressR ⟨nodes, consts⟩
    pure (e', true)

/-- `prepend_random_op_in_place`, mutation_functions.rs:408-440. -/
def prependRandomOp (normal : F → F → T) (operators : Operators) (nFeatures : Nat) (e : PostfixExpr T) :
    Rand F (PostfixExpr T × Bool) :=
  if e.nodes.isEmpty then pure (e, false)
  else if operators.totalOpsUpTo operators.D = 0 then pure (e, false)
  else do
    let arity ← operators.sampleArity operators.D
    let op ← operators.sampleOp arity
    let carry ← Rand.below arity
    let (newNodes, consts) ← carryLoop normal nFeatures carry e.nodes arity 0 e.consts
    let e' ← compressR ⟨newNodes ++ [.op arity op.id], consts⟩
    pure (e', true)

/-- `append_random_op_in_place`, mutation_functions.rs:442-481. -/
def appendRandomOp (normal : F → F → T) (operators : Operators) (nFeatures : Nat) (e : PostfixExpr T) :
    Rand F (PostfixExpr T × Bool) :=
  if e.nodes.isEmpty then pure (e, false)
  else if operators.totalOpsUpTo operators.D = 0 then pure (e, false)
  else
    let leaves := positions PNode.isLeafNode e.nodes
    if leaves.isEmpty then pure (e, false)
    else do
      let leafIdx ← pick leaves
      let arity ← operators.sampleArity operators.D
      let op ← operators.sampleOp arity
      let (repl, consts) ← randomLeaves normal nFeatures arity e.consts
      let nodes ← Rand.lift (splice e.nodes leafIdx leafIdx (repl ++ [.op arity op.id]))
      let e' ← compressR ⟨nodes, consts⟩
      pure (e', true)

/-- `add_node_in_place`, mutation_functions.rs:483-494. -/
def addNode (normal : F → F → T) (operators : Operators) (nFeatures : Nat) (e : PostfixExpr T) :
    Rand F (PostfixExpr T × Bool) := do
  let b ← Rand.bool
  if b then appendRandomOp normal operators nFeatures e else prependRandomOp normal operators nFeatures e

/-- `delete_random_op_in_place`, mutation_functions.rs:496-523. -/
def deleteRandomOp (e : PostfixExpr T) : Rand F (PostfixExpr T × Bool) := do
  let idxs := positions PNode.isOp e.nodes
  if idxs.isEmpty then pure (e, false)
  else
    let rootIdx ← pick idxs
    match e.nodes[rootIdx]? with
    | some (.op a _) =>
      if a = 0 then pure (e, false)
      else
        let sizes ← Rand.lift (subtreeSizes e.nodes)
        let (subStart, subEnd) ← Rand.lift (subtreeRange sizes rootIdx)
        if subStart = subEnd then pure (e, false)
        else
          let child ← Rand.lift (childRanges sizes rootIdx a)
          let k ← Rand.below a
          let keep ← Rand.lift child[k]?
          let kept ← Rand.lift (slice e.nodes keep.1 keep.2)
          let nodes ← Rand.lift (splice e.nodes subStart subEnd kept)
          let e' ← compressR ⟨nodes, e.consts⟩
          pure (e', true)
    | _ => pure (e, false)

/-- State of `remap_subtree_consts`: the `map` table, destination constants, output nodes. -/
structure RemapState (T : Type) where
  map : List (Option Nat)
  dst : List T
  out : List PNode

/-- Loop body of `remap_subtree_consts`, mutation_functions.rs:537-557. -/
def remapStep (donorConsts : List T) (st : RemapState T) (n : PNode) : Option (RemapState T) :=
  match n with
  | .const old =>
    match st.map[old]? with
    | none => none
    | some (some v) => some { st with out := st.out ++ [.const v] }
    | some none =>
      if st.dst.length ≤ u16Max then
        match donorConsts[old]? with
        | none => none
        | some x => some { map := st.map.set old (some st.dst.length), dst := st.dst ++ [x],
                           out := st.out ++ [.const st.dst.length] }
      else none
  | n => some { st with out := st.out ++ [n] }

/-- `remap_subtree_consts`, mutation_functions.rs:530-559: (destination constants, nodes). -/
def remapSubtreeConsts (donorNodes : List PNode) (donorConsts dst : List T) :
    Option (List T × List PNode) :=
  (donorNodes.foldlM (remapStep donorConsts)
    { map := List.replicate donorConsts.length none, dst := dst, out := [] }).map
    fun st => (st.dst, st.out)

/-- One child of the crossover, mutation_functions.rs:571-577 and 585-586: `a` with its range
`[start, stop]` replaced by the (renumbered) nodes `sub` of `b`. -/
def crossChild (a b : PostfixExpr T) (start stop : Nat) (sub : List PNode) : Option (PostfixExpr T) := do
  let (consts, remapped) ← remapSubtreeConsts sub b.consts a.consts
  let (e, _) ← compressConstants ⟨a.nodes.take start ++ remapped ++ a.nodes.drop (stop + 1), consts⟩
  some e

/-- `crossover_trees`, mutation_functions.rs:525-591. -/
def crossoverTrees (a b : PostfixExpr T) : Rand F (PostfixExpr T × PostfixExpr T) := do
  let aSizes ← Rand.lift (subtreeSizes a.nodes)
  let bSizes ← Rand.lift (subtreeSizes b.nodes)
  let aRoot ← Rand.below a.nodes.length
  let bRoot ← Rand.below b.nodes.length
  let (aStart, aEnd) ← Rand.lift (subtreeRange aSizes aRoot)
  let (bStart, bEnd) ← Rand.lift (subtreeRange bSizes bRoot)
  let aSub ← Rand.lift (slice a.nodes aStart aEnd)
  let bSub ← Rand.lift (slice b.nodes bStart bEnd)
  let childA ← Rand.lift (crossChild a b aStart aEnd bSub)
  let childB ← Rand.lift (crossChild b a bStart bEnd aSub)
  pure (childA, childB)

end SR
