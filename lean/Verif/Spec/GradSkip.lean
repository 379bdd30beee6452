import Verif.Spec.Deriv
/-
The derivative as the two derivative evaluators compute it in rounded arithmetic: the chain rule, with the products by
zero they leave out.  No law of arithmetic is assumed here: `0 * ∞` need not be `0`, `0 + x` need not be `x`.
-/
namespace SR
variable {T : Type} [Scalar T]

/-- The chain rule's sum as the gradient evaluator rounds it.  Each argument comes with its derivative and with the
information whether it is a leaf (a feature or a constant).  With one argument the product is not added to zero, and is
not formed at all if the argument is a leaf of derivative zero; with two arguments, likewise if both are. -/
def chainSkip (p : Nat → T) : List (Bool × T) → T
  | [(leaf, d)] => if leaf && Scalar.isZero d then Scalar.zero else Scalar.mul (p 0) d
  | [(leaf, d), (leaf', d')] =>
    if leaf && leaf' && (Scalar.isZero d && Scalar.isZero d') then Scalar.zero
    else Scalar.add (Scalar.mul (p 0) d) (Scalar.mul (p 1) d')
  | ds => chainSum p (ds.map Prod.snd)

/-- The chain rule's sum as the directional evaluator rounds it: as `chainSkip`, but with two arguments both products
are always formed. -/
def chainDir (p : Nat → T) : List (Bool × T) → T
  | [(leaf, d)] => if leaf && Scalar.isZero d then Scalar.zero else Scalar.mul (p 0) d
  | [(_, d), (_, d')] => Scalar.add (Scalar.mul (p 0) d) (Scalar.mul (p 1) d')
  | ds => chainSum p (ds.map Prod.snd)

/-- Whether the expression is a feature or a constant. -/
def Tree.isLeaf : Tree → Bool
  | .op _ _ => false
  | _ => true

/-- Value, whether it is a leaf, and derivative of an expression, with the sums of `chain`. -/
def Tree.dualWith (chain : (Nat → T) → List (Bool × T) → T) (ops : OpSet T) (feat const sv sc : Nat → T) :
    Tree → T × (Bool × T) :=
  Tree.fold (fun f => (feat f, true, sv f)) (fun c => (const c, true, sc c)) (fun o ps =>
    (ops.eval ps.length o (ps.map Prod.fst), false,
     chain (ops.partial_ ps.length o (ps.map Prod.fst)) (ps.map Prod.snd)))

/-- The derivative of an expression, with the sums of `chain`. -/
def Tree.derivWith (chain : (Nat → T) → List (Bool × T) → T) (ops : OpSet T) (feat const sv sc : Nat → T)
    (t : Tree) : T :=
  (t.dualWith chain ops feat const sv sc).2.2

/-- The derivative as the gradient evaluator computes it in any arithmetic, rounded or not. -/
abbrev Tree.derivSkip (ops : OpSet T) (feat const sv sc : Nat → T) (t : Tree) : T :=
  t.derivWith chainSkip ops feat const sv sc

/-- The derivative as the directional evaluator computes it in any arithmetic, rounded or not. -/
abbrev Tree.derivDir (ops : OpSet T) (feat const sv sc : Nat → T) (t : Tree) : T :=
  t.derivWith chainDir ops feat const sv sc

variable (chain : (Nat → T) → List (Bool × T) → T)

theorem Tree.dualWith_eq (ops : OpSet T) (feat const sv sc : Nat → T) (t : Tree) :
    t.dualWith chain ops feat const sv sc
      = (t.eval ops feat const, t.isLeaf, t.derivWith chain ops feat const sv sc) := by
  have : (t.dualWith chain ops feat const sv sc).1 = t.eval ops feat const := by
    induction t using Tree.ind with
    | hv f => simp [Tree.dualWith]
    | hc f => simp [Tree.dualWith]
    | ho o ts ih =>
      have e : Tree.dualWith chain ops feat const sv sc (.op o ts)
          = (fun ps : List (T × (Bool × T)) => (ops.eval ps.length o (ps.map Prod.fst), false,
       chain (ops.partial_ ps.length o (ps.map Prod.fst)) (ps.map Prod.snd)))
            (ts.map (Tree.dualWith chain ops feat const sv sc)) := by simp only [Tree.dualWith, Tree.fold_op]
      have h2 : (ts.map (Tree.dualWith chain ops feat const sv sc)).map Prod.fst = ts.map (Tree.eval ops feat const) := by
        rw [List.map_map]; exact List.map_congr_left fun t ht => ih t ht
      rw [e]
      simp only [h2]
      simp
  have h2 : (t.dualWith chain ops feat const sv sc).2.1 = t.isLeaf := by
    cases t <;> simp [Tree.dualWith, Tree.isLeaf]
  rw [← this, ← h2]; rfl

@[simp] theorem Tree.derivWith_var (ops : OpSet T) (feat const sv sc : Nat → T) (f) :
    Tree.derivWith chain ops feat const sv sc (.var f) = sv f := by simp [Tree.derivWith, Tree.dualWith]
@[simp] theorem Tree.derivWith_const (ops : OpSet T) (feat const sv sc : Nat → T) (f) :
    Tree.derivWith chain ops feat const sv sc (.const f) = sc f := by simp [Tree.derivWith, Tree.dualWith]
@[simp] theorem Tree.derivWith_op (ops : OpSet T) (feat const sv sc : Nat → T) (o ts) :
    Tree.derivWith chain ops feat const sv sc (.op o ts)
      = chain (ops.partial_ ts.length o (ts.map (Tree.eval ops feat const)))
          (ts.map fun t => (t.isLeaf, t.derivWith chain ops feat const sv sc)) := by
  have e : Tree.dualWith chain ops feat const sv sc (.op o ts)
        = (fun ps : List (T × (Bool × T)) => (ops.eval ps.length o (ps.map Prod.fst), false,
     chain (ops.partial_ ps.length o (ps.map Prod.fst)) (ps.map Prod.snd)))
          (ts.map (Tree.dualWith chain ops feat const sv sc)) := by simp only [Tree.dualWith, Tree.fold_op]
  have h1 : (ts.map (Tree.dualWith chain ops feat const sv sc)).map Prod.fst = ts.map (Tree.eval ops feat const) := by
    rw [List.map_map]; exact List.map_congr_left fun t _ => by rw [Function.comp, Tree.dualWith_eq]
  have h2 : (ts.map (Tree.dualWith chain ops feat const sv sc)).map Prod.snd
      = ts.map fun t => (t.isLeaf, t.derivWith chain ops feat const sv sc) := by
    rw [List.map_map]; exact List.map_congr_left fun t _ => by rw [Function.comp, Tree.dualWith_eq]
  rw [Tree.derivWith, e]
  simp only [h1, h2, List.length_map]

end SR
