import Verif.Spec.Scalar
/-
Specification of forward-mode differentiation: the multivariate chain rule on expression trees.
-/
namespace SR
variable {T : Type} [Scalar T]

/-- `0 + p 0 * d₀ + p 1 * d₁ + ...`: the chain rule's sum, accumulated left to right from zero. -/
def chainSum (p : Nat → T) (ds : List T) : T :=
  ds.zipIdx.foldl (fun acc dj => Scalar.add acc (Scalar.mul (p dj.2) dj.1)) Scalar.zero

/-- Value and derivative of an expression, where leaf `var f` has derivative `sv f` and leaf
`const c` has derivative `sc c`. -/
def Tree.dual (ops : OpSet T) (feat const sv sc : Nat → T) : Tree → T × T :=
  Tree.fold (fun f => (feat f, sv f)) (fun c => (const c, sc c)) (fun o ps =>
    (ops.eval ps.length o (ps.map Prod.fst),
     chainSum (ops.partial_ ps.length o (ps.map Prod.fst)) (ps.map Prod.snd)))

/-- The chain-rule derivative. -/
def Tree.deriv (ops : OpSet T) (feat const sv sc : Nat → T) (t : Tree) : T :=
  (t.dual ops feat const sv sc).2

theorem Tree.dual_fst (ops : OpSet T) (feat const sv sc : Nat → T) (t : Tree) :
    (t.dual ops feat const sv sc).1 = t.eval ops feat const := by
  induction t using Tree.ind with
  | hv f => simp [Tree.dual]
  | hc f => simp [Tree.dual]
  | ho o ts ih =>
    have : (ts.map (Tree.dual ops feat const sv sc)).map Prod.fst = ts.map (Tree.eval ops feat const) := by
      rw [List.map_map]; exact List.map_congr_left fun t ht => ih t ht
    have e : Tree.dual ops feat const sv sc (.op o ts)
        = (fun ps : List (T × T) => (ops.eval ps.length o (ps.map Prod.fst),
     chainSum (ops.partial_ ps.length o (ps.map Prod.fst)) (ps.map Prod.snd)))
          (ts.map (Tree.dual ops feat const sv sc)) := by simp only [Tree.dual, Tree.fold_op]
    rw [e]
    simp only [this]
    simp

@[simp] theorem Tree.deriv_var (ops : OpSet T) (feat const sv sc : Nat → T) (f) :
    Tree.deriv ops feat const sv sc (.var f) = sv f := by simp [Tree.deriv, Tree.dual]
@[simp] theorem Tree.deriv_const (ops : OpSet T) (feat const sv sc : Nat → T) (f) :
    Tree.deriv ops feat const sv sc (.const f) = sc f := by simp [Tree.deriv, Tree.dual]
/-- The chain rule: derivative of an application = sum over arguments of partial × derivative. -/
@[simp] theorem Tree.deriv_op (ops : OpSet T) (feat const sv sc : Nat → T) (o ts) :
    Tree.deriv ops feat const sv sc (.op o ts)
      = chainSum (ops.partial_ ts.length o (ts.map (Tree.eval ops feat const)))
          (ts.map (Tree.deriv ops feat const sv sc)) := by
  have : (ts.map (Tree.dual ops feat const sv sc)).map Prod.fst = ts.map (Tree.eval ops feat const) := by
    rw [List.map_map]
    exact List.map_congr_left fun t _ => Tree.dual_fst ops feat const sv sc t
  have e : Tree.dual ops feat const sv sc (.op o ts)
        = (fun ps : List (T × T) => (ops.eval ps.length o (ps.map Prod.fst),
     chainSum (ops.partial_ ps.length o (ps.map Prod.fst)) (ps.map Prod.snd)))
          (ts.map (Tree.dual ops feat const sv sc)) := by simp only [Tree.dual, Tree.fold_op]
  rw [Tree.deriv, e]
  simp only [this, List.length_map, List.map_map]
  rfl

/-- One-hot seed in direction `d`. -/
def oneHot (d : Nat) (k : Nat) : T := if k = d then Scalar.one else Scalar.zero
/-- Zero seed. -/
def noSeed (_ : Nat) : T := Scalar.zero

/-- The laws of exact arithmetic the derivative kernels' shortcuts rely on.  Every ring satisfies
them; IEEE floats satisfy `zero_add` (up to the sign of zero) and violate `mul_zero` only when the
other factor is infinite or NaN. -/
class ZeroLaws (T : Type) [Scalar T] : Prop where
  mul_zero : ∀ p : T, Scalar.mul p Scalar.zero = Scalar.zero
  zero_add : ∀ x : T, Scalar.add Scalar.zero x = x
  isZero_eq : ∀ x : T, Scalar.isZero x = true → x = Scalar.zero

end SR
