import Verif.Model.Rand
import Verif.Spec.Float
/-
Model of `standard_normal` (symbolic_regression/src/random.rs:15-19), the Box-Muller transform.  The other models take
it as a parameter (`E.normal`).
-/
namespace SR
variable {K : Type} [Field K] [LinearOrder K]

/-- The elementary functions and constants used by `standard_normal`: `f64::ln`, `f64::sqrt`, `f64::cos`,
`f64::MIN_POSITIVE` and `f64::consts::PI`. -/
structure NormalLib (K : Type) where
  ln : Fl K → Fl K
  sqrt : Fl K → Fl K
  cos : Fl K → Fl K
  minPositive : Fl K
  pi : Fl K

/-- The value computed from two draws, random.rs:16-18. -/
def normalOf (R : Rounding K) (L : NormalLib K) (u1 u2 : Fl K) : Fl K :=
  R.mul (L.sqrt (R.mul (.fin (-2)) (L.ln (u1.max L.minPositive)))) (L.cos (R.mul (R.mul (.fin 2) L.pi) u2))

/-- `standard_normal`, random.rs:15-19. -/
def standardNormal (R : Rounding K) (L : NormalLib K) : Rand (Fl K) (Fl K) := do
  let u1 ← Rand.float
  let u2 ← Rand.float
  pure (normalOf R L u1 u2)

end SR
