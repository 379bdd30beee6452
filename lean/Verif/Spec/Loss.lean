import Verif.Model.Loss
import Mathlib.Analysis.SpecialFunctions.Pow.Real
import Mathlib.Analysis.SpecialFunctions.Trigonometric.DerivHyp
/-
Vocabulary for the loss properties: valid loss parameters, what is assumed of the transcendental functions, and
the real functions as an instance.
-/
namespace SR
variable {K : Type} [Field K] [LinearOrder K]

/-- Representable: rounding changes nothing. -/
def Fl.Rep (R : Rounding K) (v : Fl K) : Prop := ∀ x, v = .fin x → R.rnd x = .fin x

/-- Valid parameters: Huber `delta ≥ 0`, `p > 0`, `0 ≤ tau ≤ 1`, `eps ≥ 0`, all finite floats. -/
def PointLoss.Valid (R : Rounding K) : PointLoss K → Prop
  | .squared | .abs | .logCosh => True
  | .huber d => ∃ x, d = .fin x ∧ 0 ≤ x ∧ d.Rep R
  | .lp p => ∃ x, p = .fin x ∧ 0 < x
  | .quantile t => ∃ x, t = .fin x ∧ 0 ≤ x ∧ x ≤ 1
  | .epsIns e => ∃ x, e = .fin x ∧ 0 ≤ x

def LossKind.Valid (R : Rounding K) : LossKind K → Prop
  | .mean l => l.Valid R
  | .rmse => True

/-- What is assumed of `sqrt`, `cosh`, `ln`, `powf`: the sign and the value at the trivial point. -/
structure LossLib.Sane (lib : LossLib K) : Prop where
  sqrt_nonneg : ∀ x, x.lt (.fin 0) = false → (lib.sqrt x).lt (.fin 0) = false
  sqrt_zero : lib.sqrt (.fin 0) = .fin 0
  powf_nonneg : ∀ x p, x.lt (.fin 0) = false → (lib.powf x p).lt (.fin 0) = false
  powf_zero : ∀ p : K, 0 < p → lib.powf (.fin 0) (.fin p) = .fin 0
  logcosh_nonneg : ∀ x, (lib.ln (lib.cosh x)).lt (.fin 0) = false
  logcosh_zero : lib.ln (lib.cosh (.fin 0)) = .fin 0

/-- The real functions (exact; special values as in IEEE where they occur). -/
noncomputable def LossLib.real : LossLib ℝ where
  cosh | .fin x => .fin (Real.cosh x) | .nan => .nan | _ => .pinf
  ln | .fin x => .fin (Real.log x) | .pinf => .pinf | _ => .nan
  tanh | .fin x => .fin (Real.tanh x) | .nan => .nan | .pinf => .fin 1 | .ninf => .fin (-1)
  powf | .fin x, .fin p => .fin (x ^ p) | _, _ => .nan
  sqrt | .fin x => .fin (Real.sqrt x) | .pinf => .pinf | _ => .nan

theorem LossLib.real_sane : LossLib.real.Sane where
  sqrt_nonneg x h := by
    cases x <;> simp_all [LossLib.real, Fl.lt, Real.sqrt_nonneg]
  sqrt_zero := by simp [LossLib.real]
  powf_nonneg x p h := by
    cases x <;> cases p <;> simp_all [LossLib.real, Fl.lt, Real.rpow_nonneg]
  powf_zero p hp := by simp [LossLib.real, Real.zero_rpow hp.ne']
  logcosh_nonneg x := by
    cases x <;> simp [LossLib.real, Fl.lt]
    exact Real.log_nonneg (Real.one_le_cosh _)
  logcosh_zero := by simp [LossLib.real]

end SR
