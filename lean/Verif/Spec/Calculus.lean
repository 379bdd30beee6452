import Verif.Spec.Deriv
import Mathlib.Analysis.Calculus.Deriv.Comp
import Mathlib.Analysis.Calculus.Deriv.Pi
import Mathlib.Analysis.Calculus.Deriv.Prod
/-
What it means for declared partial derivatives to be the mathematical ones.
-/
namespace SR

/-- At the point `v`, the function `f` of `v.length` real arguments is (Fréchet) differentiable and
its `j`-th partial derivative is `p v j`. -/
def PartialsCorrectAt (f : List ℝ → ℝ) (p : List ℝ → Nat → ℝ) (v : List ℝ) : Prop :=
  HasFDerivAt (fun w : Fin v.length → ℝ => f (List.ofFn w))
    (∑ j : Fin v.length, p v j.val • (ContinuousLinearMap.proj j : (Fin v.length → ℝ) →L[ℝ] ℝ))
    (fun j => v.get j)

/-- In particular each declared partial is the ordinary derivative in that argument alone. -/
theorem PartialsCorrectAt.partial_deriv {f : List ℝ → ℝ} {p : List ℝ → Nat → ℝ} {v : List ℝ}
    (h : PartialsCorrectAt f p v) (j : Fin v.length) :
    HasDerivAt (fun x => f (v.set j x)) (p v j) (v.get j) := by
  have hc : HasDerivAt (fun x : ℝ => (Function.update (fun i => v.get i) j x : Fin v.length → ℝ))
      (Pi.single j 1) (v.get j) := by
    have := hasDerivAt_update (fun i => v.get i) j (v.get j)
    simpa using this
  have h' : HasFDerivAt (fun w : Fin v.length → ℝ => f (List.ofFn w))
    (∑ j : Fin v.length, p v j.val • (ContinuousLinearMap.proj j : (Fin v.length → ℝ) →L[ℝ] ℝ))
    (Function.update (fun i => v.get i) j (v.get j)) := by
    rw [Function.update_eq_self]; exact h
  have := HasFDerivAt.comp_hasDerivAt _ h' hc
  have e1 : (fun x => f (List.ofFn (Function.update (fun i => v.get i) j x : Fin v.length → ℝ)))
      = fun x => f (v.set j x) := by
    funext x
    congr 1
    apply List.ext_getElem
    · simp
    · intro i h1 h2
      simp only [List.getElem_ofFn, List.getElem_set, Function.update_apply]
      by_cases hij : j.val = i
      · subst hij; simp
      · rw [if_neg (by intro hh; apply hij; rw [← hh]), if_neg hij]; simp
  have e2 : (∑ j : Fin v.length, p v j.val •
      (ContinuousLinearMap.proj j : (Fin v.length → ℝ) →L[ℝ] ℝ)) (Pi.single j 1) = p v j := by
    simp [ContinuousLinearMap.sum_apply, Pi.single_apply, Finset.sum_ite_eq']
  rw [← e1]
  rw [e2] at this
  exact this

end SR
