import Verif.Proofs.Builtin
import Mathlib.Algebra.BigOperators.Fin
/-
The chain-rule derivative of a tree over the reals is its mathematical derivative.
-/
namespace SR

theorem chainSum_real (p : Nat → ℝ) (ds : List ℝ) :
    chainSum p ds = ∑ j : Fin ds.length, p j.val * ds.get j := by
  unfold chainSum
  have key : ∀ (l : List ℝ) (k : Nat) (acc : ℝ),
      (l.zipIdx k).foldl (fun acc dj => Scalar.add acc (Scalar.mul (p dj.2) dj.1)) acc
        = acc + ∑ j : Fin l.length, p (k + j.val) * l.get j := by
    intro l
    induction l with
    | nil => intro k acc; simp
    | cons x xs ih =>
      intro k acc
      simp only [List.zipIdx_cons, List.foldl_cons]
      rw [ih]
      rw [show (∑ j : Fin (x :: xs).length, p (k + j.val) * (x :: xs).get j)
        = ∑ j : Fin (xs.length + 1), p (k + j.val) * (x :: xs).get j from rfl, Fin.sum_univ_succ]
      simp only [Fin.val_zero, Nat.add_zero, List.get_eq_getElem, List.getElem_cons_zero,
        Fin.val_succ, List.getElem_cons_succ]
      rw [show Scalar.add acc (Scalar.mul (p k) x) = acc + p k * x from rfl, add_assoc]
      congr 2
      apply Finset.sum_congr rfl
      intro j _
      rw [show k + 1 + j.val = k + (j.val + 1) by omega]
  have := key ds 0 Scalar.zero
  rw [this]
  rw [show (Scalar.zero : ℝ) = 0 from rfl, zero_add]
  simp

/-- Every operator application in the tree has correct partials at its argument values. -/
def OpsDifferentiable (ops : OpSet ℝ) (feat const : Nat → ℝ) (t : Tree) : Prop :=
  ∀ o ts, Tree.op o ts ∈ t.subtrees →
    PartialsCorrectAt (ops.eval ts.length o) (ops.partial_ ts.length o)
      (ts.map (Tree.eval ops feat const))

theorem hasDerivAt_tree (ops : OpSet ℝ) (F C : ℝ → Nat → ℝ) (sv sc : Nat → ℝ) (s0 : ℝ) (t : Tree)
    (hF : ∀ f, HasDerivAt (fun s => F s f) (sv f) s0)
    (hC : ∀ c, HasDerivAt (fun s => C s c) (sc c) s0)
    (hd : OpsDifferentiable ops (F s0) (C s0) t) :
    HasDerivAt (fun s => t.eval ops (F s) (C s)) (t.deriv ops (F s0) (C s0) sv sc) s0 := by
  induction t using Tree.ind with
  | hv f => simpa using hF f
  | hc c => simpa using hC c
  | ho o ts ih =>
    have ih' : ∀ u ∈ ts, HasDerivAt (fun s => u.eval ops (F s) (C s))
        (u.deriv ops (F s0) (C s0) sv sc) s0 := by
      intro u hu
      refine ih u hu fun o' ts' hm => hd o' ts' ?_
      simp only [Tree.subtrees_op, List.mem_append, List.mem_flatten, List.mem_map]
      exact Or.inl ⟨_, ⟨u, hu, rfl⟩, hm⟩
    have hp := hd o ts (by simp [Tree.subtrees_op])
    set v := ts.map (Tree.eval ops (F s0) (C s0)) with hv
    have hlen : v.length = ts.length := by simp [hv]
    unfold PartialsCorrectAt at hp
    have hcurve : HasDerivAt (fun s => (fun j : Fin v.length =>
        (ts[j.val]'(hlen ▸ j.isLt)).eval ops (F s) (C s)))
        (fun j : Fin v.length => (ts[j.val]'(hlen ▸ j.isLt)).deriv ops (F s0) (C s0) sv sc) s0 := by
      rw [hasDerivAt_pi]
      intro j
      exact ih' _ (List.getElem_mem _)
    have hpt : (fun j : Fin v.length => v.get j)
        = (fun j : Fin v.length => (ts[j.val]'(hlen ▸ j.isLt)).eval ops (F s0) (C s0)) := by
      funext j; simp [hv]
    rw [hpt] at hp
    have := HasFDerivAt.comp_hasDerivAt s0 hp hcurve
    have e : (fun s => Tree.eval ops (F s) (C s) (.op o ts))
        = ((fun w : Fin v.length → ℝ => ops.eval ts.length o (List.ofFn w)) ∘ fun s =>
          (fun j : Fin v.length => (ts[j.val]'(hlen ▸ j.isLt)).eval ops (F s) (C s))) := by
      funext s
      simp only [Tree.eval_op, Function.comp]
      congr 1
      apply List.ext_getElem
      · simp [hv]
      · intro i h1 h2; simp
    rw [e]
    refine this.congr_deriv ?_
    rw [Tree.deriv_op, chainSum_real]
    simp only [ContinuousLinearMap.sum_apply, ContinuousLinearMap.smul_apply,
      ContinuousLinearMap.proj_apply, smul_eq_mul]
    have hl2 : v.length = (ts.map (Tree.deriv ops (F s0) (C s0) sv sc)).length := by simp [hv]
    refine Fintype.sum_equiv (finCongr hl2) _ _ ?_
    intro j
    simp [hv]

end SR
