import Verif.Props.EvalAccuracyCases
/-
C99: a completion flag that is true says that nothing overflowed.
-/
namespace SR
namespace EvalAccuracy
open Accuracy
variable {K : Type} [Field K] [LinearOrder K]

/-- Every operator is an elementary operation, and every feature and constant in the expression is a finite number. -/
def Plain (ρ : Roles) (feat const : Nat → Fl K) (t : Tree) : Prop :=
  t.All (fun f => (feat f).isFinite = true) (fun c => (const c).isFinite = true) fun o a =>
    (a = 1 ∧ ρ.un o ≠ none) ∨ (a = 2 ∧ ρ.bin o ≠ none)

/-- No operation in the expression underflows: its exact result for the computed operands is zero or at least `tiny`. -/
def Quiet (ρ : Roles) (ops : OpSet (Fl K)) (tiny : K) (feat const : Nat → Fl K) (t : Tree) : Prop :=
  (∀ o s f x, .op o [s] ∈ t.subtrees → ρ.un o = some f → s.eval ops feat const = .fin x → f.exact x = 0 ∨ tiny ≤ |f.exact x|) ∧
  ∀ o s s' f x y, .op o [s, s'] ∈ t.subtrees → ρ.bin o = some f → s.eval ops feat const = .fin x → s'.eval ops feat const = .fin y →
    f.exact x y = 0 ∨ tiny ≤ |f.exact x y|

omit [Field K] [LinearOrder K] in
theorem fin_of {v : Fl K} (h : v.isFinite = true) : ∃ x, v = .fin x := by
  cases v <;> first | exact ⟨_, rfl⟩ | cases h

theorem runs_of_finite {ρ : Roles} {ops : OpSet (Fl K)} {R : Rounding K} (hr : ρ.Read ops R) {tiny : K} {feat const : Nat → Fl K} (t : Tree) :
    Plain ρ feat const t → (∀ o ts, .op o ts ∈ t.subtrees → (Tree.eval ops feat const (.op o ts)).isFinite = true) →
    Quiet ρ ops tiny feat const t → ∃ y, ρ.Runs R tiny feat const t y := by
  induction t using Tree.ind with
  | hv f =>
    intro hp _ _
    obtain ⟨x, hx⟩ := fin_of (Tree.all_var.mp hp)
    exact ⟨x, .var f x hx⟩
  | hc c =>
    intro hp _ _
    obtain ⟨x, hx⟩ := fin_of (Tree.all_const.mp hp)
    exact ⟨x, .const c x hx⟩
  | ho o ts ih =>
    intro hp hfin hq
    obtain ⟨hrole, hsub⟩ := Tree.all_op.mp hp
    have hself : Tree.op o ts ∈ (Tree.op o ts).subtrees := by simp
    have hin : ∀ s ∈ ts, ∀ w ∈ s.subtrees, w ∈ (Tree.op o ts).subtrees := fun s hs w hw => by
      rw [Tree.subtrees_op]
      exact List.mem_append_left _ (List.mem_flatten.mpr ⟨_, List.mem_map_of_mem hs, hw⟩)
    have child : ∀ s ∈ ts, ∃ y, ρ.Runs R tiny feat const s y := fun s hs =>
      ih s hs (hsub s hs) (fun o' ts' h => hfin o' ts' (hin s hs _ h))
        ⟨fun o' s' f x h => hq.1 o' s' f x (hin s hs _ h), fun o' s' s'' f x y h => hq.2 o' s' s'' f x y (hin s hs _ h)⟩
    obtain ⟨z, hz⟩ := fin_of (hfin o ts hself)
    rcases hrole with ⟨hl, hne⟩ | ⟨hl, hne⟩
    · obtain ⟨s, rfl⟩ := List.length_eq_one_iff.mp hl
      obtain ⟨f, hf⟩ := Option.ne_none_iff_exists'.mp hne
      obtain ⟨x, hx⟩ := child s (by simp)
      have ex := runs_eval hr hx
      rw [Tree.eval_op] at hz
      simp only [List.map_cons, List.map_nil, ex] at hz
      exact ⟨z, .un o f s x z hf hx ((hr.un o f hf _).symm.trans hz) (hq.1 o s f x hself hf ex)⟩
    · obtain ⟨s, s', rfl⟩ := List.length_eq_two.mp hl
      obtain ⟨f, hf⟩ := Option.ne_none_iff_exists'.mp hne
      obtain ⟨x, hx⟩ := child s (by simp)
      obtain ⟨y, hy⟩ := child s' (by simp)
      have ex := runs_eval hr hx
      have ey := runs_eval hr hy
      rw [Tree.eval_op] at hz
      simp only [List.map_cons, List.map_nil, ex, ey] at hz
      exact ⟨z, .bin o f s s' x y z hf hx hy ((hr.bin o f hf _ _).symm.trans hz) (hq.2 o s s' f x y hself hf ex ey)⟩

/-- **C99 (`f64`, with the completion flag).**  If the evaluator checks for finiteness and reports completion, then in every row in which the
features and constants are finite and no operation underflows the output is a finite number with the accuracy of `C99_evaluation64`: nothing
else need be known about overflow. -/
theorem _root_.SR.C99_complete64 {ρ : Roles} {ops : OpSet (Fl ℚ)} (hr : ρ.Read ops binary64) (hash : List PNode → UInt64) (D : Nat) (t : Tree)
    (X : Mat (Fl ℚ)) (consts : List (Fl ℚ)) (earlyExit : Bool) :
    let _ : Scalar (Fl ℚ) := (flScalar binary64).toScalar
    t.WF ops D X.rows consts.length → InLimits X.rows consts.length t → ρ.roundings t ≤ 2 ^ 52 →
    ∃ out flag, evalTreeArray ops hash D ⟨t.toPostfix, consts⟩ X ⟨true, earlyExit⟩ = some (out, flag) ∧
      (flag = true → ∀ r < X.cols, Plain ρ (fun f => X.at' f r) (constAt consts) t →
        Quiet ρ ops (pow2 (-1022)) (fun f => X.at' f r) (constAt consts) t →
        let x := ρ.exact (fun f => (X.at' f r).number) (fun c => (constAt consts c).number) t
        ∃ y, out[r]? = some (.fin y) ∧
          (ρ.Polynomial t → |y - x| ≤
            ρ.roundings t * pow2 (-52) * ρ.size (fun f => (X.at' f r).number) (fun c => (constAt consts c).number) t) ∧
          (ρ.Positive (fun f => (X.at' f r).number) (fun c => (constAt consts c).number) t →
            0 < x ∧ |y - x| ≤ ρ.roundings t * pow2 (-52) * x)) := by
  intro _ hwf hlim hk
  obtain ⟨out, flag, h, ho⟩ := SR.C99_evaluation64 hr hash D t X consts ⟨true, earlyExit⟩ hwf hlim hk
  refine ⟨out, flag, h, fun hflag r hrow hp hq => ?_⟩
  obtain ⟨out', flag', h', -, hall⟩ := C04_flag ops hash D t X consts ⟨true, earlyExit⟩ hwf hlim (by omega)
  rw [h] at h'
  cases h'
  have hfin := ((hall rfl).mp hflag).1
  obtain ⟨y, hy⟩ := runs_of_finite hr t hp (fun o ts hm => hfin o ts hm r hrow) hq
  exact ⟨y, ho (.inl hflag) r hrow y hy⟩

/-- The hypotheses are met: the product of a feature with itself at one tenth as an `f64`. -/
example : let t : Tree := .op 5 [.var 0, .var 0]
    let feat : Nat → Fl ℚ := fun _ => .fin (3602879701896397 / 36028797018963968)
    let const : Nat → Fl ℚ := fun _ => .nan
    Plain preset feat const t ∧ Quiet preset (elementary binary64) (pow2 (-1022)) feat const t ∧ preset.Polynomial t ∧ preset.roundings t = 1 := by
  intro t feat const
  refine ⟨?_, ⟨?_, ?_⟩, ?_, rfl⟩
  · simp [Plain, t, feat, preset, Fl.isFinite]
  · intro o s f x hm
    simp [t] at hm
  · intro o s s' f x y hm hf hx hy
    simp only [t, Tree.subtrees_op, List.map_cons, List.map_nil, Tree.subtrees_var, List.flatten_cons, List.flatten_nil, List.append_nil,
      List.cons_append, List.nil_append, List.mem_cons, reduceCtorEq, false_or, List.not_mem_nil, or_false, Tree.op.injEq, List.cons.injEq,
      and_true] at hm
    obtain ⟨rfl, rfl, rfl⟩ := hm
    rw [Tree.eval_var] at hx hy
    cases hx
    cases hy
    cases hf
    right
    simp only [BinArith.exact]
    decide +kernel
  · simp [Roles.Polynomial, t, preset]

end EvalAccuracy
end SR
