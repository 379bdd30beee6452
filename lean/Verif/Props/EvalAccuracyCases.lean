import Verif.Props.EvalAccuracy
/-
C99: the exception, and an evaluation with roundings that meets the hypotheses.
-/
namespace SR
namespace EvalAccuracy
open Accuracy

/-- **C99, the exception is real.**  With a subtraction the relative error can be one: `(1 + x) - 1` at `x = 2 ^ -60` is computed as zero
without any overflow or underflow. -/
theorem _root_.SR.C99_cancellation (hash : List PNode → UInt64) :
    let _ : Scalar (Fl ℚ) := (flScalar binary64).toScalar
    let t : Tree := .op 7 [.op 0 [.const 0, .var 0], .const 0]
    let X : Mat (Fl ℚ) := ⟨1, 1, fun _ _ => .fin (pow2 (-60))⟩
    preset.Runs binary64 (pow2 (-1022)) (fun f => X.at' f 0) (constAt [.fin 1]) t 0 ∧
    preset.exact (fun f => (X.at' f 0).number) (fun c => (constAt [Fl.fin (1 : ℚ)] c).number) t = pow2 (-60) ∧
    ∃ out flag, evalTreeArray (elementary binary64) hash 2 ⟨t.toPostfix, [.fin 1]⟩ X ⟨false, false⟩ = some (out, flag) ∧ out[0]? = some (.fin 0) := by
  intro _ t X
  have hruns : preset.Runs binary64 (pow2 (-1022)) (fun f => X.at' f 0) (constAt [.fin 1]) t 0 := by
    refine .bin 7 .sub _ _ 1 1 0 rfl (.bin 0 .add _ _ 1 (pow2 (-60)) 1 rfl (.const 0 1 rfl) (.var 0 _ rfl) ?_ ?_) (.const 0 1 rfl) ?_ ?_
    · decide +kernel
    · right
      simp only [BinArith.exact]
      decide +kernel
    · decide +kernel
    · left; simp [BinArith.exact]
  refine ⟨hruns, by decide +kernel, ?_⟩
  obtain ⟨out, flag, h, ho⟩ := evaluated (elementary_read binary64) hash 2 t X [.fin 1] ⟨false, false⟩ (pow2 (-1022))
    (by simp [t, X, Tree.WF, elementary, preset]) ⟨by decide, by decide, by decide⟩
  exact ⟨out, flag, h, ho (.inr rfl) 0 (by decide) 0 hruns⟩

/-- The hypotheses are met with roundings that matter: `x + x * x / 7` at `x = 3`. -/
example : let t : Tree := .op 0 [.var 0, .op 2 [.op 5 [.var 0, .var 0], .const 0]]
    let feat : Nat → Fl ℚ := fun _ => .fin 3
    let const : Nat → Fl ℚ := fun _ => .fin 7
    (∃ y, preset.Runs binary64 (pow2 (-1022)) feat const t y ∧ y ≠ 3 + 3 * 3 / 7) ∧
    preset.Positive (fun f => (feat f).number) (fun c => (const c).number) t ∧ preset.roundings t = 3 := by
  intro t feat const
  refine ⟨⟨(4825285315039817 / 1125899906842624 : ℚ), .bin 0 .add _ _ 3 (5790342378047781 / 4503599627370496) _ rfl (.var 0 3 rfl)
    (.bin 2 .div _ _ 9 7 _ rfl (.bin 5 .mul _ _ 3 3 9 rfl (.var 0 3 rfl) (.var 0 3 rfl) ?_ (.inr ?_)) (.const 0 7 rfl) ?_ (.inr ?_)) ?_ (.inr ?_), ?_⟩, ?_, rfl⟩
  · decide +kernel
  · simp only [BinArith.exact]; decide +kernel
  · decide +kernel
  · simp only [BinArith.exact]; decide +kernel
  · decide +kernel
  · simp only [BinArith.exact]; decide +kernel
  · decide +kernel
  · simp [Roles.Positive, t, Tree.all_op, feat, const, preset, Fl.number]

end EvalAccuracy
end SR
