import Verif.Spec.EvalAccuracy
import Verif.Props.Accuracy
import Verif.Props.Eval
/-
C99: what the evaluator computes in `f64` and `f32` against the exact value of the expression.
-/
namespace SR
namespace EvalAccuracy
open Accuracy
variable {K : Type} [Field K] [LinearOrder K]

section Values
variable {α : Type} (ρ : Roles) (un : UnArith → α → α) (bin : BinArith → α → α → α) (other : α) (fe co : Nat → α)

theorem value_var (f : Nat) : ρ.value un bin other fe co (.var f) = fe f := by simp [Roles.value]
theorem value_const (c : Nat) : ρ.value un bin other fe co (.const c) = co c := by simp [Roles.value]
theorem value_un {o : Nat} {f : UnArith} {t : Tree} (h : ρ.un o = some f) :
    ρ.value un bin other fe co (.op o [t]) = un f (ρ.value un bin other fe co t) := by simp [Roles.value, h]
theorem value_bin {o : Nat} {f : BinArith} {s t : Tree} (h : ρ.bin o = some f) :
    ρ.value un bin other fe co (.op o [s, t]) = bin f (ρ.value un bin other fe co s) (ρ.value un bin other fe co t) := by simp [Roles.value, h]
end Values

/-- A run is the evaluation. -/
theorem runs_eval {ρ : Roles} {ops : OpSet (Fl K)} {R : Rounding K} (hr : ρ.Read ops R) {tiny : K} {feat const : Nat → Fl K} {t : Tree} {y : K}
    (h : ρ.Runs R tiny feat const t y) : t.eval ops feat const = .fin y := by
  induction h with
  | var f y h => rw [Tree.eval_var, h]
  | const c y h => rw [Tree.eval_const, h]
  | un o f t x z hf _ hz _ ih => rw [Tree.eval_op, List.map_singleton, ih]; exact (hr.un o f hf _).trans hz
  | bin o f s t x y z hf _ _ hz _ ihs iht =>
    rw [Tree.eval_op]
    simp only [List.map_cons, List.map_nil, ihs, iht]
    exact (hr.bin o f hf _ _).trans hz

section Ordered
variable [IsStrictOrderedRing K] {R : Rounding K} {u tiny : K}

/-- One rounding. -/
theorem rnd_error (P : R.Precise u tiny) {s z : K} (hs : s = 0 ∨ tiny ≤ |s|) (h : R.rnd s = .fin z) : |z - s| ≤ u * |s| := by
  rcases hs with rfl | hs
  · rw [rnd_zero P h]; simp
  · exact P.error s z hs h

/-! ## Polynomials -/

/-- `y` is `x` up to the factor `A` of `M`. -/
structure Within (A M x y : K) : Prop where
  one : 1 ≤ A
  size : |x| ≤ M
  error : |y - x| ≤ (A - 1) * M

theorem Within.big {A M x y : K} (w : Within A M x y) : |y| ≤ A * M := by
  have : |y| ≤ |y - x| + |x| := by simpa using abs_add_le (y - x) x
  have h1 := w.size
  have h2 := w.error
  nlinarith

theorem Within.nonneg {A M x y : K} (w : Within A M x y) : 0 ≤ M := (abs_nonneg x).trans w.size

theorem Within.mono {A B M x y : K} (w : Within A M x y) (h : A ≤ B) : Within B M x y :=
  ⟨w.one.trans h, w.size, w.error.trans (mul_le_mul_of_nonneg_right (by linarith) w.nonneg)⟩

theorem Within.round (P : R.Precise u tiny) {A M x s z : K} (w : Within A M x s) (hs : s = 0 ∨ tiny ≤ |s|) (h : R.rnd s = .fin z) :
    Within (A * (1 + u)) M x z := by
  have e := rnd_error P hs h
  have hb := w.big
  have hu := P.u_nonneg
  have hA := w.one
  refine ⟨by nlinarith, w.size, ?_⟩
  have h1 : |z - x| ≤ |z - s| + |s - x| := by simpa using abs_add_le (z - s) (s - x)
  have h2 := w.error
  have h3 : u * |s| ≤ u * (A * M) := mul_le_mul_of_nonneg_left hb hu
  nlinarith

theorem Within.add {A M x y N x' y' : K} (w : Within A M x y) (w' : Within A N x' y') : Within A (M + N) (x + x') (y + y') := by
  refine ⟨w.one, (abs_add_le _ _).trans (add_le_add w.size w'.size), ?_⟩
  have : y + y' - (x + x') = (y - x) + (y' - x') := by ring
  rw [this]
  have h := abs_add_le (y - x) (y' - x')
  have h1 := w.error
  have h2 := w'.error
  nlinarith

omit [IsStrictOrderedRing K] in
theorem Within.neg {A M x y : K} (w : Within A M x y) : Within A M (-x) (-y) := by
  refine ⟨w.one, by rw [abs_neg]; exact w.size, ?_⟩
  rw [show -y - -x = -(y - x) by ring, abs_neg]; exact w.error

theorem Within.mul {A B M x y N x' y' : K} (w : Within A M x y) (w' : Within B N x' y') : Within (A * B) (M * N) (x * x') (y * y') := by
  refine ⟨one_le_mul_of_one_le_of_one_le w.one w'.one, by rw [abs_mul]; exact mul_le_mul w.size w'.size (abs_nonneg _) w.nonneg, ?_⟩
  have : y * y' - x * x' = (y - x) * y' + x * (y' - x') := by ring
  rw [this]
  have h := abs_add_le ((y - x) * y') (x * (y' - x'))
  rw [abs_mul, abs_mul] at h
  have h1 : |y - x| * |y'| ≤ ((A - 1) * M) * (B * N) :=
    mul_le_mul w.error w'.big (abs_nonneg _) (mul_nonneg (by linarith [w.one]) w.nonneg)
  have h2 : |x| * |y' - x'| ≤ M * ((B - 1) * N) := mul_le_mul w.size w'.error (abs_nonneg _) w.nonneg
  nlinarith

theorem Within.abs {A M x y : K} (w : Within A M x y) : Within A M |x| |y| :=
  ⟨w.one, by rw [abs_abs]; exact w.size, (abs_abs_sub_abs_le_abs_sub y x).trans w.error⟩

variable {ρ : Roles} {feat const : Nat → Fl K}

theorem polynomial_within (P : R.Precise u tiny) {t : Tree} {y : K} (h : ρ.Runs R tiny feat const t y) (hp : ρ.Polynomial t) :
    Within ((1 + u) ^ ρ.roundings t) (ρ.size (fun f => (feat f).number) (fun c => (const c).number) t)
      (ρ.exact (fun f => (feat f).number) (fun c => (const c).number) t) y := by
  have hu := P.u_nonneg
  have hpow : ∀ k m : Nat, k ≤ m → (1 + u) ^ k ≤ (1 + u) ^ m := fun k m => pow_le_pow_right₀ (by linarith)
  have leaf : ∀ x : K, Within ((1 + u) ^ 0) |x| x x := fun x => ⟨by simp, le_rfl, by simp⟩
  induction h with
  | var f y h =>
    unfold Roles.roundings Roles.size Roles.exact
    simp only [value_var, h, Fl.number]
    exact leaf y
  | const c y h =>
    unfold Roles.roundings Roles.size Roles.exact
    simp only [value_const, h, Fl.number]
    exact leaf y
  | un o f t x z hf _ hz hr ih =>
    obtain ⟨hno, hsub⟩ := Tree.all_op.mp hp
    have w := ih (hsub t (by simp))
    unfold Roles.roundings Roles.size Roles.exact at w ⊢
    simp only [value_un _ _ _ _ _ _ hf]
    cases f with
    | neg => cases hz; exact w.neg
    | abs => cases hz; exact w.abs
    | identity => cases hz; exact w
    | abs2 =>
      have e : (1 + u) ^ UnArith.abs2.roundings (ρ.value UnArith.roundings BinArith.roundings 0 (fun _ => 0) (fun _ => 0) t) =
          ((1 + u) ^ (ρ.value UnArith.roundings BinArith.roundings 0 (fun _ => 0) (fun _ => 0) t) *
            (1 + u) ^ (ρ.value UnArith.roundings BinArith.roundings 0 (fun _ => 0) (fun _ => 0) t)) * (1 + u) := by
        simp only [UnArith.roundings]; ring
      rw [e]
      simp only [UnArith.exact, UnArith.size, sq] at hr ⊢
      exact (w.mul w).round P hr hz
    | inv => exact absurd hf (hno.1 rfl)
  | bin o f s t x y z hf _ _ hz hr ihs iht =>
    obtain ⟨hno, hsub⟩ := Tree.all_op.mp hp
    have w1 := ihs (hsub s (by simp))
    have w2 := iht (hsub t (by simp))
    unfold Roles.roundings Roles.size Roles.exact at w1 w2 ⊢
    simp only [value_bin _ _ _ _ _ _ hf]
    generalize ρ.value UnArith.roundings BinArith.roundings 0 (fun _ => 0) (fun _ => 0) s = k at *
    generalize ρ.value UnArith.roundings BinArith.roundings 0 (fun _ => 0) (fun _ => 0) t = m at *
    cases f with
    | add =>
      simp only [BinArith.roundings, pow_succ]
      exact ((w1.mono (hpow _ _ (le_max_left k m))).add (w2.mono (hpow _ _ (le_max_right k m)))).round P hr hz
    | sub =>
      simp only [BinArith.roundings, pow_succ, BinArith.exact, BinArith.size, sub_eq_add_neg] at hr ⊢
      exact ((w1.mono (hpow _ _ (le_max_left k m))).add (w2.mono (hpow _ _ (le_max_right k m))).neg).round P hr hz
    | mul =>
      simp only [BinArith.roundings, pow_succ, pow_add]
      exact (w1.mul w2).round P hr hz
    | div => exact absurd hf (hno.2 rfl)

/-! ## No cancellation -/

/-- `x` and `y` differ by the factor `A` at most. -/
structure Alike (A x y : K) : Prop where
  left : 0 < x
  right : 0 < y
  up : A * x ≤ y
  down : A * y ≤ x

theorem Alike.mono {A B x y : K} (w : Alike A x y) (h : B ≤ A) : Alike B x y :=
  ⟨w.left, w.right, (mul_le_mul_of_nonneg_right h w.left.le).trans w.up, (mul_le_mul_of_nonneg_right h w.right.le).trans w.down⟩

theorem Alike.round (P : R.Precise u tiny) {A x s z : K} (hA : 0 < A) (w : Alike A x s) (hs : s = 0 ∨ tiny ≤ |s|) (h : R.rnd s = .fin z) :
    Alike (A * (1 - u)) x z := by
  have e := rnd_error P hs h
  have hu := P.u_nonneg
  have hu1 := P.u_lt
  have hs0 := w.right
  rw [abs_of_pos hs0, abs_le] at e
  have h1 : (1 - u) * s ≤ z := by linarith [e.1]
  have h2 : (1 - u) * z ≤ s := by nlinarith [e.2]
  have hz : 0 < z := lt_of_lt_of_le (mul_pos (by linarith) hs0) h1
  refine ⟨w.left, hz, ?_, ?_⟩
  · have := mul_le_mul_of_nonneg_left w.up (show 0 ≤ 1 - u by linarith)
    linarith
  · have := mul_le_mul_of_nonneg_left h2 hA.le
    linarith [w.down]

theorem Alike.add {A x y x' y' : K} (w : Alike A x y) (w' : Alike A x' y') : Alike A (x + x') (y + y') :=
  ⟨add_pos w.left w'.left, add_pos w.right w'.right, by rw [mul_add]; exact add_le_add w.up w'.up, by rw [mul_add]; exact add_le_add w.down w'.down⟩

theorem Alike.mul {A B x y x' y' : K} (_hA : 0 < A) (hB : 0 < B) (w : Alike A x y) (w' : Alike B x' y') : Alike (A * B) (x * x') (y * y') := by
  refine ⟨mul_pos w.left w'.left, mul_pos w.right w'.right, ?_, ?_⟩
  · rw [mul_mul_mul_comm]; exact mul_le_mul w.up w'.up (mul_pos hB w'.left).le w.right.le
  · rw [mul_mul_mul_comm]; exact mul_le_mul w.down w'.down (mul_pos hB w'.right).le w.left.le

theorem Alike.inv {A x y : K} (w : Alike A x y) : Alike A (1 / x) (1 / y) := by
  have hx := w.left
  have hy := w.right
  refine ⟨by positivity, by positivity, ?_, ?_⟩
  · rw [mul_one_div, div_le_div_iff₀ hx hy, one_mul]; exact w.down
  · rw [mul_one_div, div_le_div_iff₀ hy hx, one_mul]; exact w.up

theorem positive_alike (P : R.Precise u tiny) {t : Tree} {y : K} (h : ρ.Runs R tiny feat const t y)
    (hp : ρ.Positive (fun f => (feat f).number) (fun c => (const c).number) t) :
    Alike ((1 - u) ^ ρ.roundings t) (ρ.exact (fun f => (feat f).number) (fun c => (const c).number) t) y := by
  have hu := P.u_nonneg
  have hu1 : 0 < 1 - u := by linarith [P.u_lt]
  have hpow : ∀ k m : Nat, k ≤ m → (1 - u) ^ m ≤ (1 - u) ^ k := fun k m h => pow_le_pow_of_le_one hu1.le (by linarith) h
  have h0 : ∀ k : Nat, 0 < (1 - u) ^ k := fun k => pow_pos hu1 k
  have leaf : ∀ x : K, 0 < x → Alike ((1 - u) ^ 0) x x := fun x h => ⟨h, h, by simp, by simp⟩
  induction h with
  | var f y h =>
    have := Tree.all_var.mp hp
    unfold Roles.roundings Roles.exact
    simp only [value_var, h, Fl.number] at this ⊢
    exact leaf y this
  | const c y h =>
    have := Tree.all_const.mp hp
    unfold Roles.roundings Roles.exact
    simp only [value_const, h, Fl.number] at this ⊢
    exact leaf y this
  | un o f t x z hf _ hz hr ih =>
    obtain ⟨hno, hsub⟩ := Tree.all_op.mp hp
    have w := ih (hsub t (by simp))
    unfold Roles.roundings Roles.exact at w ⊢
    simp only [value_un _ _ _ _ _ _ hf]
    generalize ρ.value UnArith.roundings BinArith.roundings 0 (fun _ => 0) (fun _ => 0) t = k at *
    cases f with
    | neg => exact absurd hf (hno.1 rfl)
    | abs =>
      cases hz
      have hx := w.right
      rw [show max x (-x) = x from max_eq_left (by linarith)]
      simp only [UnArith.exact, UnArith.roundings]
      rw [abs_of_pos w.left]
      exact w
    | identity => cases hz; exact w
    | abs2 =>
      simp only [UnArith.exact, UnArith.roundings, pow_succ, two_mul, pow_add] at hr ⊢
      simp only [pow_zero, one_mul] at hr ⊢
      exact (w.mul (h0 k) (h0 k) w).round P (mul_pos (h0 k) (h0 k)) hr hz
    | inv =>
      have hx : x ≠ 0 := w.right.ne'
      simp only [UnArith.exact, UnArith.roundings, pow_succ] at hr ⊢
      refine w.inv.round P (h0 k) hr ?_
      have : (UnArith.inv.run R (.fin x)) = R.rnd (1 / x) := by simp [UnArith.run, Rounding.div, hx]
      rw [← this]; exact hz
  | bin o f s t x y z hf _ _ hz hr ihs iht =>
    obtain ⟨hno, hsub⟩ := Tree.all_op.mp hp
    have w1 := ihs (hsub s (by simp))
    have w2 := iht (hsub t (by simp))
    unfold Roles.roundings Roles.exact at w1 w2 ⊢
    simp only [value_bin _ _ _ _ _ _ hf]
    generalize ρ.value UnArith.roundings BinArith.roundings 0 (fun _ => 0) (fun _ => 0) s = k at *
    generalize ρ.value UnArith.roundings BinArith.roundings 0 (fun _ => 0) (fun _ => 0) t = m at *
    cases f with
    | add =>
      simp only [BinArith.roundings, pow_succ]
      exact ((w1.mono (hpow _ _ (le_max_left k m))).add (w2.mono (hpow _ _ (le_max_right k m)))).round P (h0 _) hr hz
    | sub => exact absurd hf (hno.2 rfl)
    | mul =>
      simp only [BinArith.roundings, pow_succ, pow_add]
      exact (w1.mul (h0 k) (h0 m) w2).round P (mul_pos (h0 k) (h0 m)) hr hz
    | div =>
      have hy : y ≠ 0 := w2.right.ne'
      have hz' : R.rnd (x / y) = .fin z := by
        have : (BinArith.div.run R (.fin x) (.fin y)) = R.rnd (x / y) := by simp [BinArith.run, Rounding.div, hy]
        rw [← this]; exact hz
      simp only [BinArith.exact, BinArith.roundings, pow_succ, pow_add] at hr ⊢
      rw [div_eq_mul_one_div] at hr hz' ⊢
      exact (w1.mul (h0 k) (h0 m) w2.inv).round P (mul_pos (h0 k) (h0 m)) hr hz'

/-! ## Simple bounds -/

theorem Within.simple (u0 : 0 ≤ u) (u1 : u < 1) {k : Nat} (hk : k * u ≤ 1 / 2) {M x y : K} (w : Within ((1 + u) ^ k) M x y) :
    |y - x| ≤ 2 * k * u * M := by
  have h2 := pow_upper u0 u1 k
  have hmu : 0 ≤ (k : K) * u := mul_nonneg (Nat.cast_nonneg k) u0
  have h3 : (1 + u) ^ k ≤ 1 + 2 * k * u := by
    have h5 : 1 ≤ (1 + 2 * k * u) * (1 - k * u) := by nlinarith
    by_contra c
    rw [not_le] at c
    have : (1 + 2 * k * u) * (1 - k * u) < (1 + u) ^ k * (1 - k * u) := mul_lt_mul_of_pos_right c (by linarith)
    linarith
  exact w.error.trans (mul_le_mul_of_nonneg_right (by linarith) w.nonneg)

theorem Alike.simple (u0 : 0 ≤ u) (u1 : u < 1) {k : Nat} (hk : k * u ≤ 1 / 2) {x y : K} (w : Alike ((1 - u) ^ k) x y) :
    |y - x| ≤ 2 * k * u * x := by
  have h1 := pow_lower u0 u1 k
  have hmu : 0 ≤ (k : K) * u := mul_nonneg (Nat.cast_nonneg k) u0
  have hx := w.left
  have hy := w.right
  have a := (mul_le_mul_of_nonneg_right h1 hx.le).trans w.up
  have b := (mul_le_mul_of_nonneg_right h1 hy.le).trans w.down
  have hp : 0 ≤ k * u * x := mul_nonneg hmu hx.le
  rw [abs_le]
  refine ⟨by linarith, ?_⟩
  have : y ≤ 2 * x := by nlinarith
  have := mul_le_mul_of_nonneg_left this hmu
  linarith

end Ordered

/-! ## The formats -/

theorem twice {f : BinFormat} (hp : 1 ≤ f.p) {k : Nat} (hk : k ≤ 2 ^ (f.p - 1)) :
    (k : ℚ) * pow2 (-f.p) ≤ 1 / 2 ∧ ∀ M : ℚ, 2 * k * pow2 (-f.p) * M = k * pow2 (1 - f.p) * M := by
  constructor
  · have h1 : (k : ℚ) ≤ pow2 ((f.p - 1 : Nat) : Int) := by rw [pow2_nat]; exact_mod_cast hk
    have h2 := mul_le_mul_of_nonneg_right h1 (pow2_pos (-f.p)).le
    rw [← pow2_add, show (((f.p - 1 : Nat) : Int) + -f.p) = -1 by omega] at h2
    rwa [show pow2 (-1) = 1 / 2 by decide +kernel] at h2
  · intro M
    have e : pow2 (1 - f.p) = 2 * pow2 (-f.p) := by
      rw [show (1 - f.p : Int) = 1 + (-f.p) by ring, pow2_add]; congr 1
    rw [e]; ring

/-- The result of an evaluation, in a row: what the evaluator puts there. -/
theorem evaluated {R : Rounding ℚ} {ρ : Roles} {ops : OpSet (Fl ℚ)} (hr : ρ.Read ops R) (hash : List PNode → UInt64) (D : Nat) (t : Tree)
    (X : Mat (Fl ℚ)) (consts : List (Fl ℚ)) (opts : EvalOptions) (tiny : ℚ) :
    let _ : Scalar (Fl ℚ) := (flScalar R).toScalar
    t.WF ops D X.rows consts.length → InLimits X.rows consts.length t →
    ∃ out flag, evalTreeArray ops hash D ⟨t.toPostfix, consts⟩ X opts = some (out, flag) ∧
      (flag = true ∨ opts.earlyExit = false → ∀ r < X.cols, ∀ y : ℚ, ρ.Runs R tiny (fun f => X.at' f r) (constAt consts) t y →
        out[r]? = some (.fin y)) := by
  intro _ hwf hlim
  obtain ⟨out, flag, h, _, ho⟩ := C03_eval_correct ops hash D t X consts opts hwf hlim
  refine ⟨out, flag, h, fun hf r hr' y hy => ?_⟩
  rw [ho hf r hr', runs_eval hr hy]

theorem in_format {f : BinFormat} (hp : 1 ≤ f.p) (hmin : f.emin ≤ 0) (hmax : 1 ≤ f.emax) {ρ : Roles} {feat const : Nat → Fl ℚ} {t : Tree} {y : ℚ}
    (h : ρ.Runs ⟨f.rnd⟩ (pow2 f.emin) feat const t y) (hk : ρ.roundings t ≤ 2 ^ (f.p - 1)) :
    (ρ.Polynomial t → |y - ρ.exact (fun f => (feat f).number) (fun c => (const c).number) t| ≤
      ρ.roundings t * pow2 (1 - f.p) * ρ.size (fun f => (feat f).number) (fun c => (const c).number) t) ∧
    (ρ.Positive (fun f => (feat f).number) (fun c => (const c).number) t →
      0 < ρ.exact (fun f => (feat f).number) (fun c => (const c).number) t ∧
      |y - ρ.exact (fun f => (feat f).number) (fun c => (const c).number) t| ≤
        ρ.roundings t * pow2 (1 - f.p) * ρ.exact (fun f => (feat f).number) (fun c => (const c).number) t) := by
  have P := precise_format hp hmin hmax
  obtain ⟨h1, h2⟩ := twice hp hk
  constructor
  · intro h3
    rw [← h2]
    exact (polynomial_within P h h3).simple P.u_nonneg P.u_lt h1
  · intro h3
    have w := positive_alike P h h3
    refine ⟨w.left, ?_⟩
    rw [← h2]
    exact w.simple P.u_nonneg P.u_lt h1

/-- **C99 (`f64`).**  The evaluator returns, unless it was abandoned, in every row in which no operation overflows or underflows a number `y` with:
if the expression has no division, `y` differs from the exact value by at most `k / 2 ^ 52` times the value of the expression without cancellation;
if it has no subtraction and everything in it is positive, `y` differs from the exact value by at most the relative amount `k / 2 ^ 52`.  `k` is
the number of roundings on the way (the larger number of the operands for a sum, both for a product). -/
theorem _root_.SR.C99_evaluation64 {ρ : Roles} {ops : OpSet (Fl ℚ)} (hr : ρ.Read ops binary64) (hash : List PNode → UInt64) (D : Nat) (t : Tree)
    (X : Mat (Fl ℚ)) (consts : List (Fl ℚ)) (opts : EvalOptions) :
    let _ : Scalar (Fl ℚ) := (flScalar binary64).toScalar
    t.WF ops D X.rows consts.length → InLimits X.rows consts.length t → ρ.roundings t ≤ 2 ^ 52 →
    ∃ out flag, evalTreeArray ops hash D ⟨t.toPostfix, consts⟩ X opts = some (out, flag) ∧
      (flag = true ∨ opts.earlyExit = false → ∀ r < X.cols, ∀ y : ℚ,
        ρ.Runs binary64 (pow2 (-1022)) (fun f => X.at' f r) (constAt consts) t y →
        let x := ρ.exact (fun f => (X.at' f r).number) (fun c => (constAt consts c).number) t
        out[r]? = some (.fin y) ∧
        (ρ.Polynomial t → |y - x| ≤
          ρ.roundings t * pow2 (-52) * ρ.size (fun f => (X.at' f r).number) (fun c => (constAt consts c).number) t) ∧
        (ρ.Positive (fun f => (X.at' f r).number) (fun c => (constAt consts c).number) t →
          0 < x ∧ |y - x| ≤ ρ.roundings t * pow2 (-52) * x)) := by
  intro _ hwf hlim hk
  obtain ⟨out, flag, h, ho⟩ := evaluated hr hash D t X consts opts (pow2 (-1022)) hwf hlim
  exact ⟨out, flag, h, fun hf r hr' y hy => ⟨ho hf r hr' y hy, in_format (f := fmt64) (by decide) (by decide) (by decide) hy hk⟩⟩

/-- **C99 (`f32`).**  The same in single precision. -/
theorem _root_.SR.C99_evaluation32 {ρ : Roles} {ops : OpSet (Fl ℚ)} (hr : ρ.Read ops binary32) (hash : List PNode → UInt64) (D : Nat) (t : Tree)
    (X : Mat (Fl ℚ)) (consts : List (Fl ℚ)) (opts : EvalOptions) :
    let _ : Scalar (Fl ℚ) := (flScalar binary32).toScalar
    t.WF ops D X.rows consts.length → InLimits X.rows consts.length t → ρ.roundings t ≤ 2 ^ 23 →
    ∃ out flag, evalTreeArray ops hash D ⟨t.toPostfix, consts⟩ X opts = some (out, flag) ∧
      (flag = true ∨ opts.earlyExit = false → ∀ r < X.cols, ∀ y : ℚ,
        ρ.Runs binary32 (pow2 (-126)) (fun f => X.at' f r) (constAt consts) t y →
        let x := ρ.exact (fun f => (X.at' f r).number) (fun c => (constAt consts c).number) t
        out[r]? = some (.fin y) ∧
        (ρ.Polynomial t → |y - x| ≤
          ρ.roundings t * pow2 (-23) * ρ.size (fun f => (X.at' f r).number) (fun c => (constAt consts c).number) t) ∧
        (ρ.Positive (fun f => (X.at' f r).number) (fun c => (constAt consts c).number) t →
          0 < x ∧ |y - x| ≤ ρ.roundings t * pow2 (-23) * x)) := by
  intro _ hwf hlim hk
  obtain ⟨out, flag, h, ho⟩ := evaluated hr hash D t X consts opts (pow2 (-126)) hwf hlim
  exact ⟨out, flag, h, fun hf r hr' y hy => ⟨ho hf r hr' y hy, in_format (f := fmt32) (by decide) (by decide) (by decide) hy hk⟩⟩

/-! ## The preset operators -/

/-- The elementary operations among the preset operators: the ids are the places in the lists of operator_enum.rs:645-656. -/
def preset : Roles where
  un o := if o = 22 then some .neg else if o = 0 then some .abs else if o = 16 then some .identity else if o = 1 then some .abs2
    else if o = 17 then some .inv else none
  bin o := if o = 0 then some .add else if o = 7 then some .sub else if o = 5 then some .mul else if o = 2 then some .div else none

/-- An operator set with these. -/
def elementary (R : Rounding K) : OpSet (Fl K) where
  eval _ o vs := match vs with
    | [x] => ((preset.un o).map fun f => f.run R x).getD .nan
    | [x, y] => ((preset.bin o).map fun f => f.run R x y).getD .nan
    | _ => .nan
  partial_ _ _ _ _ := .nan
  known a o := (a == 1 && (preset.un o).isSome) || (a == 2 && (preset.bin o).isSome)

theorem elementary_read (R : Rounding K) : preset.Read (elementary R) R where
  un o f h x := by simp [elementary, h]
  bin o f h x y := by simp [elementary, h]

end EvalAccuracy
end SR
