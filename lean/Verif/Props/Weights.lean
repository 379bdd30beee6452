import Verif.Proofs.Weights
import Verif.Props.Options
import Verif.Props.Binary
/-
C92: weights that are all one are no weights; multiplying all weights by the same number changes nothing.
-/
namespace SR
variable {K : Type} [Field K] [LinearOrder K] [IsStrictOrderedRing K] [E : Env K]
variable {o : SOptions K} {d : Dataset K}

omit [IsStrictOrderedRing K] E in
theorem CountsTo.mono {R : Rounding K} {A B : Nat} (h : R.CountsTo B) (hA : A ≤ B) [IsStrictOrderedRing K] : R.CountsTo A :=
  ⟨fun n hn => h.nat n (hn.trans hA), fun x h1 h2 h3 => h.pred x h1 h2 (h3.trans (by exact_mod_cast hA))⟩

omit [LinearOrder K] [IsStrictOrderedRing K] E in
theorem alike_ones (hy : d.y.length = d.x.cols) (hw : d.weights = none) : ({ d with baseline := none } : Dataset K).Alike Reweigh.ones d.x.cols
    { d with weights := some (List.replicate d.x.cols (.fin 1)), baseline := none } where
  x := rfl
  y := rfl
  baseline := rfl
  len := hy
  before := by simp only [hw]; rfl
  after := rfl
  w _ h := by rw [hw] at h; cases h
  w' w h := by
    simp only [Option.some.injEq] at h
    rw [← h, List.length_replicate, hy]
  rows i hi := by
    simp only [Reweigh.ones, Dataset.rowWeight, hw, true_and]
    rw [List.getD_eq_getElem?_getD, List.getElem?_replicate, if_pos hi]; rfl

omit [LinearOrder K] [IsStrictOrderedRing K] E in
theorem alike_scaled (c : K) (hy : d.y.length = d.x.cols) {w : List (Fl K)} (hw : d.weights = some w) (hl : w.length = d.x.cols) :
    ({ d with baseline := none } : Dataset K).Alike (Reweigh.scaled c) d.x.cols
      { d with weights := some (w.map (Fl.scale c)), baseline := none } where
  x := rfl
  y := rfl
  baseline := rfl
  len := hy
  before := by simp only [hw]; rfl
  after := rfl
  w v h := by
    simp only [hw, Option.some.injEq] at h
    rw [← h, hl, hy]
  w' v h := by
    simp only [Option.some.injEq] at h
    rw [← h, List.length_map, hl, hy]
  rows i hi := by
    simp only [Reweigh.scaled, Dataset.rowWeight, hw]
    rw [List.getD_eq_getElem?_getD, List.getD_eq_getElem?_getD, List.getElem?_map, List.getElem?_eq_getElem (by omega)]; rfl

omit [Field K] [LinearOrder K] [IsStrictOrderedRing K] [E : Env K] in
theorem phaseRows_le {B : Nat} (hd : d.x.cols ≤ B) (hb : o.batching = true → max o.batchSize 1 ≤ B) : phaseRows o d ≤ B := by
  unfold phaseRows
  split
  · exact hb ‹_›
  · exact hd

/-- C92: a step-wise search with weights that are all one does the same as a search without weights - the same hall of fame, best member,
populations, counters -, after every number of cycles and bit for bit, or both panic; provided that the float type can count the
rows and the rows of a batch. -/
theorem C92_ones_stepwise (hR : E.RT.Lawful) (hc : E.RT.Closed E.lossLib) {B : Nat} (hB : E.RT.CountsTo B) (hy : d.y.length = d.x.cols)
    (hw : d.weights = none) (hrows : d.x.cols ≤ B) (hbatch : o.batching = true → max o.batchSize 1 ≤ B) (seeds : Nat → Rng (Fl K))
    (g : Rng (Fl K)) (k : Nat) :
    Option.Rel (fun r r' => r'.1 = r.1 ∧ r.2.Alike Reweigh.ones r'.2)
      ((tagged o d).bind fun t => (Engine.new o t seeds g).bind fun e => e.step o t k)
      ((tagged o { d with weights := some (List.replicate d.x.cols (.fin 1)) }).bind fun t =>
        (Engine.new o t seeds g).bind fun e => e.step o t k) :=
  stepwise_alike (alike_ones hy hw) (scoresAlike_ones hR hc (CountsTo.mono hB hrows) o)
    (scoresAlike_ones hR hc (CountsTo.mono hB (phaseRows_le hrows hbatch)) o) seeds g k

/-- C92: whatever the workers do, the executions of the multi-worker search with weights that are all one and without weights
correspond to each other event by event. -/
theorem C92_ones_parallel (hR : E.RT.Lawful) (hc : E.RT.Closed E.lossLib) {B : Nat} (hB : E.RT.CountsTo B) (hy : d.y.length = d.x.cols)
    (hw : d.weights = none) (hrows : d.x.cols ≤ B) (hbatch : o.batching = true → max o.batchSize 1 ≤ B) (seeds : Nat → Rng (Fl K))
    (g : Rng (Fl K)) :
    Option.Rel (fun (t : Dataset K × Par K) t' => t.2.Alike Reweigh.ones t'.2 ∧ ∀ nw tr,
        (∀ q, ParRun o t.1 nw t.2 tr q → ∃ q', ParRun o t'.1 nw t'.2 tr q' ∧ q.Alike Reweigh.ones q') ∧
        (∀ q', ParRun o t'.1 nw t'.2 tr q' → ∃ q, ParRun o t.1 nw t.2 tr q ∧ q.Alike Reweigh.ones q'))
      ((tagged o d).bind fun t => (Par.new o t seeds g).map fun p => (t, p))
      ((tagged o { d with weights := some (List.replicate d.x.cols (.fin 1)) }).bind fun t =>
        (Par.new o t seeds g).map fun p => (t, p)) :=
  (parallel_alike (alike_ones hy hw) (scoresAlike_ones hR hc (CountsTo.mono hB hrows) o)
    (scoresAlike_ones hR hc (CountsTo.mono hB (phaseRows_le hrows hbatch)) o) seeds g).weaken fun _ _ h =>
      ⟨h.1, fun nw tr => ⟨(h.2 nw tr).1, fun q' hq => let ⟨q, h1, h2⟩ := (h.2 nw tr).2 q' hq; ⟨q, h1, h2.flip⟩⟩⟩

/-- C92: multiplying all weights by a number `c` that commutes with rounding - any positive number in exact arithmetic - changes
nothing in a step-wise search. -/
theorem C92_scaled_stepwise {c : K} (hc : E.RT.Scales c) (hy : d.y.length = d.x.cols) {w : List (Fl K)} (hw : d.weights = some w)
    (hl : w.length = d.x.cols) (seeds : Nat → Rng (Fl K)) (g : Rng (Fl K)) (k : Nat) :
    Option.Rel (fun r r' => r'.1 = r.1 ∧ r.2.Alike (Reweigh.scaled c) r'.2)
      ((tagged o d).bind fun t => (Engine.new o t seeds g).bind fun e => e.step o t k)
      ((tagged o { d with weights := some (w.map (Fl.scale c)) }).bind fun t => (Engine.new o t seeds g).bind fun e => e.step o t k) :=
  stepwise_alike (alike_scaled c hy hw hl) (scoresAlike_scaled hc o _) (scoresAlike_scaled hc o _) seeds g k

/-- C92: nor in a multi-worker search, whatever the workers do. -/
theorem C92_scaled_parallel {c : K} (hc : E.RT.Scales c) (hy : d.y.length = d.x.cols) {w : List (Fl K)} (hw : d.weights = some w)
    (hl : w.length = d.x.cols) (seeds : Nat → Rng (Fl K)) (g : Rng (Fl K)) :
    Option.Rel (fun (t : Dataset K × Par K) t' => t.2.Alike (Reweigh.scaled c) t'.2 ∧ ∀ nw tr,
        (∀ q, ParRun o t.1 nw t.2 tr q → ∃ q', ParRun o t'.1 nw t'.2 tr q' ∧ q.Alike (Reweigh.scaled c) q') ∧
        (∀ q', ParRun o t'.1 nw t'.2 tr q' → ∃ q, ParRun o t.1 nw t.2 tr q ∧ q.Alike (Reweigh.scaled c) q'))
      ((tagged o d).bind fun t => (Par.new o t seeds g).map fun p => (t, p))
      ((tagged o { d with weights := some (w.map (Fl.scale c)) }).bind fun t => (Par.new o t seeds g).map fun p => (t, p)) :=
  (parallel_alike (alike_scaled c hy hw hl) (scoresAlike_scaled hc o _) (scoresAlike_scaled hc o _) seeds g).weaken fun _ _ h =>
      ⟨h.1, fun nw tr => ⟨(h.2 nw tr).1, fun q' hq => let ⟨q, h1, h2⟩ := (h.2 nw tr).2 q' hq; ⟨q, h1, h2.flip⟩⟩⟩

/-! ## The hypotheses hold for the floats of Rust and for exact arithmetic -/

omit [IsStrictOrderedRing K] E in
/-- C92: every positive number commutes with exact arithmetic. -/
theorem C92_exact_scales {c : K} (hc : 0 < c) : (Rounding.exact K).Scales c := ⟨hc, fun _ => rfl⟩

/-- The opposite of a value of a binary format is a value of it. -/
theorem binFormat_neg {f : BinFormat} (hp : 1 ≤ f.p) {x : ℚ} (h : f.rnd x = .fin x) : f.rnd (-x) = .fin (-x) := by
  by_cases hx : x = 0
  · subst hx; rw [neg_zero]; exact h
  · rw [rnd_eq'] at h
    split at h
    · cases h
    split at h
    · cases h
    next h1 h2 =>
    simp only [Fl.fin.injEq] at h
    obtain ⟨n, h3, h4, h5⟩ := nearest_shape (f := f) hp x hx
    rw [h] at h3 h1 h2
    refine rnd_representable hp (-n) (f.ulpExp x) (by push_cast; rw [neg_mul, ← h3]) (by rw [abs_neg]; exact h4) h5 ?_
    rw [abs_neg, abs_lt]
    exact ⟨by linarith, by linarith⟩

/-- C92: `f64` counts to 2^53 and `f32` to 2^24, and both are closed under negation; so the theorems apply to `f32` data of up to
2^24 rows and to `f64` data of up to 2^53. -/
theorem C92_floats {lib : LossLib ℚ} (h64 : ∀ a x, (lib.ln a = .fin x ∨ ∃ b, lib.powf a b = .fin x) → binary64.rnd x = .fin x)
    (h32 : ∀ a x, (lib.ln a = .fin x ∨ ∃ b, lib.powf a b = .fin x) → binary32.rnd x = .fin x) :
    binary64.CountsTo (2 ^ 53) ∧ binary64.Closed lib ∧ binary32.CountsTo (2 ^ 24) ∧ binary32.Closed lib :=
  ⟨binary64_counts, ⟨fun h => binFormat_neg (f := fmt64) (by decide) h, fun h => h64 _ _ (.inl h), fun h => h64 _ _ (.inr ⟨_, h⟩)⟩,
    binary32_counts, ⟨fun h => binFormat_neg (f := fmt32) (by decide) h, fun h => h32 _ _ (.inl h), fun h => h32 _ _ (.inr ⟨_, h⟩)⟩⟩

/-! ## The exceptions are real -/

theorem ones_saturate : ∀ (n k : Nat), k ≤ 2 ^ 24 →
    (List.replicate n (.fin 1 : Fl ℚ)).foldl binary32.add (.fin (k : ℚ)) = .fin ((min (k + n) (2 ^ 24) : Nat) : ℚ) := by
  intro n
  induction n with
  | zero => intro k hk; simp only [List.replicate_zero, List.foldl_nil, Nat.add_zero, min_eq_left hk]
  | succ n ih =>
    intro k hk
    rw [List.replicate_succ, List.foldl_cons]
    show (List.replicate n (Fl.fin 1)).foldl binary32.add (binary32.rnd ((k : ℚ) + 1)) = _
    by_cases h : k + 1 ≤ 2 ^ 24
    · rw [← Nat.cast_succ, binary32_counts.nat (k + 1) h, ih (k + 1) h]
      congr 2
      show min (k + 1 + n) _ = _
      congr 1; omega
    · have hk' : k = 2 ^ 24 := by omega
      subst hk'
      have h1 : binary32.rnd (((2 ^ 24 : Nat) : ℚ) + 1) = .fin ((2 ^ 24 : Nat) : ℚ) := by decide +kernel
      rw [h1, ih (2 ^ 24) le_rfl]
      congr 2
      omega

/-- C92, the exception: with more than 2^24 rows of `f32` the two differ, and it is the loss without weights that is wrong. With 2^25
rows and predictions that are all off by one, the mean squared error is 1 with weights that are all one, and 1/2 without. -/
theorem C92_too_many_rows (lib : LossLib ℚ) :
    (LossKind.mean .squared).loss binary32 lib (List.replicate (2 ^ 25) (.fin 1)) (List.replicate (2 ^ 25) (.fin 0))
      (some (List.replicate (2 ^ 25) (.fin 1))) = some (.fin 1) ∧
    (LossKind.mean .squared).loss binary32 lib (List.replicate (2 ^ 25) (.fin 1)) (List.replicate (2 ^ 25) (.fin 0)) none =
      some (.fin (1 / 2)) := by
  generalize hn : (2 ^ 25 : Nat) = n
  have hs : binary32.sum (List.replicate n (.fin 1)) = .fin (16777216 : ℚ) := by
    have := ones_saturate n 0 (by norm_num)
    rw [Nat.cast_zero] at this
    unfold Rounding.sum
    rw [this, ← hn]
    norm_num
  have hz : List.zipWith (fun a b => binary32.mul (binary32.sub a b) (binary32.sub a b)) (List.replicate n (.fin 1)) (List.replicate n (.fin 0)) =
      List.replicate n (.fin 1) := by
    rw [List.zipWith_replicate, Nat.min_self]
    congr 1
    decide +kernel
  have hm : List.zipWith binary32.mul (List.replicate n (.fin 1)) (List.replicate n (.fin 1)) = List.replicate n (.fin 1) := by
    rw [List.zipWith_replicate, Nat.min_self]
    congr 1
    decide +kernel
  have h0 : (List.replicate n (Fl.fin (0 : ℚ))).isEmpty = false := by
    rw [← Bool.not_eq_true, List.isEmpty_iff, List.replicate_eq_nil_iff]; omega
  have h1 : binary32.div (.fin 16777216) (.fin 16777216) = .fin 1 := by decide +kernel
  have h2 : binary32.ofNat n = .fin 33554432 := by
    rw [← hn]
    decide +kernel
  have h3 : binary32.div (.fin 16777216) (.fin 33554432) = .fin (1 / 2) := by decide +kernel
  have h4 : (Fl.fin (16777216 : ℚ)).feq (.fin 0) = false := by decide +kernel
  have hsq : PointLoss.squared.loss binary32 lib = fun a b => binary32.mul (binary32.sub a b) (binary32.sub a b) := rfl
  simp only [LossKind.loss, meanLoss, hsq, hs, hz, hm, h0, List.length_replicate, h1, h2, h3, h4, ne_eq, not_true_eq_false, or_self, if_false,
    Bool.false_eq_true, and_self]

/-- C92, the exception for scaling: in `f64` a factor that makes the sum of the weights overflow turns the loss into NaN - so that
every expression is rejected -, and one that makes the weights underflow to zero turns it into 0 - so that every expression is perfect. -/
theorem C92_overflow (lib : LossLib ℚ) :
    (LossKind.mean .squared).loss binary64 lib [.fin 1, .fin 1] [.fin 0, .fin 0] (some [.fin 1, .fin 1]) = some (.fin 1) ∧
    (LossKind.mean .squared).loss binary64 lib [.fin 1, .fin 1] [.fin 0, .fin 0] (some [.fin (pow2 1023), .fin (pow2 1023)]) = some .nan ∧
    binary64.rnd (pow2 (-1080)) = .fin 0 ∧
    (LossKind.mean .squared).loss binary64 lib [.fin 1, .fin 1] [.fin 0, .fin 0] (some [.fin 0, .fin 0]) = some (.fin 0) := by
  have hsq : PointLoss.squared.loss binary64 lib = fun a b => binary64.mul (binary64.sub a b) (binary64.sub a b) := rfl
  simp only [LossKind.loss, hsq]
  refine ⟨?_, ?_, ?_, ?_⟩ <;> decide +kernel

end SR

namespace SR.Demo

/-- Rounding to `f64`. -/
def to64 : Fl ℚ → Fl ℚ
  | .fin x => binary64.rnd x
  | v => v

/-- The environment of C75 with library functions that return `f64` values. -/
@[reducible] def weightsEnv : Env ℚ :=
  { rustEnv with lossLib := ⟨to64, to64, to64, fun x _ => to64 x, to64⟩ }

theorem to64_value {a : Fl ℚ} {x : ℚ} (h : to64 a = .fin x) : binary64.rnd x = .fin x := by
  cases a with
  | fin y => exact binary64_lawful.idem h
  | nan => cases h
  | ninf => cases h
  | pinf => cases h

local instance instWeights : Env ℚ := weightsEnv

/-- The hypotheses are met: the default options in `f64`, with mini-batches, for every data set without weights of up to 2^53 rows and
any random numbers. -/
example (d : Dataset ℚ) (hw : d.weights = none) (hy : d.y.length = d.x.cols) (hn : d.x.cols ≤ 2 ^ 53) (seeds : Nat → Rng (Fl ℚ))
    (g : Rng (Fl ℚ)) (k : Nat) :
    Option.Rel (fun r r' => r'.1 = r.1 ∧ r.2.Alike Reweigh.ones r'.2)
      ((tagged { SOptions.default 2 id 52 with batching := true } d).bind fun t =>
        (Engine.new { SOptions.default 2 id 52 with batching := true } t seeds g).bind fun e =>
          e.step { SOptions.default 2 id 52 with batching := true } t k)
      ((tagged { SOptions.default 2 id 52 with batching := true } { d with weights := some (List.replicate d.x.cols (.fin 1)) }).bind fun t =>
        (Engine.new { SOptions.default 2 id 52 with batching := true } t seeds g).bind fun e =>
          e.step { SOptions.default 2 id 52 with batching := true } t k) :=
  C92_ones_stepwise (E := weightsEnv) binary64_lawful
    ⟨fun h => binFormat_neg (f := fmt64) (by decide) h, fun h => to64_value h, fun h => to64_value h⟩ binary64_counts hy hw hn
    (fun _ => by decide) seeds g k

end SR.Demo
