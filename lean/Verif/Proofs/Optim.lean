import Verif.Model.Optim
import Verif.Proofs.Loss
/-
Reasoning about the minimisers.
-/
namespace SR
variable {K : Type} [Field K] [LinearOrder K]

/-- From call count `c` the computation does not panic, its final count satisfies `Q` and its result, if any,
satisfies `P`. -/
def OptM.Sat {α : Type} (m : OptM α) (c : Nat) (Q : Nat → Prop) (P : α → Prop) : Prop :=
  (m c).1 ≠ .panic ∧ Q (m c).2 ∧ ∀ a, (m c).1 = .ok a → P a

namespace OptM
variable {α β : Type}

theorem Sat.bind {m : OptM α} {f : α → OptM β} {c : Nat} {Q Q' : Nat → Prop} {P : α → Prop} {P' : β → Prop}
    (hm : m.Sat c Q P) (hq : ∀ c', Q c' → Q' c') (hf : ∀ a c', P a → Q c' → (f a).Sat c' Q' P') :
    (m >>= f).Sat c Q' P' := by
  obtain ⟨h1, h2, h3⟩ := hm
  have e : (m >>= f) c = OptM.bind m f c := rfl
  unfold Sat
  rw [e, OptM.bind]
  rcases hmc : m c with ⟨r, c'⟩
  rw [hmc] at h1 h2 h3
  cases r with
  | ok a => exact hf a c' (h3 a rfl) h2
  | fail => exact ⟨by simp, hq _ h2, by simp⟩
  | panic => exact absurd rfl h1

theorem Sat.pure {c : Nat} {Q : Nat → Prop} {P : α → Prop} {a : α} (hp : P a) (hq : Q c) :
    (Pure.pure a : OptM α).Sat c Q P := by
  refine ⟨(by intro h; cases h), hq, ?_⟩
  intro b h
  have : Res.ok a = Res.ok b := h
  cases this; exact hp

theorem Sat.fail {c : Nat} {Q : Nat → Prop} {P : α → Prop} (hq : Q c) : (OptM.fail : OptM α).Sat c Q P :=
  ⟨(by intro h; cases h), hq, (by intro a h; cases h)⟩

theorem Sat.mono {m : OptM α} {c : Nat} {Q Q' : Nat → Prop} {P P' : α → Prop} (h : m.Sat c Q P)
    (hq : ∀ c', Q c' → Q' c') (hp : ∀ a, P a → P' a) : m.Sat c Q' P' :=
  ⟨h.1, hq _ h.2.1, fun a ha => hp a (h.2.2 a ha)⟩

end OptM
open OptM

theorem zipEqM_sat {α β γ : Type} (f : α → β → γ) (a : List α) (b : List β) (h : a.length = b.length) (c : Nat) :
    (zipEqM f a b).Sat c (fun c' => c' = c) (fun l => l = List.zipWith f a b) := by
  rw [zipEqM, if_pos h]; exact Sat.pure rfl rfl

/-- Calls made from `c` on: at most `k`, and none once the limit is reached. -/
def Within (limit c k c' : Nat) : Prop := c ≤ c' ∧ c' ≤ c + k ∧ (limit ≠ 0 → c' ≤ max c limit)

theorem Within.refl (limit c : Nat) : Within limit c 0 c := ⟨le_rfl, le_rfl, fun _ => le_max_left _ _⟩
theorem Within.trans {limit c k c' k' c'' : Nat} (h : Within limit c k c') (h' : Within limit c' k' c'') :
    Within limit c (k + k') c'' := by
  obtain ⟨a1, a2, a3⟩ := h
  obtain ⟨b1, b2, b3⟩ := h'
  refine ⟨by omega, by omega, fun hl => ?_⟩
  have := a3 hl; have := b3 hl; omega
theorem Within.weaken {limit c k k' c' : Nat} (h : Within limit c k c') (hk : k ≤ k') : Within limit c k' c' :=
  ⟨h.1, by have := h.2.1; omega, h.2.2⟩

theorem phiAt_sat (obj : Objective K) (opts : OptimOptions K) (x : List (Fl K)) (c : Nat) :
    (phiAt obj opts x).Sat c (Within opts.fCallsLimit c 1)
      (fun ok => ∀ v, ok = some v → obj.fOnly x = some v ∧ v.isFinite = true) := by
  unfold phiAt Sat
  simp only
  by_cases h : exhausted opts c = true
  · rw [if_pos h]
    exact ⟨by simp, (Within.refl _ _).weaken (by omega), by intro a h; cases h; intro v hv; cases hv⟩
  · rw [if_neg h]
    refine ⟨by simp, ⟨by simp, by simp, ?_⟩, ?_⟩
    · intro hl
      simp [exhausted, hl] at h
      simp; omega
    · intro a ha v hv
      cases ha
      simpa [Option.filter_eq_some_iff] using hv

theorem nn_of_not_le {v : Fl K} (h : ¬ v.le (.fin 0) = true) : NN v := by
  unfold NN
  cases v with
  | fin x => simp [Fl.le] at h; simp [Fl.lt, h.le]
  | _ => simp_all [Fl.le, Fl.lt]

theorem nn_of_pos {v : Fl K} (h : Fl.lt (.fin 0) v = true) : NN v := by
  unfold NN
  cases v with
  | fin x => simp [Fl.lt] at h; simp [Fl.lt, h.le]
  | _ => simp_all [Fl.lt]

section
variable [IsStrictOrderedRing K] {R : Rounding K}

/-- The point reached from `x` along `s` with step `a`. -/
def stepTo (R : Rounding K) (x : List (Fl K)) (a : Fl K) (s : List (Fl K)) : List (Fl K) :=
  List.zipWith (fun xi si => R.add xi (R.mul a si)) x s

omit [IsStrictOrderedRing K] in
theorem axpy_sat (x : List (Fl K)) (a : Fl K) (s : List (Fl K)) (h : x.length = s.length) (c : Nat) :
    (axpy R x a s).Sat c (fun c' => c' = c) (fun l => l = stepTo R x a s) :=
  zipEqM_sat _ _ _ h c

theorem lsHalve_sat (hR : R.Lawful) (obj : Objective K) (opts : OptimOptions K) (x s : List (Fl K))
    (hlen : x.length = s.length) : ∀ (n : Nat) (a : Fl K) (c : Nat), NN a →
    (lsHalve R (phiAt obj opts) x s n a).Sat c (Within opts.fCallsLimit c n)
      (fun r => NN r.1 ∧ r.2.2 = stepTo R x r.1 s ∧ obj.fOnly r.2.2 = some r.2.1 ∧ r.2.1.isFinite = true) := by
  intro n
  induction n with
  | zero => intro a c _; exact Sat.fail (Within.refl _ _)
  | succ n ih =>
    intro a c ha
    unfold lsHalve
    refine Sat.bind (axpy_sat x a s hlen c) (by rintro _ rfl; exact (Within.refl _ _).weaken (by omega)) ?_
    rintro xn _ rfl rfl
    refine Sat.bind (phiAt_sat obj opts _ _) (fun c' h => h.weaken (by omega)) ?_
    intro ok c' hok hc'
    split
    · next hf =>
      cases ok with
      | none => simp [finiteSome] at hf
      | some v =>
        exact Sat.pure ⟨ha, rfl, (hok v rfl).1, (hok v rfl).2⟩ (hc'.weaken (by omega))
    · simp only
      split
      · exact Sat.fail (hc'.weaken (by omega))
      · refine (ih _ c' (nn_mul hR ha (nn_rnd hR (by positivity)))).mono ?_ (fun _ h => h)
        intro c'' h
        exact (hc'.trans h).weaken (by omega)

theorem lsLoop_sat (obj : Objective K) (opts : OptimOptions K) (ls : BackTracking K) (x s : List (Fl K))
    (hlen : x.length = s.length) (phi0 dphi0 : Fl K) : ∀ (n : Nat) (a phi : Fl K) (xn : List (Fl K))
    (prev : Option (Fl K × Fl K)) (c : Nat), NN a → xn = stepTo R x a s → obj.fOnly xn = some phi →
    phi.isFinite = true →
    (lsLoop R ls (phiAt obj opts) x s phi0 dphi0 n a phi xn prev).Sat c (Within opts.fCallsLimit c n)
      (fun r => NN r.1 ∧ r.2.2 = stepTo R x r.1 s ∧ obj.fOnly r.2.2 = some r.2.1 ∧ r.2.1.isFinite = true ∧
        r.2.1.le (R.add phi0 (R.mul (R.mul ls.c1 r.1) dphi0)) = true) := by
  intro n
  induction n with
  | zero => intros; exact Sat.fail (Within.refl _ _)
  | succ n ih =>
    intro a phi xn prev c ha hx hf hfin
    unfold lsLoop
    split
    · next h => exact Sat.pure ⟨ha, hx, hf, hfin, h⟩ ((Within.refl _ _).weaken (by omega))
    · simp only
      split
      · exact Sat.fail ((Within.refl _ _).weaken (by omega))
      · next hfin' =>
        refine Sat.bind (axpy_sat x _ s hlen c) (by rintro _ rfl; exact (Within.refl _ _).weaken (by omega)) ?_
        rintro xn' _ rfl rfl
        refine Sat.bind (phiAt_sat obj opts _ _) (fun c' h => h.weaken (by omega)) ?_
        intro ok c' hok hc'
        cases ok with
        | none => exact Sat.fail (hc'.weaken (by omega))
        | some v =>
          refine Sat.bind (Q := fun c'' => c'' = c') (P := fun w => w = v) (Sat.pure rfl rfl)
            (by rintro _ rfl; exact hc'.weaken (by omega)) ?_
          rintro w _ rfl rfl
          split
          · exact Sat.fail (hc'.weaken (by omega))
          · refine (ih _ _ _ _ _ ?_ rfl (hok _ rfl).1 (hok _ rfl).2).mono ?_ (fun _ h => h)
            · simp only [Bool.or_eq_true, not_or] at hfin'
              exact nn_of_not_le hfin'.2
            · intro c'' h
              exact (hc'.trans h).weaken (by omega)

theorem infNorm_cappedStep (hR : R.Lawful) (ls : BackTracking K) (hms : NN ls.maxstep) (a : Fl K) (ha : NN a)
    (s : List (Fl K)) : NN (cappedStep R ls a s) := by
  unfold cappedStep
  split
  · next h =>
    simp only [Bool.and_eq_true] at h
    have hn : NN (infNorm s) := nn_of_pos h.2
    have hd : NN (R.div ls.maxstep (infNorm s)) := nn_div hR hms hn
    unfold Fl.min
    split
    · exact hd
    · split
      · exact ha
      · split
        · exact hd
        · exact ha
  · exact ha

/-- The line search: the accepted step. -/
theorem linesearch_sat (hR : R.Lawful) (obj : Objective K) (opts : OptimOptions K) (ls : BackTracking K)
    (hms : NN ls.maxstep) (x s : List (Fl K)) (hlen : x.length = s.length) (a0 phi0 dphi0 : Fl K) (c : Nat) :
    (backtrackingLinesearch R ls x s a0 phi0 dphi0 (phiAt obj opts)).Sat c
      (Within opts.fCallsLimit c (ls.finiteMax + ls.iterations))
      (fun r => NN r.1 ∧ r.2.2 = stepTo R x r.1 s ∧ obj.fOnly r.2.2 = some r.2.1 ∧ r.2.1.isFinite = true ∧
        r.2.1.le (R.add phi0 (R.mul (R.mul ls.c1 r.1) dphi0)) = true) := by
  unfold backtrackingLinesearch
  split
  · exact Sat.fail ((Within.refl _ _).weaken (by omega))
  · next h =>
    have ha : NN a0 := by
      simp only [Bool.or_eq_true, not_or] at h
      exact nn_of_not_le h.2
    refine Sat.bind (lsHalve_sat hR obj opts x s hlen ls.finiteMax _ c (infNorm_cappedStep hR ls hms a0 ha s))
      (fun c' h => h.weaken (by omega)) ?_
    rintro ⟨a, phi, xn⟩ c' ⟨h1, h2, h3, h4⟩ hc'
    simp only at h1 h2 h3 h4 ⊢
    split
    · exact Sat.fail (hc'.weaken (by omega))
    · exact (lsLoop_sat obj opts ls x s hlen phi0 dphi0 ls.iterations a phi xn none c' h1 h2 h3 h4).mono
        (fun c'' h => hc'.trans h) (fun _ h => h)

/-- Sufficient decrease implies decrease, for every lawful rounding. -/
theorem armijo_le (hR : R.Lawful) (c1 a phi0 d phi : Fl K) (hc : Fl.le (.fin 0) c1 = true) (ha : NN a)
    (hd : badSlope d = false) (h0 : phi0.isFinite = true) (hrep : phi0.Rep R)
    (h : phi.le (R.add phi0 (R.mul (R.mul c1 a) d)) = true) : phi.le phi0 = true := by
  unfold badSlope at hd
  simp only [Bool.or_eq_false_iff] at hd
  obtain ⟨hd1, hd2⟩ := hd
  cases d with
  | nan => simp [Fl.isFinite] at hd1
  | pinf => simp [Fl.isFinite] at hd1
  | ninf => simp [Fl.isFinite] at hd1
  | fin d =>
  have hd' : d < 0 := by simpa [Fl.le] using hd2
  cases phi0 with
  | nan => simp [Fl.isFinite] at h0
  | pinf => simp [Fl.isFinite] at h0
  | ninf => simp [Fl.isFinite] at h0
  | fin p0 =>
  have hp0 := hrep p0 rfl
  have hcNN : NN c1 := by
    unfold NN; cases c1 <;> simp_all [Fl.le, Fl.lt]
  have hm : NN (R.mul c1 a) := nn_mul hR hcNN ha
  have hle : ∀ y : Fl K, y.le (.fin 0) = true → (R.add (.fin p0) y).le (.fin p0) = true := by
    intro y hy
    cases y with
    | nan => simp [Fl.le] at hy
    | pinf => simp [Fl.le] at hy
    | ninf => simp [Rounding.add, Fl.le]
    | fin y =>
      have : y ≤ 0 := by simpa [Fl.le] using hy
      have := hR.mono (x := p0 + y) (y := p0) (by linarith)
      rw [hp0] at this
      exact this
  have htr : ∀ y : Fl K, phi.le y = true → y.le (.fin p0) = true → phi.le (.fin p0) = true := by
    intro y h1 h2
    cases phi <;> cases y <;> simp_all [Fl.le]
    exact h1.trans h2
  cases hma : R.mul c1 a with
  | nan => rw [hma] at h; simp [Rounding.mul, Rounding.add] at h; cases phi <;> simp [Fl.le] at h
  | ninf => rw [hma] at hm; simp [NN, Fl.lt] at hm
  | pinf =>
    rw [hma] at h
    have e : R.mul .pinf (.fin d) = .ninf := by
      simp [Rounding.mul, Rounding.signInf, hd', not_lt.mpr hd'.le]
    rw [e] at h
    exact htr _ h (hle .ninf (by simp [Fl.le]))
  | fin m =>
    rw [hma] at h hm
    have hm0 : 0 ≤ m := by simpa [NN, Fl.lt] using hm
    refine htr _ h (hle _ ?_)
    have h1 : m * d ≤ 0 := mul_nonpos_of_nonneg_of_nonpos hm0 hd'.le
    have := hR.mono (x := m * d) (y := 0) h1
    rw [hR.zero] at this
    exact this


/-! ### BFGS -/

omit [IsStrictOrderedRing K] in
theorem dot_sat (a b : List (Fl K)) (h : a.length = b.length) (c : Nat) :
    (dot R a b).Sat c (fun c' => c' = c) (fun v => v = R.sum (List.zipWith R.mul a b)) := by
  unfold dot
  refine Sat.bind (zipEqM_sat _ _ _ h c) (fun _ h => h) ?_
  rintro l _ rfl rfl
  exact Sat.pure rfl rfl

omit [IsStrictOrderedRing K] in
theorem matvec_length (a x : List (Fl K)) : (matvec R a x).length = x.length := by simp [matvec]

omit [IsStrictOrderedRing K] in
theorem bfgsDirection_sat (n : Nat) (h g : List (Fl K)) (hg : g.length = n) (hh : h.length = n * n) (c : Nat) :
    (bfgsDirection R n h g).Sat c (fun c' => c' = c)
      (fun r => r.1.length = n ∧ r.2.1 = R.sum (List.zipWith R.mul g r.1) ∧ r.2.2.length = n * n) := by
  unfold bfgsDirection
  refine Sat.bind (dot_sat _ _ (by simp [matvec_length]) c) (fun _ h => h) ?_
  rintro d c' rfl rfl
  split
  · refine Sat.bind (dot_sat _ _ (by simp) _) (fun _ h => h) ?_
    rintro d' _ rfl rfl
    exact Sat.pure ⟨by simp [hg], rfl, by simp [identity]⟩ rfl
  · exact Sat.pure ⟨by simp [matvec_length, hg], rfl, hh⟩ rfl

omit [IsStrictOrderedRing K] in
theorem bfgsUpdate_sat (n : Nat) (h dx dg : List (Fl K)) (hx : dx.length = n) (hg : dg.length = n)
    (hh : h.length = n * n) (c : Nat) :
    (bfgsUpdate R n h dx dg).Sat c (fun c' => c' = c) (fun r => r.length = n * n) := by
  unfold bfgsUpdate
  refine Sat.bind (dot_sat _ _ (by omega) c) (fun _ h => h) ?_
  rintro d _ - rfl
  split
  · exact Sat.pure (by simp [identity]) rfl
  · split
    · refine Sat.bind (dot_sat _ _ (by simp [matvec_length]) _) (fun _ h => h) ?_
      rintro d' _ - rfl
      split
      · exact Sat.pure (by simp [symmetrize]) rfl
      · exact Sat.pure hh rfl
    · exact Sat.pure hh rfl

/-- What a sensible objective satisfies: gradients have one entry per coordinate and values are floats. -/
structure Objective.Ok (R : Rounding K) (obj : Objective K) : Prop where
  glen : ∀ x v g, obj.fg x = some (v, g) → g.length = x.length
  rep : ∀ x v g, obj.fg x = some (v, g) → v.Rep R
  consistent : ∀ x v g w, obj.fg x = some (v, g) → obj.fOnly x = some w → w = v

omit [Field K] [LinearOrder K] [IsStrictOrderedRing K] in
theorem callFg_sat (obj : Objective K) (x : List (Fl K)) (c : Nat) :
    (callFg obj x).Sat c (fun c' => c' = c + 1) (fun r => obj.fg x = some r) := by
  unfold callFg Sat
  cases h : obj.fg x with
  | none => exact ⟨by simp, rfl, by simp⟩
  | some r => exact ⟨by simp, rfl, by rintro a h; cases h; rfl⟩

/-- Calls of a loop of `n` passes, each making at most `k` calls of which `e` are not checked against the limit. -/
def LoopCalls (limit c n k e c' : Nat) : Prop := c ≤ c' ∧ c' ≤ c + n * k ∧ (limit ≠ 0 → c' ≤ max c (limit + e))

omit [IsStrictOrderedRing K] in
theorem not_exhausted {opts : OptimOptions K} {c : Nat} (h : ¬ exhausted opts c = true) :
    opts.fCallsLimit ≠ 0 → c < opts.fCallsLimit := by
  intro hl
  simp [exhausted, hl] at h
  exact h

/-- The loop does not panic and keeps the dimension, whatever the objective's values: the gradient only has to have the
dimension of the point. -/
theorem bfgsLoop_safe (hR : R.Lawful) (obj : Objective K)
    (glen : ∀ x v g, obj.fg x = some (v, g) → g.length = x.length) (opts : OptimOptions K) (ls : BackTracking K)
    (hms : NN ls.maxstep) :
    ∀ (n : Nat) (x : List (Fl K)) (fx : Fl K) (g h : List (Fl K)) (c : Nat),
      obj.fg x = some (fx, g) → h.length = x.length * x.length →
      (bfgsLoop R obj opts ls n x fx g h).Sat c (fun _ => True) (fun r => r.1.length = x.length) := by
  intro n
  induction n with
  | zero =>
    intro x fx g h c hfg _
    exact Sat.pure rfl trivial
  | succ n ih =>
    intro x fx g h c hfg hh
    have hstop : ∀ c', OptM.Sat (fun c => (Res.ok (x, fx), c)) c' (fun _ => True)
        (fun r : List (Fl K) × Fl K => r.1.length = x.length) := fun c' =>
      ⟨(by intro h; cases h), trivial, (by rintro r h; cases h; rfl)⟩
    unfold bfgsLoop
    by_cases he : exhausted opts c = true
    · have := hstop c
      unfold Sat at this ⊢
      simpa only [he, if_true] using this
    by_cases hg : (!(infNorm g).isFinite || (infNorm g).le opts.gAbstol) = true
    · have := hstop c
      unfold Sat at this ⊢
      simpa only [he, hg, if_true, if_false, Bool.false_eq_true] using this
    have hk : ∀ (m : OptM (List (Fl K) × Fl K)) Q P, m.Sat c Q P →
        (OptM.Sat (fun c => if exhausted opts c = true then (Res.ok (x, fx), c)
          else if (!(infNorm g).isFinite || (infNorm g).le opts.gAbstol) = true then (Res.ok (x, fx), c)
          else m c) c Q P) := by
      intro m Q P hm
      unfold Sat at hm ⊢
      simpa only [he, hg, if_false, Bool.false_eq_true] using hm
    apply hk
    refine Sat.bind (bfgsDirection_sat x.length h g (glen _ _ _ hfg) hh c) (fun _ _ => trivial) ?_
    rintro ⟨s, d, h1⟩ c' ⟨hs, hd, hh1⟩ hc'
    simp only at hs hh1 ⊢
    split
    · exact hstop c'
    · refine Sat.bind (linesearch_sat hR obj opts ls hms x s hs.symm (.fin 1) fx d c') (fun _ _ => trivial) ?_
      rintro ⟨a, phi, x'⟩ c1 ⟨-, hx', -⟩ -
      simp only at hx' ⊢
      have hxlen : x'.length = x.length := by rw [hx']; simp [stepTo, hs]
      refine Sat.bind (callFg_sat obj x' c1) (fun _ _ => trivial) ?_
      rintro ⟨fx', g'⟩ _ hfg' -
      simp only
      split
      · exact Sat.pure hxlen trivial
      · refine Sat.bind (zipEqM_sat R.sub x' x hxlen _) (fun _ _ => trivial) ?_
        rintro dx _ rfl -
        refine Sat.bind (zipEqM_sat R.sub g' g ?_ _) (fun _ _ => trivial) ?_
        · rw [glen _ _ _ hfg', glen _ _ _ hfg, hxlen]
        rintro dg _ rfl -
        refine Sat.bind (bfgsUpdate_sat x.length h1 _ _ ?_ ?_ hh1 _) (fun _ _ => trivial) ?_
        · simp [hxlen]
        · simp [glen _ _ _ hfg', glen _ _ _ hfg, hxlen]
        rintro h2 _ hh2 -
        refine (ih x' fx' g' h2 _ hfg' (by rw [hxlen]; exact hh2)).mono (fun _ _ => trivial) ?_
        rintro ⟨xr, fr⟩ r1
        exact r1.trans hxlen

/-- BFGS does not panic and returns a point of the dimension of the start, for every objective whose gradient has the
dimension of the point. -/
theorem bfgsMinimize_safe (hR : R.Lawful) (obj : Objective K)
    (glen : ∀ x v g, obj.fg x = some (v, g) → g.length = x.length) (opts : OptimOptions K) (ls : BackTracking K)
    (hms : NN ls.maxstep) (x0 : List (Fl K)) :
    (bfgsMinimize R x0 obj opts ls).Sat 0 (fun _ => True) (fun r => r.minimizer.length = x0.length) := by
  unfold bfgsMinimize
  refine OptM.Sat.bind (callFg_sat obj x0 0) (fun _ _ => trivial) ?_
  rintro ⟨fx, g⟩ c1 hfg -
  simp only
  split
  · exact OptM.Sat.fail trivial
  · refine OptM.Sat.bind (bfgsLoop_safe hR obj glen opts ls hms opts.iterations x0 fx g _ _ hfg (by simp [identity]))
      (fun _ _ => trivial) ?_
    rintro ⟨x, f⟩ c2 h -
    exact ⟨by simp, trivial, by rintro r hr; cases hr; exact h⟩

theorem bfgsLoop_sat (hR : R.Lawful) (obj : Objective K) (hobj : obj.Ok R) (opts : OptimOptions K)
    (ls : BackTracking K) (hms : NN ls.maxstep) (hc1 : Fl.le (.fin 0) ls.c1 = true) :
    ∀ (n : Nat) (x : List (Fl K)) (fx : Fl K) (g h : List (Fl K)) (c : Nat),
      obj.fg x = some (fx, g) → fx.isFinite = true → h.length = x.length * x.length →
      (bfgsLoop R obj opts ls n x fx g h).Sat c
        (LoopCalls opts.fCallsLimit c n (ls.finiteMax + ls.iterations + 1) 1)
        (fun r => r.1.length = x.length ∧ r.2.isFinite = true ∧ r.2.le fx = true ∧
          ∃ g', obj.fg r.1 = some (r.2, g')) := by
  intro n
  induction n with
  | zero =>
    intro x fx g h c hfg hfin _
    refine Sat.pure ⟨rfl, hfin, ?_, g, hfg⟩ ⟨le_rfl, by simp, fun _ => le_max_left _ _⟩
    cases fx <;> simp_all [Fl.le, Fl.isFinite]
  | succ n ih =>
    intro x fx g h c hfg hfin hh
    have hrefl : fx.le fx = true := by cases fx <;> simp_all [Fl.le, Fl.isFinite]
    have hz : LoopCalls opts.fCallsLimit c (n + 1) (ls.finiteMax + ls.iterations + 1) 1 c :=
      ⟨le_rfl, by omega, fun _ => le_max_left _ _⟩
    have hstop : ∀ c', c' = c → (OptM.Sat (fun c => (Res.ok (x, fx), c)) c' (LoopCalls opts.fCallsLimit c (n + 1) (ls.finiteMax + ls.iterations + 1) 1)
        (fun r => r.1.length = x.length ∧ r.2.isFinite = true ∧ r.2.le fx = true ∧
          ∃ g', obj.fg r.1 = some (r.2, g'))) := by
      rintro _ rfl
      exact Sat.pure ⟨rfl, hfin, hrefl, g, hfg⟩ hz
    unfold bfgsLoop
    by_cases he : exhausted opts c = true
    · have := hstop c rfl
      unfold Sat at this ⊢
      simpa only [he, if_true] using this
    by_cases hg : (!(infNorm g).isFinite || (infNorm g).le opts.gAbstol) = true
    · have := hstop c rfl
      unfold Sat at this ⊢
      simpa only [he, hg, if_true, if_false, Bool.false_eq_true] using this
    have hlim := not_exhausted he
    have hk : ∀ (m : OptM (List (Fl K) × Fl K)) Q P, m.Sat c Q P →
        (OptM.Sat (fun c => if exhausted opts c = true then (Res.ok (x, fx), c)
          else if (!(infNorm g).isFinite || (infNorm g).le opts.gAbstol) = true then (Res.ok (x, fx), c)
          else m c) c Q P) := by
      intro m Q P hm
      unfold Sat at hm ⊢
      simpa only [he, hg, if_false, Bool.false_eq_true] using hm
    apply hk
    refine Sat.bind (bfgsDirection_sat x.length h g (hobj.glen _ _ _ hfg) hh c) (by rintro _ rfl; exact hz) ?_
    rintro ⟨s, d, h1⟩ c' ⟨hs, hd, hh1⟩ hc'
    simp only at hs hh1 ⊢
    split
    · exact hstop c' hc'
    · next hbad =>
      have hbad' : badSlope d = false := by simpa using hbad
      subst hc'
      refine Sat.bind (linesearch_sat hR obj opts ls hms x s hs.symm (.fin 1) fx d c')
        (fun c'' hw => ⟨hw.1, ?_, fun hl => ?_⟩) ?_
      · have := hw.2.1
        rw [Nat.succ_mul]; omega
      · have := hw.2.2 hl
        omega
      · rintro ⟨a, phi, x'⟩ c1 ⟨hnn, hx', hf, hphi, harm⟩ hw
        simp only at hnn hx' hf hphi harm ⊢
        have hxlen : x'.length = x.length := by rw [hx']; simp [stepTo, hs]
        have hle : phi.le fx = true := armijo_le hR _ _ _ _ _ hc1 hnn hbad' hfin (hobj.rep _ _ _ hfg) harm
        have hcc : LoopCalls opts.fCallsLimit c' (n + 1) (ls.finiteMax + ls.iterations + 1) 1 (c1 + 1) := by
          obtain ⟨w1, w2, w3⟩ := hw
          refine ⟨by omega, by rw [Nat.succ_mul]; omega, fun hl => ?_⟩
          have := w3 hl; have := hlim hl; omega
        refine Sat.bind (callFg_sat obj x' c1) (by rintro _ rfl; exact hcc) ?_
        rintro ⟨fx', g'⟩ _ hfg' rfl
        have hcons : phi = fx' := hobj.consistent _ _ _ _ hfg' hf
        subst hcons
        simp only
        split
        · exact Sat.pure ⟨hxlen, hphi, hle, g', hfg'⟩ hcc
        · refine Sat.bind (zipEqM_sat R.sub x' x hxlen _) (by rintro _ rfl; exact hcc) ?_
          rintro dx _ rfl rfl
          refine Sat.bind (zipEqM_sat R.sub g' g ?_ _) (by rintro _ rfl; exact hcc) ?_
          · rw [hobj.glen _ _ _ hfg', hobj.glen _ _ _ hfg, hxlen]
          rintro dg _ rfl rfl
          refine Sat.bind (bfgsUpdate_sat x.length h1 _ _ ?_ ?_ hh1 _) (by rintro _ rfl; exact hcc) ?_
          · simp [hxlen]
          · simp [hobj.glen _ _ _ hfg', hobj.glen _ _ _ hfg, hxlen]
          rintro h2 _ hh2 rfl
          refine (ih x' phi g' h2 (c1 + 1) hfg' hphi (by rw [hxlen]; exact hh2)).mono ?_ ?_
          · rintro c2 ⟨l1, l2, l3⟩
            obtain ⟨w1, w2, w3⟩ := hw
            refine ⟨by omega, by rw [Nat.succ_mul]; omega, fun hl => ?_⟩
            have := w3 hl; have := hlim hl; have := l3 hl; omega
          · rintro ⟨xr, fr⟩ ⟨r1, r2, r3, r4⟩
            refine ⟨r1.trans hxlen, r2, ?_, r4⟩
            exact Fl.le_trans r3 hle

/-! ### Newton -/

/-- What is known of the best point so far: nothing yet (`+∞` at the start), or an evaluated point. -/
def BestOk (obj : Objective K) (x0 bestF bestX : Fl K) : Prop :=
  (bestF = .pinf ∧ bestX = x0) ∨
    (bestF.isFinite = true ∧ (∃ g, obj.fg [bestX] = some (bestF, g)) ∧
      ∃ f0 g0, obj.fg [x0] = some (f0, g0) ∧ bestF.le f0 = true)

omit [IsStrictOrderedRing K] in
theorem betterOf_ok (obj : Objective K) (x0 bestF bestX f x : Fl K) (g : List (Fl K))
    (hb : BestOk obj x0 bestF bestX) (hx : bestF = .pinf → x = x0) (hf : obj.fg [x] = some (f, g))
    (hfin : f.isFinite = true) :
    BestOk obj x0 (betterOf f x bestF bestX).1 (betterOf f x bestF bestX).2 ∧
      (betterOf f x bestF bestX).1 ≠ .pinf := by
  have hrefl : f.le f = true := by cases f <;> simp_all [Fl.le, Fl.isFinite]
  unfold betterOf
  rcases hb with ⟨rfl, rfl⟩ | ⟨h1, h2, f0, g0, h3, h4⟩
  · have hlt : f.lt .pinf = true := by cases f <;> simp_all [Fl.lt, Fl.isFinite]
    rw [if_pos hlt]
    have := hx rfl
    subst this
    exact ⟨.inr ⟨hfin, ⟨g, hf⟩, f, g, hf, hrefl⟩, by rintro rfl; simp [Fl.isFinite] at hfin⟩
  · split
    · next hlt =>
      refine ⟨.inr ⟨hfin, ⟨g, hf⟩, f0, g0, h3, ?_⟩, by rintro rfl; simp [Fl.isFinite] at hfin⟩
      refine Fl.le_trans (b := bestF) ?_ h4
      exact Fl.le_of_lt hlt
    · exact ⟨.inr ⟨h1, h2, f0, g0, h3, h4⟩, by rintro rfl; simp [Fl.isFinite] at h1⟩

theorem newtonLoop_sat (hR : R.Lawful) (obj : Objective K) (opts : OptimOptions K)
    (ls : BackTracking K) (hms : NN ls.maxstep) (x0 : Fl K) :
    ∀ (n : Nat) (x bestF bestX : Fl K) (c : Nat), BestOk obj x0 bestF bestX → (bestF = .pinf → x = x0) →
      (newtonLoop R obj opts ls n x bestF bestX).Sat c
        (LoopCalls opts.fCallsLimit c n (ls.finiteMax + ls.iterations + 3) 2)
        (fun r => BestOk obj x0 r.1 r.2 ∧
          (bestF ≠ .pinf ∨ (0 < n ∧ (opts.fCallsLimit = 0 ∨ c < opts.fCallsLimit)) → r.1 ≠ .pinf)) := by
  intro n
  induction n with
  | zero =>
    intro x bestF bestX c hb _
    exact Sat.pure ⟨hb, fun h => h.elim id (fun h => absurd h.1 (by omega))⟩ ⟨le_rfl, by simp, fun _ => le_max_left _ _⟩
  | succ n ih =>
    intro x bestF bestX c hb hx
    have hz : LoopCalls opts.fCallsLimit c (n + 1) (ls.finiteMax + ls.iterations + 3) 2 c :=
      ⟨le_rfl, by omega, fun _ => le_max_left _ _⟩
    unfold newtonLoop
    by_cases he : exhausted opts c = true
    · unfold Sat
      simp only [he, if_true]
      refine ⟨by simp, hz, ?_⟩
      intro r hr
      cases hr
      refine ⟨hb, fun h => h.elim id (fun h => ?_)⟩
      simp [exhausted] at he
      omega
    have hlim := not_exhausted he
    have hk : ∀ (m : OptM (Fl K × Fl K)) Q P, m.Sat c Q P →
        (OptM.Sat (fun c => if exhausted opts c = true then (Res.ok (bestF, bestX), c) else m c) c Q P) := by
      intro m Q P hm
      unfold Sat at hm ⊢
      simpa only [he, if_false, Bool.false_eq_true] using hm
    apply hk
    have hstep : ∀ j c', 1 ≤ j → j ≤ 3 → c' = c + j →
        LoopCalls opts.fCallsLimit c (n + 1) (ls.finiteMax + ls.iterations + 3) 2 c' := by
      intro j c' h1 h3 hc
      refine ⟨by omega, by rw [Nat.succ_mul]; omega, fun hl => ?_⟩
      have := hlim hl; omega
    refine Sat.bind (callFg_sat obj [x] c) (fun c' h => hstep 1 c' (by omega) (by omega) h) ?_
    rintro ⟨f, gv⟩ c1 hf rfl
    simp only at hf ⊢
    split
    · exact Sat.fail (hstep 1 _ (by omega) (by omega) rfl)
    next hfin =>
    simp only [Bool.or_eq_true, not_or, Bool.not_eq_true', Bool.not_eq_false] at hfin
    obtain ⟨hb1, hb2⟩ := betterOf_ok obj x0 bestF bestX f x gv hb hx hf hfin.1
    generalize betterOf f x bestF bestX = bb at hb1 hb2 ⊢
    obtain ⟨bf, bx⟩ := bb
    simp only at hb1 hb2 ⊢
    have hdone : ∀ j c', 1 ≤ j → j ≤ 3 → c' = c + j → (pure (bf, bx) : OptM (Fl K × Fl K)).Sat c'
        (LoopCalls opts.fCallsLimit c (n + 1) (ls.finiteMax + ls.iterations + 3) 2)
        (fun r => BestOk obj x0 r.1 r.2 ∧
          (bestF ≠ .pinf ∨ (0 < n + 1 ∧ (opts.fCallsLimit = 0 ∨ c < opts.fCallsLimit)) → r.1 ≠ .pinf)) :=
      fun j c' h1 h3 hc => Sat.pure ⟨hb1, fun _ => hb2⟩ (hstep j c' h1 h3 hc)
    split
    · exact hdone 1 _ (by omega) (by omega) rfl
    refine Sat.bind (callFg_sat obj _ _) (fun c' h => hstep 2 c' (by omega) (by omega) (by omega)) ?_
    rintro ⟨_, gp⟩ c2 _ hc2
    refine Sat.bind (callFg_sat obj _ _) (fun c' h => hstep 3 c' (by omega) (by omega) (by omega)) ?_
    rintro ⟨_, gm⟩ c3 _ hc3
    simp only
    generalize newtonStep R (head1 gv) (head1 gp) (head1 gm)
      (R.mul (ls.sqrt (R.rnd (1 / 2 ^ 52))) (R.add x.abs (Fl.fin 1))) = sd
    obtain ⟨s, d⟩ := sd
    simp only
    split
    · exact hdone 3 _ (by omega) (by omega) (by omega)
    refine Sat.bind (linesearch_sat hR obj opts ls hms [x] [s] rfl (.fin 1) f d c3)
      (fun c'' hw => ⟨?_, ?_, fun hl => ?_⟩) ?_
    · have := hw.1; omega
    · have := hw.2.1; rw [Nat.succ_mul]; omega
    · have := hw.2.2 hl; have := hlim hl; omega
    · rintro ⟨a, phi, x'⟩ c4 _ hw
      simp only
      refine (ih (R.add x (R.mul a s)) bf bx c4 hb1 (fun h => absurd h hb2)).mono ?_ ?_
      · rintro c5 ⟨l1, l2, l3⟩
        obtain ⟨w1, w2, w3⟩ := hw
        refine ⟨by omega, by rw [Nat.succ_mul]; omega, fun hl => ?_⟩
        have := w3 hl; have := hlim hl; have := l3 hl; omega
      · rintro ⟨rf, rx⟩ ⟨r1, r2⟩
        exact ⟨r1, fun _ => r2 (.inl hb2)⟩

end
end SR
