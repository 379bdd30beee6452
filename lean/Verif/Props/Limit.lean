import Verif.Props.Optim
import Verif.Props.Restarts
/-
C94: the limit on the number of objective calls only cuts a run of the minimiser short.
-/
namespace SR
variable {K : Type} [Field K] [LinearOrder K]

/-- The same options without a limit on the calls. -/
def OptimOptions.unlimited (o : OptimOptions K) : OptimOptions K := { o with fCallsLimit := 0 }

/-- The outcome `r` of a computation with call limit `L` against the outcome `r'` without: the same, or nothing, the
limit having been reached. -/
def CutAt {α : Type} (L : Nat) (r r' : Res α × Nat) : Prop := r = r' ∨ (r.1 = .fail ∧ L ≠ 0 ∧ L ≤ r.2)

omit [Field K] [LinearOrder K] in
theorem exhausted_iff (opts : OptimOptions K) (c : Nat) : exhausted opts c = true ↔ opts.fCallsLimit ≠ 0 ∧ opts.fCallsLimit ≤ c := by
  simp [exhausted]

omit [Field K] [LinearOrder K] in
theorem exhausted_unlimited (opts : OptimOptions K) (c : Nat) : exhausted opts.unlimited c = false := by
  simp [exhausted, OptimOptions.unlimited]

theorem OptM.run_bind {α β : Type} (m : OptM α) (f : α → OptM β) (c : Nat) :
    (m >>= f) c = match m c with
      | (.ok a, c') => f a c'
      | (.fail, c') => (.fail, c')
      | (.panic, c') => (.panic, c') := rfl

theorem CutAt.bind {α β : Type} {L : Nat} {m m' : OptM α} {f f' : α → OptM β} {c : Nat} (h : CutAt L (m c) (m' c))
    (hf : ∀ a c', m' c = (.ok a, c') → CutAt L (f a c') (f' a c')) : CutAt L ((m >>= f) c) ((m' >>= f') c) := by
  rw [OptM.run_bind, OptM.run_bind]
  rcases h with h | ⟨h1, h2, h3⟩
  · rw [h]
    rcases hm : m' c with ⟨_ | _ | _, c'⟩
    · exact hf _ _ hm
    · exact Or.inl rfl
    · exact Or.inl rfl
  · rcases hm : m c with ⟨_ | _ | _, c'⟩
    · rw [hm] at h1; exact absurd h1 (by simp)
    · rw [hm] at h3
      exact Or.inr ⟨rfl, h2, h3⟩
    · rw [hm] at h1; exact absurd h1 (by simp)

section
variable (R : Rounding K) (obj : Objective K) (opts : OptimOptions K) (ls : BackTracking K)

/-- Once the limit is reached the halving loop can only give up (or panic, when the lengths differ). -/
theorem lsHalve_spent (x s : List (Fl K)) (hl : x.length = s.length) {c : Nat} (hc : exhausted opts c = true) :
    ∀ (n : Nat) (a : Fl K), lsHalve R (phiAt obj opts) x s n a c = (.fail, c)
  | 0, _ => rfl
  | n + 1, a => by
    unfold lsHalve
    have h1 : axpy R x a s c = (.ok (List.zipWith (fun xi si => R.add xi (R.mul a si)) x s), c) := by
      unfold axpy zipEqM; rw [if_pos hl]; rfl
    rw [OptM.run_bind, h1]
    simp only
    have h2 : ∀ y, phiAt obj opts y c = (.ok none, c) := fun y => by unfold phiAt; rw [if_pos hc]
    rw [OptM.run_bind, h2]
    simp only
    have hf : ¬ finiteSome (none : Option (Fl K)) = true := by simp [finiteSome]
    rw [if_neg hf]
    by_cases ha : (R.mul a (R.rnd (1 / 2))).le (.fin 0) = true
    · rw [if_pos ha]; rfl
    · rw [if_neg ha]; exact lsHalve_spent x s hl hc n _

theorem lsHalve_cut (x s : List (Fl K)) :
    ∀ (n : Nat) (a : Fl K) (c : Nat), CutAt opts.fCallsLimit (lsHalve R (phiAt obj opts) x s n a c)
      (lsHalve R (phiAt obj opts.unlimited) x s n a c)
  | 0, _, _ => Or.inl rfl
  | n + 1, a, c => by
    by_cases hl : x.length = s.length
    · by_cases hc : exhausted opts c = true
      · rw [lsHalve_spent R obj opts x s hl hc]
        obtain ⟨h1, h2⟩ := (exhausted_iff _ _).1 hc
        exact Or.inr ⟨rfl, h1, h2⟩
      · unfold lsHalve
        refine CutAt.bind (Or.inl rfl) fun xn c' hx => ?_
        obtain rfl : c' = c := by
          unfold axpy zipEqM at hx; rw [if_pos hl] at hx; exact (Prod.mk.inj hx).2.symm
        have h2 : phiAt obj opts xn c' = phiAt obj opts.unlimited xn c' := by
          unfold phiAt; rw [if_neg hc, if_neg (by rw [exhausted_unlimited]; simp)]
        refine CutAt.bind (Or.inl h2) fun ok c'' _ => ?_
        split
        · exact Or.inl rfl
        · simp only
          by_cases ha : (R.mul a (R.rnd (1 / 2))).le (.fin 0) = true
          · rw [if_pos ha, if_pos ha]; exact Or.inl rfl
          · rw [if_neg ha, if_neg ha]; exact lsHalve_cut x s n _ _
    · have h1 : ∀ b, axpy R x b s c = (.panic, c) := fun b => by unfold axpy zipEqM; rw [if_neg hl]; rfl
      unfold lsHalve
      rw [OptM.run_bind, OptM.run_bind, h1]
      exact Or.inl rfl

theorem lsLoop_cut (x s : List (Fl K)) (phi0 dphi0 : Fl K) :
    ∀ (n : Nat) (alpha phi : Fl K) (xn : List (Fl K)) (prev : Option (Fl K × Fl K)) (c : Nat),
      CutAt opts.fCallsLimit (lsLoop R ls (phiAt obj opts) x s phi0 dphi0 n alpha phi xn prev c)
        (lsLoop R ls (phiAt obj opts.unlimited) x s phi0 dphi0 n alpha phi xn prev c)
  | 0, _, _, _, _, _ => Or.inl rfl
  | n + 1, alpha, phi, xn, prev, c => by
    unfold lsLoop
    split
    · exact Or.inl rfl
    · simp only
      split
      · exact Or.inl rfl
      · refine CutAt.bind (Or.inl rfl) fun xn' c' hx => ?_
        by_cases hc : exhausted opts c' = true
        · have h2 : phiAt obj opts xn' c' = (.ok none, c') := by unfold phiAt; rw [if_pos hc]
          rw [OptM.run_bind, h2]
          obtain ⟨h3, h4⟩ := (exhausted_iff _ _).1 hc
          exact Or.inr ⟨rfl, h3, h4⟩
        · have h2 : phiAt obj opts xn' c' = phiAt obj opts.unlimited xn' c' := by
            unfold phiAt; rw [if_neg hc, if_neg (by rw [exhausted_unlimited]; simp)]
          refine CutAt.bind (Or.inl h2) fun ok c'' _ => ?_
          refine CutAt.bind (Or.inl rfl) fun phi' c3 _ => ?_
          split
          · exact Or.inl rfl
          · exact lsLoop_cut x s phi0 dphi0 n _ _ _ _ _

theorem linesearch_cut (x s : List (Fl K)) (alpha0 phi0 dphi0 : Fl K) (c : Nat) :
    CutAt opts.fCallsLimit (backtrackingLinesearch R ls x s alpha0 phi0 dphi0 (phiAt obj opts) c)
      (backtrackingLinesearch R ls x s alpha0 phi0 dphi0 (phiAt obj opts.unlimited) c) := by
  unfold backtrackingLinesearch
  split
  · exact Or.inl rfl
  · refine CutAt.bind (lsHalve_cut R obj opts x s _ _ _) fun r c' _ => ?_
    obtain ⟨alpha, phi, xn⟩ := r
    simp only
    split
    · exact Or.inl rfl
    · exact lsLoop_cut R obj opts ls x s phi0 dphi0 _ _ _ _ _ _

/-- A run cut at an iteration is the run with that many iterations. -/
theorem bfgsLoop_cut : ∀ (n : Nat) (x : List (Fl K)) (fx : Fl K) (g h : List (Fl K)) (c : Nat),
    ∃ k ≤ n, CutAt opts.fCallsLimit (bfgsLoop R obj opts ls n x fx g h c)
      (bfgsLoop R obj opts.unlimited ls k x fx g h c)
  | 0, _, _, _, _, _ => ⟨0, le_refl _, Or.inl rfl⟩
  | n + 1, x, fx, g, h, c => by
    by_cases hc : exhausted opts c = true
    · refine ⟨0, by omega, Or.inl ?_⟩
      unfold bfgsLoop
      simp only [hc, if_true]
      rfl
    · have hu := exhausted_unlimited opts c
      -- the run with at least one iteration, as long as nothing has been decided
      have same : ∀ k, bfgsLoop R obj opts ls (n + 1) x fx g h c = bfgsLoop R obj opts.unlimited ls (k + 1) x fx g h c →
          k ≤ n → ∃ k' ≤ n + 1, CutAt opts.fCallsLimit (bfgsLoop R obj opts ls (n + 1) x fx g h c)
            (bfgsLoop R obj opts.unlimited ls k' x fx g h c) := fun k hk hkn => ⟨k + 1, by omega, Or.inl hk⟩
      by_cases hg : (!(infNorm g).isFinite || (infNorm g).le opts.gAbstol) = true
      · refine same 0 ?_ (by omega)
        unfold bfgsLoop
        have hg' : (!(infNorm g).isFinite || (infNorm g).le opts.unlimited.gAbstol) = true := hg
        simp only [hc, hu, hg, hg', if_true, if_false, Bool.false_eq_true]
      · have hg' : ¬ (!(infNorm g).isFinite || (infNorm g).le opts.unlimited.gAbstol) = true := hg
        have e1 : ∀ k, bfgsLoop R obj opts.unlimited ls (k + 1) x fx g h c = (bfgsDirection R x.length h g >>= fun r =>
            if badSlope r.2.1 then pure (x, fx)
            else backtrackingLinesearch R ls x r.1 (.fin 1) fx r.2.1 (phiAt obj opts.unlimited) >>= fun t =>
              callFg obj t.2.2 >>= fun u => if !u.1.isFinite then pure (t.2.2, u.1)
                else zipEqM R.sub t.2.2 x >>= fun dx => zipEqM R.sub u.2 g >>= fun dg =>
                  bfgsUpdate R x.length r.2.2 dx dg >>= fun h2 => bfgsLoop R obj opts.unlimited ls k t.2.2 u.1 u.2 h2) c := by
          intro k
          rw [bfgsLoop]
          simp only [hu, if_false, Bool.false_eq_true]
          rw [if_neg hg']
        have e2 : bfgsLoop R obj opts ls (n + 1) x fx g h c = (bfgsDirection R x.length h g >>= fun r =>
            if badSlope r.2.1 then pure (x, fx)
            else backtrackingLinesearch R ls x r.1 (.fin 1) fx r.2.1 (phiAt obj opts) >>= fun t =>
              callFg obj t.2.2 >>= fun u => if !u.1.isFinite then pure (t.2.2, u.1)
                else zipEqM R.sub t.2.2 x >>= fun dx => zipEqM R.sub u.2 g >>= fun dg =>
                  bfgsUpdate R x.length r.2.2 dx dg >>= fun h2 => bfgsLoop R obj opts ls n t.2.2 u.1 u.2 h2) c := by
          rw [bfgsLoop]
          simp only [if_neg hc]
          rw [if_neg hg]
        -- the recursive call, wherever it is made, is cut at some number of iterations
        have ih := fun x fx g h c => bfgsLoop_cut n x fx g h c
        suffices H : ∃ k ≤ n, CutAt opts.fCallsLimit (bfgsLoop R obj opts ls (n + 1) x fx g h c)
            (bfgsLoop R obj opts.unlimited ls (k + 1) x fx g h c) by
          obtain ⟨k, hk, hcut⟩ := H
          exact ⟨k + 1, by omega, hcut⟩
        simp only [e1, e2]
        simp only [OptM.run_bind (bfgsDirection R x.length h g)]
        rcases bfgsDirection R x.length h g c with ⟨_ | _ | _, c1⟩
        rotate_left
        · exact ⟨0, by omega, Or.inl rfl⟩
        · exact ⟨0, by omega, Or.inl rfl⟩
        rename_i r
        simp only
        split
        · exact ⟨0, by omega, Or.inl rfl⟩
        have hcut := linesearch_cut R obj opts ls x r.1 (.fin 1) fx r.2.1 c1
        simp only [OptM.run_bind (backtrackingLinesearch R ls x r.1 _ fx r.2.1 _)]
        rcases hcut with hcut | ⟨h1, h2, h3⟩
        rotate_left
        · rcases hm : backtrackingLinesearch R ls x r.1 (.fin 1) fx r.2.1 (phiAt obj opts) c1 with ⟨_ | _ | _, c2⟩
          · rw [hm] at h1; exact absurd h1 (by simp)
          · rw [hm] at h3; exact ⟨0, by omega, Or.inr ⟨rfl, h2, h3⟩⟩
          · rw [hm] at h1; exact absurd h1 (by simp)
        rw [hcut]
        rcases backtrackingLinesearch R ls x r.1 (.fin 1) fx r.2.1 (phiAt obj opts.unlimited) c1 with ⟨_ | _ | _, c2⟩
        rotate_left
        · exact ⟨0, by omega, Or.inl rfl⟩
        · exact ⟨0, by omega, Or.inl rfl⟩
        rename_i t
        simp only
        simp only [OptM.run_bind (callFg obj t.2.2)]
        rcases callFg obj t.2.2 c2 with ⟨_ | _ | _, c3⟩
        rotate_left
        · exact ⟨0, by omega, Or.inl rfl⟩
        · exact ⟨0, by omega, Or.inl rfl⟩
        rename_i u
        simp only
        split
        · exact ⟨0, by omega, Or.inl rfl⟩
        simp only [OptM.run_bind (zipEqM R.sub t.2.2 x)]
        rcases zipEqM R.sub t.2.2 x c3 with ⟨_ | _ | _, c4⟩
        rotate_left
        · exact ⟨0, by omega, Or.inl rfl⟩
        · exact ⟨0, by omega, Or.inl rfl⟩
        rename_i dx
        simp only
        simp only [OptM.run_bind (zipEqM R.sub u.2 g)]
        rcases zipEqM R.sub u.2 g c4 with ⟨_ | _ | _, c5⟩
        rotate_left
        · exact ⟨0, by omega, Or.inl rfl⟩
        · exact ⟨0, by omega, Or.inl rfl⟩
        rename_i dg
        simp only
        simp only [OptM.run_bind (bfgsUpdate R x.length r.2.2 dx dg)]
        rcases bfgsUpdate R x.length r.2.2 dx dg c5 with ⟨_ | _ | _, c6⟩
        rotate_left
        · exact ⟨0, by omega, Or.inl rfl⟩
        · exact ⟨0, by omega, Or.inl rfl⟩
        rename_i h2
        simp only
        exact ih _ _ _ _ _

/-- The same for the one dimensional method. -/
theorem newtonLoop_cut : ∀ (n : Nat) (x bestF bestX : Fl K) (c : Nat),
    ∃ k ≤ n, CutAt opts.fCallsLimit (newtonLoop R obj opts ls n x bestF bestX c)
      (newtonLoop R obj opts.unlimited ls k x bestF bestX c)
  | 0, _, _, _, _ => ⟨0, le_refl _, Or.inl rfl⟩
  | n + 1, x, bestF, bestX, c => by
    by_cases hc : exhausted opts c = true
    · refine ⟨0, by omega, Or.inl ?_⟩
      unfold newtonLoop
      simp only [hc, if_true]
      rfl
    · have hu := exhausted_unlimited opts c
      have ih := fun x f y c => newtonLoop_cut n x f y c
      let eps := R.mul (ls.sqrt (R.rnd (1 / 2 ^ 52))) (R.add x.abs (.fin 1))
      have e1 : ∀ k, newtonLoop R obj opts.unlimited ls (k + 1) x bestF bestX c = (callFg obj [x] >>= fun r =>
          if !r.1.isFinite || !(head1 r.2).isFinite then OptM.fail
          else if (head1 r.2).abs.le opts.gAbstol then pure (betterOf r.1 x bestF bestX)
          else callFg obj [R.add x eps] >>= fun p => callFg obj [R.sub x eps] >>= fun q =>
            if badSlope (newtonStep R (head1 r.2) (head1 p.2) (head1 q.2) eps).2 then pure (betterOf r.1 x bestF bestX)
            else backtrackingLinesearch R ls [x] [(newtonStep R (head1 r.2) (head1 p.2) (head1 q.2) eps).1] (.fin 1) r.1
                (newtonStep R (head1 r.2) (head1 p.2) (head1 q.2) eps).2 (phiAt obj opts.unlimited) >>= fun t =>
              newtonLoop R obj opts.unlimited ls k
                (R.add x (R.mul t.1 (newtonStep R (head1 r.2) (head1 p.2) (head1 q.2) eps).1))
                (betterOf r.1 x bestF bestX).1 (betterOf r.1 x bestF bestX).2) c := by
        intro k
        rw [newtonLoop]
        simp only [hu, if_false, Bool.false_eq_true]
        rfl
      have e2 : newtonLoop R obj opts ls (n + 1) x bestF bestX c = (callFg obj [x] >>= fun r =>
          if !r.1.isFinite || !(head1 r.2).isFinite then OptM.fail
          else if (head1 r.2).abs.le opts.gAbstol then pure (betterOf r.1 x bestF bestX)
          else callFg obj [R.add x eps] >>= fun p => callFg obj [R.sub x eps] >>= fun q =>
            if badSlope (newtonStep R (head1 r.2) (head1 p.2) (head1 q.2) eps).2 then pure (betterOf r.1 x bestF bestX)
            else backtrackingLinesearch R ls [x] [(newtonStep R (head1 r.2) (head1 p.2) (head1 q.2) eps).1] (.fin 1) r.1
                (newtonStep R (head1 r.2) (head1 p.2) (head1 q.2) eps).2 (phiAt obj opts) >>= fun t =>
              newtonLoop R obj opts ls n
                (R.add x (R.mul t.1 (newtonStep R (head1 r.2) (head1 p.2) (head1 q.2) eps).1))
                (betterOf r.1 x bestF bestX).1 (betterOf r.1 x bestF bestX).2) c := by
        rw [newtonLoop]
        simp only [if_neg hc]
        rfl
      suffices H : ∃ k ≤ n, CutAt opts.fCallsLimit (newtonLoop R obj opts ls (n + 1) x bestF bestX c)
          (newtonLoop R obj opts.unlimited ls (k + 1) x bestF bestX c) by
        obtain ⟨k, hk, hcut⟩ := H
        exact ⟨k + 1, by omega, hcut⟩
      simp only [e1, e2]
      clear e1 e2
      simp only [OptM.run_bind (callFg obj [x])]
      rcases callFg obj [x] c with ⟨_ | _ | _, c1⟩
      rotate_left
      · exact ⟨0, by omega, Or.inl rfl⟩
      · exact ⟨0, by omega, Or.inl rfl⟩
      rename_i r
      simp only
      split
      · exact ⟨0, by omega, Or.inl rfl⟩
      split
      · exact ⟨0, by omega, Or.inl rfl⟩
      simp only [OptM.run_bind (callFg obj [R.add x eps])]
      rcases callFg obj [R.add x eps] c1 with ⟨_ | _ | _, c2⟩
      rotate_left
      · exact ⟨0, by omega, Or.inl rfl⟩
      · exact ⟨0, by omega, Or.inl rfl⟩
      rename_i p
      simp only
      simp only [OptM.run_bind (callFg obj [R.sub x eps])]
      rcases callFg obj [R.sub x eps] c2 with ⟨_ | _ | _, c3⟩
      rotate_left
      · exact ⟨0, by omega, Or.inl rfl⟩
      · exact ⟨0, by omega, Or.inl rfl⟩
      rename_i q
      simp only
      generalize newtonStep R (head1 r.2) (head1 p.2) (head1 q.2) eps = st
      split
      · exact ⟨0, by omega, Or.inl rfl⟩
      have hcut := linesearch_cut R obj opts ls [x] [st.1] (.fin 1) r.1 st.2 c3
      simp only [OptM.run_bind (backtrackingLinesearch R ls [x] [st.1] _ r.1 st.2 _)]
      rcases hcut with hcut | ⟨h1, h2, h3⟩
      rotate_left
      · rcases hm : backtrackingLinesearch R ls [x] [st.1] (.fin 1) r.1 st.2 (phiAt obj opts) c3 with ⟨_ | _ | _, c4⟩
        · rw [hm] at h1; exact absurd h1 (by simp)
        · rw [hm] at h3; exact ⟨0, by omega, Or.inr ⟨rfl, h2, h3⟩⟩
        · rw [hm] at h1; exact absurd h1 (by simp)
      rw [hcut]
      rcases backtrackingLinesearch R ls [x] [st.1] (.fin 1) r.1 st.2 (phiAt obj opts.unlimited) c3 with ⟨_ | _ | _, c4⟩
      rotate_left
      · exact ⟨0, by omega, Or.inl rfl⟩
      · exact ⟨0, by omega, Or.inl rfl⟩
      rename_i t
      simp only
      exact ih _ _ _ _

/-! ## A limit that is not reached -/

/-- A computation that never lowers the number of calls and, as long as they stay below `L`, agrees with another. -/
def AgreeBelow {α : Type} (L : Nat) (m m' : OptM α) : Prop := ∀ c, c ≤ (m' c).2 ∧ ((m' c).2 < L → m c = m' c)

theorem AgreeBelow.bind {α β : Type} {L : Nat} {m m' : OptM α} {f f' : α → OptM β} (h : AgreeBelow L m m')
    (hf : ∀ a, AgreeBelow L (f a) (f' a)) : AgreeBelow L (m >>= f) (m' >>= f') := by
  intro c
  obtain ⟨h1, h2⟩ := h c
  rw [OptM.run_bind, OptM.run_bind]
  rcases hm : m' c with ⟨_ | _ | _, c'⟩
  · rename_i a
    rw [hm] at h1 h2
    obtain ⟨h3, h4⟩ := hf a c'
    simp only at h1 h2 ⊢
    refine ⟨by omega, fun hl => ?_⟩
    rw [h2 (by omega)]
    exact h4 hl
  · rw [hm] at h1 h2
    exact ⟨h1, fun hl => by rw [h2 hl]⟩
  · rw [hm] at h1 h2
    exact ⟨h1, fun hl => by rw [h2 hl]⟩

theorem AgreeBelow.same {α : Type} {L : Nat} {m : OptM α} (h : ∀ c, c ≤ (m c).2) : AgreeBelow L m m := fun c => ⟨h c, fun _ => rfl⟩

theorem AgreeBelow.pure {α : Type} {L : Nat} (a : α) : AgreeBelow L (pure a : OptM α) (pure a) := .same fun _ => le_refl _
theorem AgreeBelow.fail {α : Type} {L : Nat} : AgreeBelow L (OptM.fail : OptM α) OptM.fail := .same fun _ => le_refl _
theorem AgreeBelow.ofOption {α : Type} {L : Nat} (a : Option α) : AgreeBelow L (OptM.ofOption a) (OptM.ofOption a) :=
  .same fun _ => by cases a <;> exact le_refl _
theorem AgreeBelow.zip {α β γ : Type} {L : Nat} (f : α → β → γ) (a : List α) (b : List β) :
    AgreeBelow L (zipEqM f a b) (zipEqM f a b) := .same fun _ => by unfold zipEqM; split <;> exact le_refl _
theorem AgreeBelow.dot {L : Nat} (a b : List (Fl K)) : AgreeBelow L (SR.dot R a b) (SR.dot R a b) := by
  unfold SR.dot; exact .bind (.zip _ _ _) fun _ => .pure _
omit [Field K] [LinearOrder K] in
theorem AgreeBelow.callFg {L : Nat} (x : List (Fl K)) : AgreeBelow L (SR.callFg obj x) (SR.callFg obj x) :=
  .same fun c => by unfold SR.callFg; split <;> exact Nat.le_succ c

omit [Field K] [LinearOrder K] in
theorem AgreeBelow.phiAt (x : List (Fl K)) :
    AgreeBelow opts.fCallsLimit (SR.phiAt obj opts x) (SR.phiAt obj opts.unlimited x) := by
  intro c
  unfold SR.phiAt
  rw [if_neg (by rw [exhausted_unlimited]; simp)]
  refine ⟨Nat.le_succ c, fun h => ?_⟩
  have h : c + 1 < opts.fCallsLimit := h
  rw [if_neg (by rw [exhausted_iff]; omega)]

theorem AgreeBelow.ite {α : Type} {L : Nat} {b : Prop} [Decidable b] {m m' n n' : OptM α} (h : AgreeBelow L m m') (h' : AgreeBelow L n n') :
    AgreeBelow L (if b then m else n) (if b then m' else n') := by split <;> assumption

theorem lsHalve_agree (x s : List (Fl K)) : ∀ (n : Nat) (a : Fl K), AgreeBelow opts.fCallsLimit
    (lsHalve R (phiAt obj opts) x s n a) (lsHalve R (phiAt obj opts.unlimited) x s n a)
  | 0, _ => .fail
  | n + 1, a => by
    unfold lsHalve
    exact .bind (.zip _ _ _) fun xn => .bind (.phiAt obj opts xn) fun ok =>
      .ite (.bind (.ofOption _) fun _ => .pure _) (.ite .fail (lsHalve_agree x s n _))

theorem lsLoop_agree (x s : List (Fl K)) (phi0 dphi0 : Fl K) :
    ∀ (n : Nat) (alpha phi : Fl K) (xn : List (Fl K)) (prev : Option (Fl K × Fl K)), AgreeBelow opts.fCallsLimit
      (lsLoop R ls (phiAt obj opts) x s phi0 dphi0 n alpha phi xn prev)
      (lsLoop R ls (phiAt obj opts.unlimited) x s phi0 dphi0 n alpha phi xn prev)
  | 0, _, _, _, _ => .fail
  | n + 1, alpha, phi, xn, prev => by
    unfold lsLoop
    exact .ite (.pure _) (.ite .fail (.bind (.zip _ _ _) fun xn' => .bind (.phiAt obj opts xn') fun ok =>
      .bind (.ofOption _) fun phi' => .ite .fail (lsLoop_agree x s phi0 dphi0 n _ _ _ _)))

theorem linesearch_agree (x s : List (Fl K)) (alpha0 phi0 dphi0 : Fl K) : AgreeBelow opts.fCallsLimit
    (backtrackingLinesearch R ls x s alpha0 phi0 dphi0 (phiAt obj opts))
    (backtrackingLinesearch R ls x s alpha0 phi0 dphi0 (phiAt obj opts.unlimited)) := by
  unfold backtrackingLinesearch
  exact .ite .fail (.bind (lsHalve_agree R obj opts x s _ _) fun r => .ite .fail (lsLoop_agree R obj opts ls x s _ _ _ _ _ _ _))

theorem bfgsDirection_agree {L : Nat} (n : Nat) (h g : List (Fl K)) :
    AgreeBelow L (bfgsDirection R n h g) (bfgsDirection R n h g) := by
  unfold bfgsDirection
  exact .bind (.dot R _ _) fun d => .ite (.bind (.dot R _ _) fun _ => .pure _) (.pure _)

theorem bfgsUpdate_agree {L : Nat} (n : Nat) (h dx dg : List (Fl K)) :
    AgreeBelow L (bfgsUpdate R n h dx dg) (bfgsUpdate R n h dx dg) := by
  unfold bfgsUpdate
  exact .bind (.dot R _ _) fun d => .ite (.pure _) (.ite (.bind (.dot R _ _) fun _ => .ite (.pure _) (.pure _)) (.pure _))

omit [Field K] [LinearOrder K] in
/-- The tests at the start of an iteration. -/
theorem AgreeBelow.start {α : Type} {m m' : OptM α} (a : α) (h : AgreeBelow opts.fCallsLimit m m') :
    AgreeBelow opts.fCallsLimit (fun c => if exhausted opts c then (.ok a, c) else m c)
      (fun c => if exhausted opts.unlimited c then (.ok a, c) else m' c) := by
  intro c
  obtain ⟨h1, h2⟩ := h c
  simp only [exhausted_unlimited, Bool.false_eq_true, if_false]
  refine ⟨h1, fun hl => ?_⟩
  rw [if_neg (by rw [exhausted_iff]; omega)]
  exact h2 hl

theorem bfgsLoop_agree : ∀ (n : Nat) (x : List (Fl K)) (fx : Fl K) (g h : List (Fl K)), AgreeBelow opts.fCallsLimit
    (bfgsLoop R obj opts ls n x fx g h) (bfgsLoop R obj opts.unlimited ls n x fx g h)
  | 0, _, _, _, _ => .pure _
  | n + 1, x, fx, g, h => by
    unfold bfgsLoop
    refine AgreeBelow.start (m := fun c => if !(infNorm g).isFinite || (infNorm g).le opts.gAbstol then (.ok (x, fx), c) else _)
      (m' := fun c => if !(infNorm g).isFinite || (infNorm g).le opts.gAbstol then (.ok (x, fx), c) else _) opts (x, fx) ?_
    by_cases hg : (!(infNorm g).isFinite || (infNorm g).le opts.gAbstol) = true
    · simp only [hg, if_true]; exact .pure (x, fx)
    · simp only [if_neg hg]
      exact .bind (bfgsDirection_agree R _ _ _) fun r => .ite (.pure _) (.bind (linesearch_agree R obj opts ls _ _ _ _ _) fun t =>
        .bind (.callFg obj _) fun u => .ite (.pure _) (.bind (.zip _ _ _) fun dx => .bind (.zip _ _ _) fun dg =>
          .bind (bfgsUpdate_agree R _ _ _ _) fun h2 => bfgsLoop_agree n _ _ _ _))

theorem newtonLoop_agree : ∀ (n : Nat) (x bestF bestX : Fl K), AgreeBelow opts.fCallsLimit
    (newtonLoop R obj opts ls n x bestF bestX) (newtonLoop R obj opts.unlimited ls n x bestF bestX)
  | 0, _, _, _ => .pure _
  | n + 1, x, bestF, bestX => by
    unfold newtonLoop
    refine AgreeBelow.start opts (bestF, bestX) ?_
    exact .bind (.callFg obj _) fun r => .ite .fail (.ite (.pure _) (.bind (.callFg obj _) fun p => .bind (.callFg obj _) fun q =>
      .ite (.pure _) (.bind (linesearch_agree R obj opts ls _ _ _ _ _) fun t => newtonLoop_agree n _ _ _)))

/-! ## The property -/

/-- **C94 (several constants).**  A run of BFGS with a call limit either gives up, having made at least that many calls,
or is exactly the run without a limit and with some smaller (or equal) number of iterations: same point, value and
number of calls. -/
theorem C94_bfgs (x0 : List (Fl K)) :
    ((bfgsMinimize R x0 obj opts ls 0).1 = .fail ∧ opts.fCallsLimit ≠ 0 ∧ opts.fCallsLimit ≤ (bfgsMinimize R x0 obj opts ls 0).2) ∨
    ∃ k ≤ opts.iterations, bfgsMinimize R x0 obj opts ls 0 =
      bfgsMinimize R x0 obj { opts with fCallsLimit := 0, iterations := k } ls 0 := by
  have loopEq : ∀ k n x fx g h c, bfgsLoop R obj { opts with fCallsLimit := 0, iterations := k } ls n x fx g h c
      = bfgsLoop R obj opts.unlimited ls n x fx g h c := by
    intro k n
    induction n with
    | zero => intros; rfl
    | succ n ih =>
      intro x fx g h c
      have ih' : ∀ x fx g h, bfgsLoop R obj { opts with fCallsLimit := 0, iterations := k } ls n x fx g h
        = bfgsLoop R obj opts.unlimited ls n x fx g h := fun x fx g h => funext fun c => ih x fx g h c
      unfold bfgsLoop
      simp only [ih']
      rfl
  unfold bfgsMinimize
  simp only [OptM.run_bind (callFg obj x0)]
  rcases callFg obj x0 0 with ⟨_ | _ | _, c1⟩
  rotate_left
  · exact Or.inr ⟨0, by omega, rfl⟩
  · exact Or.inr ⟨0, by omega, rfl⟩
  rename_i u
  simp only
  split
  · exact Or.inr ⟨0, by omega, rfl⟩
  obtain ⟨k, hk, hcut⟩ := bfgsLoop_cut R obj opts ls opts.iterations x0 u.1 u.2 (identity x0.length) c1
  let fin : List (Fl K) × Fl K → OptM (OptimResult K) := fun r c => (.ok ⟨r.1, r.2, c⟩, c)
  rw [← loopEq k] at hcut
  rcases CutAt.bind (f := fin) (f' := fin) hcut fun _ _ _ => Or.inl rfl with h | h
  · exact Or.inr ⟨k, hk, h⟩
  · exact Or.inl h

/-- **C94 (one constant).**  The same for the one dimensional Newton method. -/
theorem C94_newton (x0 : Fl K) :
    ((newtonMinimize R x0 obj opts ls 0).1 = .fail ∧ opts.fCallsLimit ≠ 0 ∧ opts.fCallsLimit ≤ (newtonMinimize R x0 obj opts ls 0).2) ∨
    ∃ k ≤ opts.iterations, newtonMinimize R x0 obj opts ls 0 =
      newtonMinimize R x0 obj { opts with fCallsLimit := 0, iterations := k } ls 0 := by
  have loopEq : ∀ k n x f y c, newtonLoop R obj { opts with fCallsLimit := 0, iterations := k } ls n x f y c
      = newtonLoop R obj opts.unlimited ls n x f y c := by
    intro k n
    induction n with
    | zero => intros; rfl
    | succ n ih =>
      intro x f y c
      have ih' : ∀ x f y, newtonLoop R obj { opts with fCallsLimit := 0, iterations := k } ls n x f y
        = newtonLoop R obj opts.unlimited ls n x f y := fun x f y => funext fun c => ih x f y c
      unfold newtonLoop
      simp only [ih']
      rfl
  unfold newtonMinimize
  obtain ⟨k, hk, hcut⟩ := newtonLoop_cut R obj opts ls opts.iterations x0 .pinf x0 0
  let fin : Fl K × Fl K → OptM (OptimResult K) := fun r c => (.ok ⟨[r.2], r.1, c⟩, c)
  rw [← loopEq k] at hcut
  rcases CutAt.bind (f := fin) (f' := fin) hcut fun _ _ _ => Or.inl rfl with h | h
  · exact Or.inr ⟨k, hk, h⟩
  · exact Or.inl h

/-- **C94 (a limit that is not reached).**  If the run without a limit makes fewer calls than the limit, the limit
changes nothing. -/
theorem C94_not_reached (x0 : List (Fl K)) (x1 : Fl K) :
    ((bfgsMinimize R x0 obj { opts with fCallsLimit := 0 } ls 0).2 < opts.fCallsLimit →
      bfgsMinimize R x0 obj opts ls 0 = bfgsMinimize R x0 obj { opts with fCallsLimit := 0 } ls 0) ∧
    ((newtonMinimize R x1 obj { opts with fCallsLimit := 0 } ls 0).2 < opts.fCallsLimit →
      newtonMinimize R x1 obj opts ls 0 = newtonMinimize R x1 obj { opts with fCallsLimit := 0 } ls 0) := by
  have hb : AgreeBelow opts.fCallsLimit (bfgsMinimize R x0 obj opts ls) (bfgsMinimize R x0 obj opts.unlimited ls) := by
    unfold bfgsMinimize
    exact .bind (.callFg obj _) fun u => .ite .fail (.bind (bfgsLoop_agree R obj opts ls _ _ _ _ _) fun r =>
      .same fun c => le_refl c)
  have hn : AgreeBelow opts.fCallsLimit (newtonMinimize R x1 obj opts ls) (newtonMinimize R x1 obj opts.unlimited ls) := by
    unfold newtonMinimize
    exact .bind (newtonLoop_agree R obj opts ls _ _ _ _) fun r => .same fun c => le_refl c
  exact ⟨(hb 0).2, (hn 0).2⟩

end

/-- **C94 (constant optimisation).**  A run of the optimiser of a fit under a call limit is nothing, or the run without
a limit and with fewer (or as many) iterations. -/
theorem C94_run [E : Env K] (o : SOptions K) (obj : Objective K) (start : List (Fl K)) :
    runMinimiser o obj start = .fail ∨ ∃ k ≤ o.optimizerIterations,
      runMinimiser o obj start = runMinimiser { o with optimizerFCallsLimit := 0, optimizerIterations := k } obj start := by
  unfold runMinimiser
  split
  · rcases C94_newton E.R obj (optimOptions o) o.lineSearch (start.headD (.fin 0)) with ⟨h, -⟩ | ⟨k, hk, h⟩
    · exact Or.inl h
    · exact Or.inr ⟨k, hk, congrArg Prod.fst h⟩
  · rcases C94_bfgs E.R obj (optimOptions o) o.lineSearch start with ⟨h, -⟩ | ⟨k, hk, h⟩
    · exact Or.inl h
    · exact Or.inr ⟨k, hk, congrArg Prod.fst h⟩

/-- **C94, an exception.**  The calls of runs that give up are not reported: when every run gives up, the member is as
before and the number of evaluations reported is zero. -/
theorem C94_uncounted [IsStrictOrderedRing K] [E : Env K] (hF : Env.Formats K) (o : SOptions K) (hls : LsOk o) (d : Dataset K) (m : Member K) (t : Tree)
    (hs : ExprSetting d m.expr t) (hp : PlanOf d m.expr m.plan) (ev : Evaluator K) (hev : ev.Ready d)
    (ctx : DContext (Fl K)) (hctx : CtxReady d m.expr ctx) (hw : o.cx.WF) (hD : t.ArityLe o.cx.D) (nb : Nat)
    (hopt : o.shouldOptimizeConstants = true) (hne : m.expr.consts ≠ []) (baseline : Fl K)
    (hb : exprLoss o d t m.expr.consts = some baseline) (g : Rng (Fl K))
    (hfail : ∀ x ∈ startPoints g m.expr.consts o.optimizerNRestarts, runMinimiser o (fitObjective o d m) x = .fail) :
    ∃ r g', optimizeConstants o d ev ctx nb m g = some (r, g') ∧ r.member = m ∧ r.improved = false ∧ r.evals = 0 := by
  obtain ⟨-, r, hr, h⟩ := C78_best_run hF o hls d m t hs hp ev hev ctx hctx hw hD nb hopt hne baseline hb g
  have hall : ∀ q ∈ (startPoints g m.expr.consts o.optimizerNRestarts).map (runMinimiser o (fitObjective o d m)), q = .fail := by
    intro q hq
    obtain ⟨x, hx, rfl⟩ := List.mem_map.1 hq
    exact hfail x hx
  refine ⟨r, _, hr, ?_⟩
  rcases h with ⟨-, h1, h2, h3⟩ | ⟨k, x, hk, -⟩
  · refine ⟨h2, h1, ?_⟩
    rw [h3]
    have : (((startPoints g m.expr.consts o.optimizerNRestarts).map (runMinimiser o (fitObjective o d m))).map Res.calls).sum = 0 := by
      rw [List.sum_eq_zero_iff]
      intro v hv
      obtain ⟨q, hq, rfl⟩ := List.mem_map.1 hv
      rw [hall q hq]
      rfl
    rw [this]
    simp
  · exact absurd (hall _ (List.mem_of_getElem? hk.run)) (by simp)

/-- `x⁴ + y²` with its gradient. -/
def quartic : Objective ℚ where
  fOnly | [.fin x, .fin y] => some (.fin (x ^ 4 + y ^ 2)) | _ => none
  fg | [.fin x, .fin y] => some (.fin (x ^ 4 + y ^ 2), [.fin (4 * x ^ 3), .fin (2 * y)]) | _ => none

/-- What a run gives: the value found and the calls, or the calls of a run that gave up. -/
def summary : Res (OptimResult ℚ) × Nat → Option (Bool × Nat)
  | (.ok r, c) => some (r.minimum.lt (.fin 1), c)
  | (.fail, c) => (some (false, c))
  | (.panic, _) => none

/-- **C94, the exception is real.**  Minimising `x⁴ + y²` from (1, 1), where it is 2: with a limit of four calls the run
returns a point below 1; with a limit of five the limit is reached inside the second line search and the run returns
nothing, although its first four calls were the same. -/
theorem C94_exception :
    summary (bfgsMinimize (Rounding.exact ℚ) [.fin 1, .fin 1] quartic ⟨1000, 4, .fin (1 / 10 ^ 8)⟩ defaultLs 0) = some (true, 4) ∧
    (bfgsMinimize (Rounding.exact ℚ) [.fin 1, .fin 1] quartic ⟨1000, 5, .fin (1 / 10 ^ 8)⟩ defaultLs 0) = (.fail, 5) := by
  decide +kernel

/-- A concrete case of the theorems: a limit of seven calls cuts this run after two iterations. -/
example : bfgsMinimize (Rounding.exact ℚ) [.fin 1, .fin 1] quartic ⟨1000, 7, .fin (1 / 10 ^ 8)⟩ defaultLs 0 =
      bfgsMinimize (Rounding.exact ℚ) [.fin 1, .fin 1] quartic ⟨2, 0, .fin (1 / 10 ^ 8)⟩ defaultLs 0 ∧
    (bfgsMinimize (Rounding.exact ℚ) [.fin 1, .fin 1] quartic ⟨2, 0, .fin (1 / 10 ^ 8)⟩ defaultLs 0).2 = 7 := by
  decide +kernel

end SR
