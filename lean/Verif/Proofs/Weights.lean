import Verif.Spec.Weights
import Verif.Props.NoPanic
import Verif.Proofs.Stats
import Mathlib.Data.List.Forall2
/-
Lemmas for C92: a search on two data sets that differ only in the weights, and on which all predictions have the same losses.
-/
namespace SR
variable {K : Type} [Field K] [LinearOrder K] [E : Env K]

/-! ## The search sees the targets and the weights only through the loss and its derivative -/

/-- Two data sets with the same features, on which every vector of predictions has the same loss and the same derivative. -/
structure SameScores (o : SOptions K) (d d' : Dataset K) : Prop where
  x : d'.x = d.x
  baseline : d'.baseline = d.baseline
  loss : ∀ yhat, o.loss.loss E.RT E.lossLib yhat d'.y d'.weights = o.loss.loss E.RT E.lossLib yhat d.y d.weights
  dloss : ∀ yhat, o.loss.dloss E.RT E.lossLib yhat d'.y d'.weights = o.loss.dloss E.RT E.lossLib yhat d.y d.weights

section
variable {o : SOptions K} {d d' : Dataset K} (h : SameScores o d d')
include h

theorem evaluate_reweighed (ev : Evaluator K) (m : Member K) : m.evaluate o d' ev = m.evaluate o d ev := by
  unfold Member.evaluate Member.score
  simp only [h.x, h.baseline, h.loss]

theorem lossOnly_reweighed (plan : EvalPlan) (e : PostfixExpr (Fl K)) (ev : Evaluator K) : lossOnly o d' plan e ev = lossOnly o d plan e ev := by
  unfold lossOnly
  simp only [h.x, h.loss]

theorem lossAndGrad_reweighed (e : PostfixExpr (Fl K)) (ctx : DContext (Fl K)) : lossAndGrad o d' e ctx = lossAndGrad o d e ctx := by
  unfold lossAndGrad
  simp only [h.x, h.loss, h.dloss]

theorem optimizeFromStart_reweighed (plan : EvalPlan) (e : PostfixExpr (Fl K)) (ev : Evaluator K) (start : List (Fl K)) (b : BestPoint K)
    (ctx : DContext (Fl K)) : optimizeFromStart o d' plan e ev start b ctx = optimizeFromStart o d plan e ev start b ctx := by
  unfold optimizeFromStart constObjective ctxAfter
  simp only [lossOnly_reweighed h, lossAndGrad_reweighed h]

theorem restarts_reweighed (plan : EvalPlan) (e : PostfixExpr (Fl K)) (ev : Evaluator K) (x0 : List (Fl K)) :
    ∀ (n : Nat) (b : BestPoint K) (ctx : DContext (Fl K)), restarts o d' plan e ev x0 n b ctx = restarts o d plan e ev x0 n b ctx := by
  intro n
  induction n with
  | zero => intro b ctx; rfl
  | succ n ih => intro b ctx; simp only [restarts, optimizeFromStart_reweighed h, ih]

theorem optimizeConstants_reweighed (ev : Evaluator K) (ctx : DContext (Fl K)) (nb : Nat) (m : Member K) :
    optimizeConstants o d' ev ctx nb m = optimizeConstants o d ev ctx nb m := by
  unfold optimizeConstants finishOptimize
  simp only [lossOnly_reweighed h, optimizeFromStart_reweighed h, restarts_reweighed h, evaluate_reweighed h]

theorem mutation_reweighed (cur : Nat) (t : Fl K) (m : Member K) (ev : Evaluator K) (c : Mutation) :
    c.apply o d' cur t m ev = c.apply o d cur t m ev := by
  cases c <;> unfold Mutation.apply <;> simp only [h.x, optimizeConstants_reweighed h]

theorem attemptLoop_reweighed (cur : Nat) (t : Fl K) (m : Member K) (c : Mutation) : ∀ (k n : Nat) (ev : Evaluator K),
    attemptLoop o d' cur t m c k n ev = attemptLoop o d cur t m c k n ev := by
  intro k
  induction k with
  | zero => intro n ev; rfl
  | succ k ih => intro n ev; simp only [attemptLoop, mutation_reweighed h, ih]

theorem nextGeneration_reweighed (cur : Nat) (t : Fl K) (s : Stats K) (ev : Evaluator K) (c : Counters) (m : Member K) :
    nextGeneration o d' cur t s ev c m = nextGeneration o d cur t s ev c m := by
  unfold nextGeneration generationWith parentCopy simplifiedChild
  simp only [attemptLoop_reweighed h, evaluate_reweighed h, h.x, h.baseline]

theorem crossLoop_reweighed (cur : Nat) (ev : Evaluator K) (c : Counters) (m1 m2 : Member K) : ∀ k : Nat,
    crossLoop o d' cur ev c m1 m2 k = crossLoop o d cur ev c m1 m2 k := by
  intro k
  induction k with
  | zero => rfl
  | succ k ih => simp only [crossLoop, crossBabies, evaluate_reweighed h, h.x, ih]

theorem evolStep_reweighed (cur : Nat) (t : Fl K) (s : Stats K) (st : EvolState K) : evolStep o d' cur t s st = evolStep o d cur t s st := by
  unfold evolStep mutationStep crossoverStep crossoverGeneration
  simp only [nextGeneration_reweighed h, crossLoop_reweighed h]

theorem evolLoop_reweighed (cur : Nat) (t : Fl K) (s : Stats K) : ∀ (k : Nat) (st : EvolState K),
    evolLoop o d' cur t s k st = evolLoop o d cur t s k st := by
  intro k
  induction k with
  | zero => intro st; rfl
  | succ k ih => intro st; simp only [evolLoop, evolStep_reweighed h, ih]

theorem srLoop_reweighed (cur : Nat) (s : Stats K) (n : Nat) : ∀ (k : Nat) (st : EvolState K) (b : Hall K),
    srLoop o d' cur s n k st b = srLoop o d cur s n k st b := by
  intro k
  induction k with
  | zero => intro st b; rfl
  | succ k ih => intro st b; simp only [srLoop, regEvolCycle, evolLoop_reweighed h, ih]

theorem srCycle_reweighed (cur : Nat) (s : Stats K) (st : EvolState K) : srCycle o d' cur s st = srCycle o d cur s st := by
  unfold srCycle
  simp only [srLoop_reweighed h]

theorem optimizeAll_reweighed : ∀ (p : Population K) (st : OptState K), optimizeAll o d' p st = optimizeAll o d p st := by
  intro p
  induction p with
  | nil => intro st; rfl
  | cons m ms ih => intro st; simp only [optimizeAll, optimizeConstants_reweighed h, ih]

theorem evaluateAll_reweighed : ∀ (p : Population K) (ev : Evaluator K), evaluateAll o d' p ev = evaluateAll o d p ev := by
  intro p
  induction p with
  | nil => intro st; rfl
  | cons m ms ih => intro st; simp only [evaluateAll, evaluate_reweighed h, ih]

theorem optimizePhase_reweighed (ctx : DContext (Fl K)) (st : EvolState K) : optimizePhase o d' ctx st = optimizePhase o d ctx st := by
  unfold optimizePhase
  simp only [optimizeAll_reweighed h, h.x]

theorem optimizeAndSimplify_reweighed {b b' : Dataset K} (hb : SameScores o b b') (ctx : DContext (Fl K)) (st : EvolState K) :
    optimizeAndSimplify o d' b' ctx st = optimizeAndSimplify o d b ctx st := by
  unfold optimizeAndSimplify
  simp only [optimizePhase_reweighed hb, evaluateAll_reweighed h, h.x]

theorem initMembers_reweighed : ∀ (k : Nat) (st : InitState K), initMembers o d' k st = initMembers o d k st := by
  intro k
  induction k with
  | zero => intro st; rfl
  | succ k ih => intro st; simp only [initMembers, initMember, evaluate_reweighed h, h.x, ih]

theorem initPops_reweighed (seeds : Nat → Rng (Fl K)) : ∀ (k i : Nat) (hall : Hall K),
    initPops o d' seeds k i hall = initPops o d seeds k i hall := by
  intro k
  induction k with
  | zero => intro i hall; rfl
  | succ k ih => intro i hall; simp only [initPops, initPop, initMembers_reweighed h, h.x, ih]

theorem init_reweighed (seeds : Nat → Rng (Fl K)) : Shared.init o d' seeds = Shared.init o d seeds := by
  unfold Shared.init
  simp only [initPops_reweighed h]

end

/-! ## Mini-batches -/

/-- Two random computations that draw the same numbers and give related results. -/
def Rand.Alike {α β : Type} (P : α → β → Prop) (m : Rand (Fl K) α) (m' : Rand (Fl K) β) : Prop :=
  ∀ g, Option.Rel (fun r r' => P r.1 r'.1 ∧ r'.2 = r.2) (m g) (m' g)

section
omit [Field K] [LinearOrder K] E
theorem Rand.Alike.pure {α β : Type} {P : α → β → Prop} {a : α} {b : β} (h : P a b) :
    Rand.Alike (K := K) P (Pure.pure a) (Pure.pure b) := fun _ => .some ⟨h, rfl⟩

theorem Rand.Alike.refl {α : Type} (m : Rand (Fl K) α) : Rand.Alike (fun a b => b = a) m m := by
  intro g
  cases m g with
  | none => exact .none
  | some r => exact .some ⟨rfl, rfl⟩

theorem Rand.Alike.lift {α β : Type} {P : α → β → Prop} {a : Option α} {b : Option β} (h : Option.Rel P a b) :
    Rand.Alike (K := K) P (Rand.lift a) (Rand.lift b) := by
  intro g
  cases h with
  | none => exact .none
  | some h => exact .some ⟨h, rfl⟩

theorem Rand.Alike.bind {α β γ δ : Type} {P : α → β → Prop} {Q : γ → δ → Prop} {m : Rand (Fl K) α} {m' : Rand (Fl K) β}
    {f : α → Rand (Fl K) γ} {f' : β → Rand (Fl K) δ} (h : Rand.Alike P m m') (hf : ∀ a b, P a b → Rand.Alike Q (f a) (f' b)) :
    Rand.Alike Q (m >>= f) (m' >>= f') := by
  intro g
  have hg := h g
  rw [Rand.run_bind, Rand.run_bind]
  cases h1 : m g with
  | none =>
    cases h2 : m' g with
    | none => exact .none
    | some r => rw [h1, h2] at hg; cases hg
  | some r =>
    cases h2 : m' g with
    | none => rw [h1, h2] at hg; cases hg
    | some r' =>
      rw [h1, h2] at hg
      cases hg with
      | some hg =>
        obtain ⟨a, g1⟩ := r
        obtain ⟨b, g2⟩ := r'
        obtain ⟨hg1, hg2⟩ := hg
        simp only at hg1 hg2
        subst hg2
        exact hf _ _ hg1 _
end

theorem _root_.Option.Rel.weaken {α β : Type} {P Q : α → β → Prop} {a : Option α} {b : Option β} (h : Option.Rel P a b)
    (hpq : ∀ x y, P x y → Q x y) : Option.Rel Q a b := by
  cases h with
  | none => exact .none
  | some h => exact .some (hpq _ _ h)

section
variable {ρ : Reweigh K}
omit [LinearOrder K] E

/-- What copying one row does to the weights. -/
theorem copyRow_weights {d b : Dataset K} {dst src : Nat} {c : Bool} (hw : d.weights.isSome = c) (hbw : b.weights.isSome = c)
    (hlw : ∀ v, d.weights = some v → v.length = d.y.length) (hlb : ∀ v, b.weights = some v → v.length = b.y.length)
    (hdst : dst < b.y.length) {v : Fl K} (hy : d.y[src]? = some v) :
    ∃ nw, copyRow d b dst src = some { b with
        x := { b.x with at' := fun f r => if r = dst then d.x.at' f src else b.x.at' f r }
        y := b.y.set dst v
        weights := nw } ∧ nw.isSome = c ∧ (∀ v, nw = some v → v.length = b.y.length) ∧
      (∀ b1 : Dataset K, b1.weights = nw → b1.rowWeight dst = d.rowWeight src ∧ ∀ i, i ≠ dst → b1.rowWeight i = b.rowWeight i) := by
  obtain ⟨x, y, w, base⟩ := d
  obtain ⟨bx, bY, bw, bb⟩ := b
  simp only at hw hbw hlw hlb hdst hy
  have hs : src < y.length := by
    rw [List.getElem?_eq_some_iff] at hy; exact hy.1
  unfold copyRow
  simp only [hy, Option.bind_eq_bind, Option.bind_some]
  cases bw with
  | none =>
    cases w with
    | some ws => rw [← hbw] at hw; cases hw
    | none =>
      refine ⟨none, rfl, hbw, fun _ h => (nomatch h), fun b1 hb1 => ⟨?_, fun _ _ => ?_⟩⟩ <;> simp only [Dataset.rowWeight, hb1]
  | some wd =>
    cases w with
    | none => rw [← hbw] at hw; cases hw
    | some ws =>
      have hl := hlw ws rfl
      have hl' := hlb wd rfl
      obtain ⟨u, hu⟩ : ∃ u, ws[src]? = some u := ⟨ws[src]'(by omega), List.getElem?_eq_getElem _⟩
      refine ⟨some (wd.set dst u), by simp only [hu, Option.map_some, Option.bind_some], hbw, ?_, ?_⟩
      · intro v hv
        simp only [Option.some.injEq] at hv
        rw [← hv, List.length_set]; exact hl'
      · intro b1 hb1
        constructor
        · simp only [Dataset.rowWeight, List.getD_eq_getElem?_getD, hu, hb1]
          rw [List.getElem?_set_self (by omega)]
        · intro i hi
          simp only [Dataset.rowWeight, List.getD_eq_getElem?_getD, hb1]
          rw [List.getElem?_set_ne (by omega)]

theorem copyRow_alike {d d' b b' : Dataset K} {dst src : Nat} (hd : d.Alike ρ d.x.cols d') (hb : b.Alike ρ dst b')
    (hsrc : src < d.x.cols) (hdst : dst < b.y.length) :
    Option.Rel (fun r r' => r.Alike ρ (dst + 1) r' ∧ r.x.cols = b.x.cols ∧ r.y.length = b.y.length) (copyRow d b dst src)
      (copyRow d' b' dst src) := by
  cases hy : d.y[src]? with
  | none =>
    have h1 : copyRow d b dst src = none := by unfold copyRow; rw [hy]; rfl
    have h2 : copyRow d' b' dst src = none := by unfold copyRow; rw [hd.y, hy]; rfl
    rw [h1, h2]; exact .none
  | some v =>
    obtain ⟨nw, h1, h2, h3, h4⟩ := copyRow_weights hd.before hb.before hd.w hb.w hdst hy
    obtain ⟨nw', h1', h2', h3', h4'⟩ := copyRow_weights (dst := dst) (src := src) (v := v) hd.after hb.after (by rw [hd.y]; exact hd.w')
      (by rw [hb.y]; exact hb.w') (by rw [hb.y]; exact hdst) (by rw [hd.y]; exact hy)
    rw [h1, h1']
    refine .some ⟨⟨?_, ?_, hb.baseline, ?_, h2, h2', ?_, ?_, ?_⟩, rfl, ?_⟩
    · simp only [hb.x, hd.x]
    · simp only [hb.y]
    · simp only [List.length_set, hb.len]
    · intro v hv; simp only [List.length_set]; exact h3 v hv
    · intro v hv; simp only [List.length_set]; rw [← hb.y]; exact h3' v hv
    · intro i hi
      have k := h4 _ (rfl : ({ b with
        x := { b.x with at' := fun f r => if r = dst then d.x.at' f src else b.x.at' f r }
        y := b.y.set dst v
        weights := nw } : Dataset K).weights = nw)
      have k' := h4' _ (rfl : ({ b' with
        x := { b'.x with at' := fun f r => if r = dst then d'.x.at' f src else b'.x.at' f r }
        y := b'.y.set dst v
        weights := nw' } : Dataset K).weights = nw')
      by_cases hid : i = dst
      · subst hid
        rw [k.1, k'.1]
        exact hd.rows src hsrc
      · rw [k.2 i hid, k'.2 i hid]
        exact hb.rows i (by omega)
    · simp only [List.length_set]

omit [Field K] in
theorem below_alike (n : Nat) : Rand.Alike (K := K) (fun a b => b = a ∧ a < n) (Rand.below n) (Rand.below n) := by
  intro g
  cases h : (Rand.below n : Rand (Fl K) Nat) g with
  | none => exact .none
  | some r => exact .some ⟨⟨rfl, Rand.Post.below g r.1 r.2 h⟩, rfl⟩

theorem resampleLoop_alike {d d' : Dataset K} (hd : d.Alike ρ d.x.cols d') : ∀ (k dst : Nat) (b b' : Dataset K), b.Alike ρ dst b' →
    dst + k ≤ b.y.length →
    Rand.Alike (fun r r' => r.Alike ρ (dst + k) r' ∧ r.x.cols = b.x.cols ∧ r.y.length = b.y.length) (resampleLoop d k dst b)
      (resampleLoop d' k dst b') := by
  intro k
  induction k with
  | zero => intro dst b b' hb _; exact .pure ⟨hb, rfl, rfl⟩
  | succ k ih =>
    intro dst b b' hb hk
    unfold resampleLoop
    rw [hd.x]
    refine (below_alike _).bind ?_
    rintro src _ ⟨rfl, hsrc⟩
    refine (Rand.Alike.lift (copyRow_alike hd hb hsrc (by omega))).bind ?_
    rintro r r' ⟨h1, h2, h3⟩
    have := ih (dst + 1) r r' h1 (by omega)
    rw [h2, h3, show dst + 1 + k = dst + (k + 1) by omega] at this
    exact this

omit [Field K] in
theorem resample_guard {d b : Dataset K} {c : Bool} (hw : d.weights.isSome = c) (hbw : b.weights.isSome = c)
    (hlb : ∀ v, b.weights = some v → v.length = b.y.length) :
    (d.x.cols = 0 ∨ b.x.rows ≠ d.x.rows ∨ b.y.length ≠ b.x.cols ∨
      (∃ w ∈ b.weights, w.length ≠ b.x.cols) ∨ b.weights.isSome ≠ d.weights.isSome) ↔
    (d.x.cols = 0 ∨ b.x.rows ≠ d.x.rows ∨ b.y.length ≠ b.x.cols) := by
  constructor
  · rintro (h | h | h | ⟨w, hw, h⟩ | h)
    · exact .inl h
    · exact .inr (.inl h)
    · exact .inr (.inr h)
    · right; right
      rw [← hlb w hw]; exact h
    · rw [hw, hbw] at h; exact absurd rfl h
  · rintro (h | h | h)
    · exact .inl h
    · exact .inr (.inl h)
    · exact .inr (.inr (.inl h))

theorem resampleFrom_alike {d d' : Dataset K} (hd : d.Alike ρ d.x.cols d') {b b' : Dataset K} (hb : b.Alike ρ 0 b') :
    Rand.Alike (fun r r' => r.Alike ρ r.x.cols r' ∧ r.x.cols = b.x.cols) (resampleFrom d b) (resampleFrom d' b') := by
  have hg' := resample_guard (b := b') hd.after hb.after (by rw [hb.y]; exact hb.w')
  rw [hd.x, hb.x, hb.y] at hg'
  unfold resampleFrom
  rw [hd.x, hb.x, hb.y]
  simp only [resample_guard hd.before hb.before hb.w]
  by_cases hg : d.x.cols = 0 ∨ b.x.rows ≠ d.x.rows ∨ b.y.length ≠ b.x.cols
  · rw [if_pos hg, if_pos (hg'.mpr hg)]
    intro g; exact .none
  · rw [if_neg hg, if_neg (fun h => hg (hg'.mp h))]
    push Not at hg
    intro g
    have := resampleLoop_alike hd b.x.cols 0 b b' hb (by omega) g
    refine this.weaken ?_
    rintro r r' ⟨⟨h1, h2, h3⟩, h4⟩
    rw [Nat.zero_add, ← h2] at h1
    exact ⟨⟨h1, h2⟩, h4⟩

theorem Dataset.Alike.mono {d d' : Dataset K} {k k' : Nat} (h : d.Alike ρ k d') (hk : k' ≤ k) : d.Alike ρ k' d' :=
  { h with rows := fun i hi => h.rows i (by omega) }

theorem makeBatchBuffer_alike {d d' : Dataset K} (hd : d.Alike ρ d.x.cols d') (bs : Nat) :
    Option.Rel (fun b b' => b.Alike ρ 0 b' ∧ b.x.cols = max bs 1) (makeBatchBuffer d bs) (makeBatchBuffer d' bs) := by
  unfold makeBatchBuffer
  simp only [hd.x]
  split
  · exact .none
  · refine .some ⟨⟨rfl, rfl, rfl, by simp, ?_, ?_, ?_, ?_, fun i hi => absurd hi (by omega)⟩, rfl⟩
    · simp only [Option.isSome_map]; exact hd.before
    · simp only [Option.isSome_map]; exact hd.after
    · intro w hw
      simp only [Option.map_eq_some_iff] at hw
      obtain ⟨_, -, rfl⟩ := hw
      simp
    · intro w hw
      simp only [Option.map_eq_some_iff] at hw
      obtain ⟨_, -, rfl⟩ := hw
      simp

/-- The number of rows that evolution and the optimiser see. -/
def phaseRows (o : SOptions K) (d : Dataset K) : Nat := if o.batching then max o.batchSize 1 else d.x.cols

theorem phaseDataset_alike (o : SOptions K) {d d' : Dataset K} (hd : d.Alike ρ d.x.cols d') {b b' : Option (Dataset K)}
    (hb : Option.Rel (fun b b' => b.Alike ρ b.x.cols b') b b') :
    Rand.Alike (fun r r' => (r.1.Alike ρ r.1.x.cols r'.1 ∧ r.1.x.cols = phaseRows o d) ∧ Option.Rel (fun b b' => b.Alike ρ b.x.cols b') r.2 r'.2)
      (phaseDataset o d b) (phaseDataset o d' b') := by
  unfold phaseDataset phaseRows
  split
  · rw [hd.x]
    split
    · intro g; exact .none
    · have hbuf : Option.Rel (fun b b' => b.Alike ρ 0 b' ∧ b.x.cols = max o.batchSize 1)
          (if needsNewBatch d (max o.batchSize 1) b then makeBatchBuffer d (max o.batchSize 1) else b)
          (if needsNewBatch d' (max o.batchSize 1) b' then makeBatchBuffer d' (max o.batchSize 1) else b') := by
        have hn : needsNewBatch d' (max o.batchSize 1) b' = needsNewBatch d (max o.batchSize 1) b := by
          unfold needsNewBatch
          cases hb with
          | none => rfl
          | some h => simp only [h.x, hd.x]
        rw [hn]
        split
        · refine (makeBatchBuffer_alike hd _).weaken ?_
          rintro _ _ ⟨h1, h2⟩
          exact ⟨h1, by omega⟩
        · rename_i hf
          cases hb with
          | none => simp [needsNewBatch] at hf
          | some h =>
            refine .some ⟨h.mono (by omega), ?_⟩
            unfold needsNewBatch at hf
            simp only [ne_eq, decide_eq_true_eq, not_or, not_not] at hf
            exact hf.1
      refine (Rand.Alike.lift hbuf).bind ?_
      rintro r r' ⟨h1, h2⟩
      refine (resampleFrom_alike hd h1).bind ?_
      rintro r1 r1' ⟨h3, h4⟩
      exact .pure ⟨⟨{ h3 with baseline := hd.baseline }, by rw [← h2, ← h4]⟩, .some h3⟩
  · exact .pure ⟨⟨hd, rfl⟩, hb⟩
end

/-! ## Tasks and drivers -/

/-- Everything the two searches see has the same losses. -/
def ScoresAlike (ρ : Reweigh K) (o : SOptions K) (n : Nat) : Prop :=
  ∀ b b' : Dataset K, b.x.cols = n → b.Alike ρ n b' → SameScores o b b'

section
variable {ρ : Reweigh K} {o : SOptions K} {d d' : Dataset K}

theorem taskBody_alike (hd : d.Alike ρ d.x.cols d') (h1 : ScoresAlike ρ o d.x.cols) (h2 : ScoresAlike ρ o (phaseRows o d)) {t t' : Task K}
    (ht : t.Alike ρ t') :
    Rand.Alike (fun r r' => r'.1 = r.1 ∧ r'.2.1 = r.2.1 ∧ Option.Rel (fun b b' => b.Alike ρ b.x.cols b') r.2.2.1 r'.2.2.1 ∧
      r'.2.2.2 = r.2.2.2) (taskBody o d t) (taskBody o d' t') := by
  unfold taskBody
  refine (phaseDataset_alike o hd ht.ps.batch).bind ?_
  rintro ⟨b1, q1⟩ ⟨b1', q1'⟩ ⟨⟨ha, hc⟩, hq⟩
  simp only at ha hc hq ⊢
  have ha2 : b1.Alike ρ (phaseRows o d) b1' := by rw [← hc]; exact ha
  rw [srCycle_reweighed (h2 _ _ hc ha2), ht.cur, ht.stats, ht.ps.pop, ht.ps.ev, ht.ps.counters]
  refine (Rand.Alike.refl _).bind ?_
  rintro ⟨st, seen⟩ _ rfl
  refine (phaseDataset_alike o hd hq).bind ?_
  rintro ⟨b2, q2⟩ ⟨b2', q2'⟩ ⟨⟨ha', hc'⟩, hq'⟩
  simp only at ha' hc' hq' ⊢
  have ha2 : b2.Alike ρ (phaseRows o d) b2' := by rw [← hc']; exact ha'
  rw [optimizeAndSimplify_reweighed (h1 _ _ rfl hd) (h2 _ _ hc' ha2), ht.ps.ctx]
  refine (Rand.Alike.refl _).bind ?_
  rintro ⟨st, ctx⟩ _ rfl
  refine (Rand.Alike.refl _).bind ?_
  rintro sub _ rfl
  exact .pure ⟨rfl, rfl, hq', rfl⟩

/-- The same result of a task. -/
structure TaskResult.Alike (ρ : Reweigh K) (r r' : TaskResult K) : Prop where
  popIdx : r'.popIdx = r.popIdx
  cur : r'.cur = r.cur
  evals : r'.evals = r.evals
  bestSeen : r'.bestSeen = r.bestSeen
  bestSub : r'.bestSub = r.bestSub
  ps : r.ps.Alike ρ r'.ps

theorem run_alike (hd : d.Alike ρ d.x.cols d') (h1 : ScoresAlike ρ o d.x.cols) (h2 : ScoresAlike ρ o (phaseRows o d)) {t t' : Task K}
    (ht : t.Alike ρ t') : Option.Rel (TaskResult.Alike ρ) (t.run o d) (t'.run o d') := by
  unfold Task.run
  have := taskBody_alike hd h1 h2 ht t.ps.rng
  rw [ht.ps.rng]
  revert this
  generalize taskBody o d t t.ps.rng = a
  generalize taskBody o d' t' t.ps.rng = b
  intro this
  cases this with
  | none => exact .none
  | some h =>
    rename_i a b
    obtain ⟨⟨st, ctx, bt, seen, sub⟩, g⟩ := a
    obtain ⟨⟨st', ctx', bt', seen', sub'⟩, g'⟩ := b
    obtain ⟨⟨e1, e2, e3, e4⟩, e5⟩ := h
    simp only [Prod.mk.injEq] at e1 e2 e3 e4 e5
    obtain ⟨rfl, rfl⟩ := e4
    subst e1 e2 e5
    exact .some ⟨ht.popIdx, ht.cur, rfl, rfl, rfl, rfl, rfl, rfl, rfl, rfl, e3⟩

omit [Field K] [LinearOrder K] E in
theorem forall₂_set_both {α β : Type} {R : α → β → Prop} {l : List α} {l' : List β} (h : List.Forall₂ R l l') (i : Nat) {a : α} {b : β} (hab : R a b) :
    List.Forall₂ R (l.set i a) (l'.set i b) := by
  induction h generalizing i with
  | nil => exact .nil
  | cons hh ht ih =>
    cases i with
    | zero => exact .cons hab ht
    | succ i => exact .cons hh (ih i)

theorem dispatch_alike {s s' : Shared K} (hs : s.Alike ρ s') (i : Nat) :
    Option.Rel (fun r r' => Option.Rel (Task.Alike ρ) r.1 r'.1 ∧ r.2.Alike ρ r'.2) (s.dispatch o i) (s'.dispatch o i) := by
  unfold Shared.dispatch
  simp only [Option.bind_eq_bind]
  have hp := hs.pops
  rcases List.forall₂_iff_get.mp hp with ⟨hl, hget⟩
  by_cases hi : i < s.pops.length
  · have hi' : i < s'.pops.length := by omega
    have hg := hget i hi hi'
    simp only [List.get_eq_getElem] at hg
    rw [List.getElem?_eq_getElem hi, List.getElem?_eq_getElem hi']
    simp only [Option.bind_some]
    revert hg
    generalize s.pops[i] = a
    generalize s'.pops[i] = b
    intro hg
    cases hg with
    | none => exact .some ⟨.none, hs⟩
    | some hps =>
      simp only [hs.counters]
      cases getCurMaxsize o s.counters.total (s.counters.total - s.counters.started) with
      | none => exact .none
      | some cur =>
        simp only [Option.bind_some]
        refine .some ⟨.some ⟨rfl, rfl, by rw [hs.stats], hps⟩, ⟨rfl, hs.stats, hs.hall, ?_, hs.bestSub, hs.best, hs.totalEvals⟩⟩
        exact forall₂_set_both hp i .none
  · rw [List.getElem?_eq_none (by omega), List.getElem?_eq_none (by omega)]
    exact .none

theorem apply_alike {s s' : Shared K} (hs : s.Alike ρ s') {r r' : TaskResult K} (hr : r.Alike ρ r') :
    Option.Rel (Shared.Alike ρ) (s.apply o r) (s'.apply o r') := by
  unfold Shared.apply
  rw [hr.popIdx, hs.bestSub, ← hs.pops.length_eq]
  split
  · simp only [Option.bind_eq_bind]
    rw [hs.hall, hr.cur, hr.bestSeen, hr.ps.pop, hs.best, hr.bestSub, hr.ps.counters, hr.ps.rng, hs.stats, hs.counters, hs.totalEvals,
      hr.evals]
    cases s.hall.update o.cx r.cur r.bestSeen.members with
    | none => exact .none
    | some h =>
      simp only [Option.bind_some]
      cases absorbMembers o r.cur r.ps.pop (h, s.best) with
      | none => exact .none
      | some hb =>
        simp only [Option.bind_some]
        cases migrations o (migrationCandidates (s.bestSub.set r.popIdx r.bestSub) r.popIdx) hb.1.paretoFront r.ps.pop r.ps.counters
          r.ps.rng with
        | none => exact .none
        | some x =>
          refine .some ⟨rfl, rfl, rfl, forall₂_set_both hs.pops _ (.some ?_), rfl, rfl, rfl⟩
          exact ⟨rfl, hr.ps.ev, hr.ps.ctx, rfl, rfl, hr.ps.batch⟩
  · exact .none

omit [LinearOrder K] E in
theorem finished_alike {s s' : Shared K} (hs : s.Alike ρ s') : s'.finished = s.finished := by
  unfold Shared.finished; rw [hs.counters]

omit [LinearOrder K] E in
theorem prepare_alike {e e' : Engine K} (he : e.Alike ρ e') : Option.Rel (Engine.Alike ρ) (e.prepare o) (e'.prepare o) := by
  unfold Engine.prepare
  rw [he.curIter, he.taskOrder, he.nextTask, ← he.shared.pops.length_eq, he.orderRng]
  split
  · exact .some he
  · split
    · exact .some he
    · cases shuffle (List.range e.shared.pops.length) e.orderRng with
      | none => exact .none
      | some x => exact .some ⟨he.shared, rfl, rfl, rfl, rfl, he.progressFinished⟩

theorem stepOne_alike (hd : d.Alike ρ d.x.cols d') (h1 : ScoresAlike ρ o d.x.cols) (h2 : ScoresAlike ρ o (phaseRows o d)) {e e' : Engine K}
    (he : e.Alike ρ e') : Option.Rel (fun r r' => r'.1 = r.1 ∧ r.2.Alike ρ r'.2) (e.stepOne o d) (e'.stepOne o d') := by
  unfold Engine.stepOne
  rw [finished_alike he.shared]
  split
  · exact .some ⟨rfl, { he with progressFinished := rfl }⟩
  · have hp := prepare_alike (o := o) he
    simp only [Option.bind_eq_bind]
    revert hp
    generalize e.prepare o = a
    generalize e'.prepare o = b
    intro hp
    cases hp with
    | none => exact .none
    | some hp =>
      rename_i e1 e1'
      simp only [Option.bind_some]
      unfold Engine.runNext
      rw [finished_alike hp.shared]
      split
      · exact .some ⟨rfl, hp⟩
      · simp only [Option.bind_eq_bind]
        rw [hp.taskOrder, hp.nextTask]
        cases e1.taskOrder[e1.nextTask]? with
        | none => exact .none
        | some i =>
          simp only [Option.bind_some]
          have hdis := dispatch_alike (o := o) hp.shared i
          revert hdis
          generalize e1.shared.dispatch o i = a
          generalize e1'.shared.dispatch o i = b
          intro hdis
          cases hdis with
          | none => exact .none
          | some hdis =>
            rename_i a b
            obtain ⟨t, s⟩ := a
            obtain ⟨t', s'⟩ := b
            obtain ⟨ht, hs⟩ := hdis
            simp only at ht hs
            cases ht with
            | none => exact .some ⟨rfl, { hp with taskOrder := rfl, nextTask := rfl }⟩
            | some ht =>
              rename_i t t'
              simp only [Option.bind_some]
              unfold Engine.complete
              simp only [Option.bind_eq_bind]
              have hrun := run_alike hd h1 h2 ht
              revert hrun
              generalize t.run o d = a
              generalize t'.run o d' = b
              intro hrun
              cases hrun with
              | none => exact .none
              | some hr =>
                rename_i r r'
                simp only [Option.bind_some]
                have hap := apply_alike (o := o) hs hr
                revert hap
                generalize s.apply o r = a
                generalize s'.apply o r' = b
                intro hap
                cases hap with
                | none => exact .none
                | some hap =>
                  simp only [Option.bind_some]
                  refine .some ⟨rfl, ⟨hap, hp.orderRng, hp.curIter, rfl, rfl, ?_⟩⟩
                  simp only [finished_alike hap, hp.progressFinished]

theorem step_alike (hd : d.Alike ρ d.x.cols d') (h1 : ScoresAlike ρ o d.x.cols) (h2 : ScoresAlike ρ o (phaseRows o d)) : ∀ (k : Nat)
    {e e' : Engine K}, e.Alike ρ e' → Option.Rel (fun r r' => r'.1 = r.1 ∧ r.2.Alike ρ r'.2) (e.step o d k) (e'.step o d' k) := by
  intro k
  induction k with
  | zero => intro e e' he; exact .some ⟨rfl, he⟩
  | succ k ih =>
    intro e e' he
    rw [step_succ, step_succ]
    have hs := stepOne_alike hd h1 h2 he
    revert hs
    generalize e.stepOne o d = a
    generalize e'.stepOne o d' = b
    intro hs
    cases hs with
    | none => exact .none
    | some hs =>
      rename_i a b
      obtain ⟨b1, e1⟩ := a
      obtain ⟨b2, e2⟩ := b
      obtain ⟨hb, he⟩ := hs
      simp only at hb he
      subst hb
      simp only [Option.bind_some]
      split
      · have hi := ih he
        revert hi
        generalize e1.step o d k = a
        generalize e2.step o d' k = b
        intro hi
        cases hi with
        | none => exact .none
        | some hi => exact .some ⟨by simp only [hi.1], hi.2⟩
      · exact .some ⟨rfl, he⟩

theorem init_alike (h : SameScores o d d') (seeds : Nat → Rng (Fl K)) :
    Option.Rel (Shared.Alike ρ) (Shared.init o d seeds) (Shared.init o d' seeds) := by
  rw [init_reweighed h]
  cases hi : Shared.init o d seeds with
  | none => exact .none
  | some s =>
    refine .some ⟨rfl, rfl, rfl, ?_, rfl, rfl, rfl⟩
    have hb : ∀ k i hall pops hall', initPops o d seeds k i hall = some (pops, hall') → ∀ ps ∈ pops, ps.batch = none := by
      intro k
      induction k with
      | zero =>
        intro i hall pops hall' h ps hps
        simp only [initPops, Option.some.injEq, Prod.mk.injEq] at h
        rw [← h.1] at hps; cases hps
      | succ k ih =>
        intro i hall pops hall' h ps hps
        simp only [initPops, initPop, Option.bind_eq_bind, Option.bind_eq_some_iff, Option.map_eq_some_iff, Option.some.injEq,
          Prod.mk.injEq] at h
        obtain ⟨x1, ⟨⟨st, rng⟩, -, rfl⟩, ⟨rest, hall2⟩, h2, h3, -⟩ := h
        simp only at h2 h3
        subst h3
        rcases List.mem_cons.mp hps with hm | hm
        · rw [hm]
        · exact ih _ _ _ _ h2 ps hm
    simp only [Shared.init, Option.bind_eq_bind, Option.bind_eq_some_iff, Option.some.injEq] at hi
    obtain ⟨⟨pops, hall⟩, h1, best, -, bestSub, -, rfl⟩ := hi
    simp only
    refine List.forall₂_same.mpr ?_
    intro ps hps
    obtain ⟨ps, hm, rfl⟩ := List.mem_map.mp hps
    exact .some ⟨rfl, rfl, rfl, rfl, rfl, by rw [hb _ _ _ _ _ h1 ps hm]; exact .none⟩

theorem tagged_alike (hd : ({ d with baseline := none } : Dataset K).Alike ρ d.x.cols { d' with baseline := none })
    (h1 : ScoresAlike ρ o d.x.cols) : Option.Rel (fun t t' => t.Alike ρ t.x.cols t' ∧ t.x.cols = d.x.cols) (tagged o d) (tagged o d') := by
  have hs := h1 { d with baseline := none } { d' with baseline := none } rfl hd
  have hx : d'.x = d.x := hs.x
  unfold tagged
  have hl : ∀ yhat, o.loss.loss E.RT E.lossLib yhat d'.y d'.weights = o.loss.loss E.RT E.lossLib yhat d.y d.weights := hs.loss
  have hb : baselineLoss o d' = baselineLoss o d := by
    unfold baselineLoss
    simp only [hx, hl]
  rw [hb]
  split
  · cases baselineLoss o d with
    | none => exact .none
    | some b => exact .some ⟨{ hd with baseline := rfl }, rfl⟩
  · exact .some ⟨hd, rfl⟩

/-! ## The multi-worker driver -/

omit [Field K] [LinearOrder K] E in
theorem forall₂_parts {α β : Type} {R : α → β → Prop} {l m : List α} : ∀ {l' : List β}, List.Forall₂ R (l ++ m) l' →
    ∃ a b, List.Forall₂ R l a ∧ List.Forall₂ R m b ∧ l' = a ++ b := by
  induction l with
  | nil => intro l' h; exact ⟨[], l', .nil, h, rfl⟩
  | cons x l ih =>
    intro l' h
    cases h with
    | cons h1 h2 =>
      obtain ⟨a, b, ha, hb, rfl⟩ := ih h2
      exact ⟨_ :: a, b, .cons h1 ha, hb, rfl⟩

theorem parStep_alike (hd : d.Alike ρ d.x.cols d') (h1 : ScoresAlike ρ o d.x.cols) (h2 : ScoresAlike ρ o (phaseRows o d)) {nw : Nat}
    {p p' q : Par K} {ev : ParEvent} (hp : p.Alike ρ p') (h : ParStep o d nw p ev q) : ∃ q', ParStep o d' nw p' ev q' ∧ q.Alike ρ q' := by
  cases h with
  | @start order rng a b c =>
    refine ⟨_, .start (by rw [hp.pc]; exact a) (by rw [hp.iter]; exact b) (order := order) (rng := rng)
      (by rw [← hp.shared.pops.length_eq, hp.orderRng]; exact c), ?_⟩
    exact ⟨hp.shared, rfl, rfl, by simp only [hp.iter], rfl, rfl, rfl, hp.pending⟩
  | enter a b =>
    exact ⟨_, .enter (by rw [hp.pc]; exact a) (by rw [hp.nextTask, hp.order, hp.inFlight]; exact b),
      ⟨hp.shared, hp.orderRng, rfl, hp.iter, hp.order, hp.nextTask, hp.inFlight, hp.pending⟩⟩
  | leave a b =>
    exact ⟨_, .leave (by rw [hp.pc]; exact a) (by rw [hp.nextTask, hp.order, hp.inFlight]; exact b),
      ⟨hp.shared, hp.orderRng, rfl, hp.iter, hp.order, hp.nextTask, hp.inFlight, hp.pending⟩⟩
  | @dispatch i t s a b c e =>
    have hdis := dispatch_alike (o := o) hp.shared i
    rw [e] at hdis
    cases hs : p'.shared.dispatch o i with
    | none => rw [hs] at hdis; cases hdis
    | some x =>
      obtain ⟨t', s'⟩ := x
      rw [hs] at hdis
      cases hdis with
      | some hdis =>
        obtain ⟨ht, hsh⟩ := hdis
        simp only at ht hsh
        cases ht with
        | some ht =>
          refine ⟨_, .dispatch (by rw [hp.pc]; exact a) (by rw [hp.inFlight]; exact b) (by rw [hp.order, hp.nextTask]; exact c) hs, ?_⟩
          refine ⟨hsh, hp.orderRng, hp.pc, hp.iter, hp.order, by simp only [hp.nextTask], by simp only [hp.inFlight], ?_⟩
          exact List.rel_append hp.pending (.cons ht .nil)
  | @skip i s a b c e =>
    have hdis := dispatch_alike (o := o) hp.shared i
    rw [e] at hdis
    cases hs : p'.shared.dispatch o i with
    | none => rw [hs] at hdis; cases hdis
    | some x =>
      obtain ⟨t', s'⟩ := x
      rw [hs] at hdis
      cases hdis with
      | some hdis =>
        obtain ⟨ht, hsh⟩ := hdis
        simp only at ht hsh
        cases ht with
        | none =>
          refine ⟨_, .skip (by rw [hp.pc]; exact a) (by rw [hp.inFlight]; exact b) (by rw [hp.order, hp.nextTask]; exact c) hs, ?_⟩
          exact ⟨hp.shared, hp.orderRng, hp.pc, hp.iter, hp.order, by simp only [hp.nextTask], hp.inFlight, hp.pending⟩
  | @receive l r t res s a b c e f =>
    have hpend := hp.pending
    rw [c] at hpend
    obtain ⟨l', tr', hl, htr, hpe⟩ : ∃ l' tr', List.Forall₂ (Task.Alike ρ) l l' ∧ List.Forall₂ (Task.Alike ρ) (t :: r) tr' ∧
        p'.pending = l' ++ tr' := by
      exact forall₂_parts hpend
    cases htr with
    | @cons _ t' _ r' ht hr =>
      have hrun := run_alike hd h1 h2 ht
      rw [e] at hrun
      cases hrun' : t'.run o d' with
      | none => rw [hrun'] at hrun; cases hrun
      | some res' =>
        rw [hrun'] at hrun
        cases hrun with
        | some hres =>
          have hap := apply_alike (o := o) hp.shared hres
          rw [f] at hap
          cases hap' : p'.shared.apply o res' with
          | none => rw [hap'] at hap; cases hap
          | some s' =>
            rw [hap'] at hap
            cases hap with
            | some hap =>
              have hst := ParStep.receive (o := o) (full := d') (nw := nw) (p := p') (by rw [hp.pc]; exact a)
                (by rw [hp.inFlight, hp.nextTask, hp.order]; exact b) hpe hrun' hap'
              rw [ht.popIdx] at hst
              refine ⟨_, hst, ⟨hap, hp.orderRng, rfl, hp.iter, hp.order, hp.nextTask, by simp only [hp.inFlight], ?_⟩⟩
              exact List.rel_append hl hr

theorem parRun_alike (hd : d.Alike ρ d.x.cols d') (h1 : ScoresAlike ρ o d.x.cols) (h2 : ScoresAlike ρ o (phaseRows o d)) {nw : Nat}
    {p p' q : Par K} {tr : List ParEvent} (hp : p.Alike ρ p') (h : ParRun o d nw p tr q) : ∃ q', ParRun o d' nw p' tr q' ∧ q.Alike ρ q' := by
  induction h with
  | refl => exact ⟨p', .refl _, hp⟩
  | snoc _ hs ih =>
    obtain ⟨q', hq, ha⟩ := ih
    obtain ⟨r', hr, ha'⟩ := parStep_alike hd h1 h2 ha hs
    exact ⟨r', .snoc hq hr, ha'⟩

end
/-! ## Weights that are all one -/

section
omit E
variable [IsStrictOrderedRing K] {R : Rounding K} {lib : LossLib K}

/-- A value of the type: an infinity, NaN, or a number that rounding does not change. -/
def Rounding.Value (R : Rounding K) (v : Fl K) : Prop := ∀ x, v = .fin x → R.rnd x = .fin x

omit [IsStrictOrderedRing K] in
theorem value_rnd (hR : R.Lawful) (x : K) : R.Value (R.rnd x) := fun _ h => hR.idem h

omit [IsStrictOrderedRing K] in
theorem value_add (hR : R.Lawful) (a b : Fl K) : R.Value (R.add a b) := by
  intro x h
  cases a <;> cases b <;> simp only [Rounding.add, reduceCtorEq] at h
  exact hR.idem h

omit [IsStrictOrderedRing K] in
theorem value_signInf (x : K) : R.Value (Rounding.signInf x) := by
  intro y h
  unfold Rounding.signInf at h
  split at h
  · cases h
  · split at h <;> cases h

omit [IsStrictOrderedRing K] in
theorem value_mul (hR : R.Lawful) (a b : Fl K) : R.Value (R.mul a b) := by
  intro x h
  cases a <;> cases b <;> simp only [Rounding.mul, reduceCtorEq] at h <;>
    first | exact hR.idem h | exact value_signInf _ x h

omit [IsStrictOrderedRing K] in
theorem value_div (hR : R.Lawful) (a b : Fl K) : R.Value (R.div a b) := by
  intro x h
  cases a <;> cases b <;> simp only [Rounding.div, reduceCtorEq, Fl.fin.injEq] at h
  all_goals first
    | (subst h; exact hR.zero)
    | (split at h
       · first | exact value_signInf _ x h | cases h
       · first | exact hR.idem h | cases h)

omit [IsStrictOrderedRing K] in
theorem value_abs (hR : R.Lawful) (hc : R.Closed lib) (a b : Fl K) : R.Value (R.sub a b).abs := by
  intro x h
  have hv := value_add hR a b.neg
  unfold Rounding.sub at h
  cases hs : R.add a b.neg with
  | nan => rw [hs] at h; cases h
  | ninf => rw [hs] at h; cases h
  | pinf => rw [hs] at h; cases h
  | fin z =>
    rw [hs] at h
    simp only [Fl.abs, Fl.fin.injEq] at h
    have hz := hv z hs
    rcases max_choice z (-z) with hm | hm <;> rw [hm] at h <;> subst h
    · exact hz
    · exact hc.neg hz

omit [IsStrictOrderedRing K] in
theorem value_loss (hR : R.Lawful) (hc : R.Closed lib) (l : PointLoss K) (a b : Fl K) : R.Value (l.loss R lib a b) := by
  cases l with
  | squared => exact value_mul hR _ _
  | abs => exact value_abs hR hc a b
  | huber delta =>
    simp only [PointLoss.loss]
    split
    · exact value_mul hR _ _
    · exact value_mul hR _ _
  | logCosh => exact fun x h => hc.ln h
  | lp p => exact fun x h => hc.powf h
  | quantile tau =>
    simp only [PointLoss.loss]
    split
    · exact value_mul hR _ _
    · exact value_mul hR _ _
  | epsIns eps =>
    simp only [PointLoss.loss]
    split
    · exact value_add hR _ _
    · intro x h; cases h; exact hR.zero

theorem one_mul_value {v : Fl K} (hv : R.Value v) : R.mul (.fin 1) v = v := by
  cases v with
  | nan => rfl
  | ninf => simp [Rounding.mul, Rounding.signInf]
  | pinf => simp [Rounding.mul, Rounding.signInf]
  | fin x => simp only [Rounding.mul, one_mul]; exact hv x rfl

theorem mul_one_value {v : Fl K} (hv : R.Value v) : R.mul v (.fin 1) = v := by
  cases v with
  | nan => rfl
  | ninf => simp [Rounding.mul, Rounding.signInf]
  | pinf => simp [Rounding.mul, Rounding.signInf]
  | fin x => simp only [Rounding.mul, mul_one]; exact hv x rfl

omit [IsStrictOrderedRing K] in
theorem sum_ones {B : Nat} (hB : R.CountsTo B) : ∀ (n k : Nat), k + n ≤ B →
    (List.replicate n (.fin 1 : Fl K)).foldl R.add (.fin (k : K)) = .fin ((k + n : Nat) : K) := by
  intro n
  induction n with
  | zero => intro k _; rfl
  | succ n ih =>
    intro k hk
    rw [List.replicate_succ, List.foldl_cons]
    have : R.add (.fin (k : K)) (.fin 1) = .fin ((k + 1 : Nat) : K) := by
      show R.rnd ((k : K) + 1) = _
      rw [← Nat.cast_succ]
      exact hB.nat _ (by omega)
    rw [this, ih (k + 1) (by omega), show k + 1 + n = k + (n + 1) by omega]

omit [LinearOrder K] [IsStrictOrderedRing K] in
theorem zipWith_ones (f : Fl K → Fl K → Fl K) (g : Fl K → Fl K) : ∀ (l : List (Fl K)), (∀ v ∈ l, f (.fin 1) v = g v) →
    List.zipWith f (List.replicate l.length (.fin 1)) l = l.map g := by
  intro l
  induction l with
  | nil => intro _; rfl
  | cons v l ih =>
    intro h
    simp only [List.length_cons, List.replicate_succ, List.zipWith_cons_cons, List.map_cons]
    rw [h v (by simp), ih fun v hv => h v (by simp [hv])]

variable {n : Nat}

omit [IsStrictOrderedRing K] in
theorem sum_ones' (hB : R.CountsTo n) : R.sum (List.replicate n (.fin 1)) = R.ofNat n := by
  unfold Rounding.sum Rounding.ofNat
  have := sum_ones hB n 0 (by omega)
  rw [Nat.cast_zero, Nat.zero_add] at this
  rw [this, hB.nat n le_rfl]

theorem ofNat_feq (hB : R.CountsTo n) : (R.ofNat n).feq (.fin 0) = decide (n = 0) := by
  unfold Rounding.ofNat
  rw [hB.nat n le_rfl]
  by_cases h : n = 0
  · subst h; simp [Fl.feq, Fl.le]
  · have : (0 : K) < n := by exact_mod_cast Nat.pos_of_ne_zero h
    simp [Fl.feq, Fl.le, h]

theorem meanLoss_ones (hB : R.CountsTo n) {pl : Fl K → Fl K → Fl K} (hpl : ∀ a b, R.Value (pl a b)) (yhat y : List (Fl K))
    (hn : y.length = n) : meanLoss R pl yhat y (some (List.replicate n (.fin 1))) = meanLoss R pl yhat y none := by
  subst hn
  unfold meanLoss
  simp only [List.length_replicate, ne_eq, not_true_eq_false, or_false]
  split
  · rfl
  · rename_i hl
    push Not at hl
    rw [sum_ones' hB, ofNat_feq hB]
    cases y with
    | nil => simp
    | cons v y =>
      simp only [List.length_cons, Nat.add_eq_zero_iff, one_ne_zero, and_false, decide_false, Bool.false_eq_true, if_false, List.isEmpty_cons]
      have hz : (List.zipWith pl yhat (v :: y)).length = (v :: y).length := by simp [hl]
      have := zipWith_ones R.mul id (List.zipWith pl yhat (v :: y)) (by
        intro u hu
        rw [List.zipWith_eq_zipWith_take_min] at hu
        obtain ⟨i, hi, rfl⟩ := List.mem_iff_getElem.mp hu
        rw [List.getElem_zipWith]
        exact one_mul_value (hpl _ _))
      rw [hz, List.map_id] at this
      simp only [List.length_cons] at this
      rw [this]

theorem meanDloss_ones (hR : R.Lawful) (hB : R.CountsTo n) (pd : Fl K → Fl K → Fl K) (yhat y : List (Fl K))
    (hn : y.length = n) : meanDloss R pd yhat y (some (List.replicate n (.fin 1))) = meanDloss R pd yhat y none := by
  subst hn
  unfold meanDloss
  simp only [List.length_replicate, ne_eq, not_true_eq_false, or_false]
  split
  · rfl
  · rename_i hl
    push Not at hl
    rw [sum_ones' hB, ofNat_feq hB]
    cases y with
    | nil => simp
    | cons v y =>
      simp only [List.length_cons, Nat.add_eq_zero_iff, one_ne_zero, and_false, decide_false, Bool.false_eq_true, if_false, List.isEmpty_cons]
      have hz : (List.zipWith pd yhat (v :: y)).length = (v :: y).length := by simp [hl]
      have := zipWith_ones (fun wi d => R.mul (R.mul wi (R.div (.fin 1) (R.ofNat (y.length + 1)))) d)
        (fun d => R.mul (R.div (.fin 1) (R.ofNat (y.length + 1))) d) (List.zipWith pd yhat (v :: y)) (by
        intro u _
        rw [one_mul_value (value_div hR _ _)])
      rw [hz] at this
      simp only [List.length_cons] at this
      rw [this]

theorem loss_ones (hR : R.Lawful) (hc : R.Closed lib) (hB : R.CountsTo n) (l : LossKind K) (yhat y : List (Fl K)) (hn : y.length = n) :
    l.loss R lib yhat y (some (List.replicate n (.fin 1))) = l.loss R lib yhat y none := by
  cases l with
  | mean l => exact meanLoss_ones hB (value_loss hR hc l) yhat y hn
  | rmse => simp only [LossKind.loss]; rw [meanLoss_ones hB (value_loss hR hc .squared) yhat y hn]

theorem dloss_ones (hR : R.Lawful) (hc : R.Closed lib) (hB : R.CountsTo n) (l : LossKind K) (yhat y : List (Fl K)) (hn : y.length = n) :
    l.dloss R lib yhat y (some (List.replicate n (.fin 1))) = l.dloss R lib yhat y none := by
  cases l with
  | mean l => exact meanDloss_ones hR hB _ yhat y hn
  | rmse =>
    simp only [LossKind.dloss]
    rw [meanLoss_ones hB (value_loss hR hc .squared) yhat y hn]
    cases hm : meanLoss R (PointLoss.squared.loss R lib) yhat y none with
    | none => rfl
    | some m =>
      simp only [Option.bind_eq_bind, Option.bind_some]
      split
      · rfl
      · have hl : yhat.length = y.length := by
          unfold meanLoss at hm
          by_contra hne
          rw [if_pos hne] at hm; cases hm
        subst hn
        rw [sum_ones' hB, ofNat_feq hB]
        cases y with
        | nil => simp
        | cons v y =>
          simp only [List.length_cons, Nat.add_eq_zero_iff, one_ne_zero, and_false, decide_false, Bool.false_eq_true, if_false]
          have hz : (List.zipWith R.sub yhat (v :: y)).length = (v :: y).length := by simp [hl]
          have := zipWith_ones (fun wi d => R.mul (R.mul (R.div (R.div (.fin 1) (R.ofNat (y.length + 1))) (lib.sqrt m)) wi) d)
            (fun d => R.mul (R.div (R.div (.fin 1) (R.ofNat (y.length + 1))) (lib.sqrt m)) d) (List.zipWith R.sub yhat (v :: y)) (by
            intro u _
            rw [mul_one_value (value_div hR _ _)])
          rw [hz] at this
          simp only [List.length_cons] at this
          rw [this, List.map_zipWith]
end

theorem scoresAlike_ones [IsStrictOrderedRing K] (hR : E.RT.Lawful) (hc : E.RT.Closed E.lossLib) {n : Nat} (hB : E.RT.CountsTo n)
    (o : SOptions K) : ScoresAlike Reweigh.ones o n := by
  intro b b' hn h
  have hw : b.weights = none := by
    have := h.before
    cases hb : b.weights with
    | none => rfl
    | some w => rw [hb] at this; cases this
  obtain ⟨w, hw'⟩ : ∃ w, b'.weights = some w := Option.isSome_iff_exists.mp h.after
  have hlen := h.w' w hw'
  have hone : w = List.replicate n (.fin 1) := by
    refine List.eq_replicate_iff.mpr ⟨by rw [hlen, h.len, hn], ?_⟩
    intro v hv
    obtain ⟨i, hi, rfl⟩ := List.mem_iff_getElem.mp hv
    have := (h.rows i (by rw [hlen, h.len, hn] at hi; exact hi)).2
    simp only [Dataset.rowWeight, hw', List.getD_eq_getElem?_getD, List.getElem?_eq_getElem hi, Option.getD_some] at this
    exact this
  refine ⟨h.x, h.baseline, ?_, ?_⟩
  · intro yhat
    rw [hw, hw', h.y, hone]
    exact loss_ones hR hc hB _ _ _ (by rw [h.len, hn])
  · intro yhat
    rw [hw, hw', h.y, hone]
    exact dloss_ones hR hc hB _ _ _ (by rw [h.len, hn])

/-! ## Weights multiplied by a constant -/

section
omit E
variable [IsStrictOrderedRing K] {R : Rounding K} {lib : LossLib K} {c : K}

theorem Rounding.Scales.inv (h : R.Scales c) : R.Scales c⁻¹ where
  pos := inv_pos.mpr h.pos
  rnd x := by
    have := h.rnd (c⁻¹ * x)
    rw [← mul_assoc, mul_inv_cancel₀ h.pos.ne', one_mul] at this
    rw [this]
    cases R.rnd (c⁻¹ * x) with
    | fin y => simp only [Fl.scale]; rw [← mul_assoc, inv_mul_cancel₀ h.pos.ne', one_mul]
    | _ => rfl

omit [LinearOrder K] [IsStrictOrderedRing K] in
theorem scale_fin (x : K) : Fl.scale c (.fin x) = .fin (c * x) := rfl
omit [LinearOrder K] [IsStrictOrderedRing K] in
theorem scale_nan : Fl.scale c .nan = .nan := rfl
omit [LinearOrder K] [IsStrictOrderedRing K] in
theorem scale_pinf : Fl.scale c .pinf = .pinf := rfl
omit [LinearOrder K] [IsStrictOrderedRing K] in
theorem scale_ninf : Fl.scale c .ninf = .ninf := rfl

omit [LinearOrder K] [IsStrictOrderedRing K] in
theorem scale_zero : Fl.scale c (.fin 0) = .fin 0 := by simp [Fl.scale]

theorem scale_signInf (hc : 0 < c) (x : K) : Rounding.signInf (c * x) = Rounding.signInf x := by
  unfold Rounding.signInf
  simp only [mul_pos_iff_of_pos_left hc, mul_neg_iff, hc, hc.not_gt, true_and, false_and, or_false]

omit [IsStrictOrderedRing K] in
theorem signInf_scale (x : K) : (Rounding.signInf x).scale c = Rounding.signInf x := by
  unfold Rounding.signInf
  split
  · rfl
  · split <;> rfl

omit [IsStrictOrderedRing K] in
theorem add_scale (h : R.Scales c) (a b : Fl K) : R.add (a.scale c) (b.scale c) = (R.add a b).scale c := by
  cases a <;> cases b <;> simp only [scale_fin, scale_nan, scale_pinf, scale_ninf, Rounding.add]
  rw [← mul_add, h.rnd]

theorem mul_scale (h : R.Scales c) (a b : Fl K) : R.mul (a.scale c) b = (R.mul a b).scale c := by
  cases a <;> cases b <;>
    simp only [scale_fin, scale_nan, scale_pinf, scale_ninf, Rounding.mul, signInf_scale, scale_signInf h.pos, ← mul_neg]
  rw [mul_assoc, h.rnd]

theorem mul_scale_right (h : R.Scales c) (a b : Fl K) : R.mul a (b.scale c) = (R.mul a b).scale c := by
  cases a <;> cases b <;>
    simp only [scale_fin, scale_nan, scale_pinf, scale_ninf, Rounding.mul, signInf_scale, scale_signInf h.pos, ← mul_neg]
  rw [mul_left_comm, h.rnd]

theorem div_scale (h : R.Scales c) (a b : Fl K) : R.div (a.scale c) b = (R.div a b).scale c := by
  cases a <;> cases b <;> simp only [scale_fin, scale_nan, scale_pinf, scale_ninf, Rounding.div, mul_zero]
  · split <;> rfl
  · split
    · rw [scale_signInf h.pos, signInf_scale]
    · rw [mul_div_assoc, h.rnd]
  · split <;> rfl

theorem div_scale_right (h : R.Scales c) (a b : Fl K) : R.div a (b.scale c) = (R.div a b).scale c⁻¹ := by
  have hne := h.pos.ne'
  cases a <;> cases b <;>
    simp only [scale_fin, scale_nan, scale_pinf, scale_ninf, Rounding.div, mul_zero, mul_neg_iff, h.pos, h.pos.not_gt, true_and, false_and,
      or_false, mul_eq_zero, hne, false_or]
  · split <;> rfl
  · split
    · rw [signInf_scale]
    · rename_i x y _
      rw [show x / (c * y) = c⁻¹ * (x / y) by field_simp, h.inv.rnd]
  · split <;> rfl

omit [LinearOrder K] [IsStrictOrderedRing K] in
theorem scale_scale (hc : c ≠ 0) (a : Fl K) : (a.scale c).scale c⁻¹ = a := by
  cases a <;> simp only [Fl.scale]
  rw [← mul_assoc, inv_mul_cancel₀ hc, one_mul]

omit [IsStrictOrderedRing K] in
theorem sum_scale (h : R.Scales c) (l : List (Fl K)) : R.sum (l.map (Fl.scale c)) = (R.sum l).scale c := by
  unfold Rounding.sum
  have key : ∀ (l : List (Fl K)) (a : Fl K), (l.map (Fl.scale c)).foldl R.add (a.scale c) = (l.foldl R.add a).scale c := by
    intro l
    induction l with
    | nil => intro a; rfl
    | cons v l ih => intro a; simp only [List.map_cons, List.foldl_cons, add_scale h, ih]
  have := key l (.fin 0)
  rw [scale_zero] at this
  exact this

theorem feq_scale (hc : 0 < c) (a : Fl K) : (a.scale c).feq (.fin 0) = a.feq (.fin 0) := by
  cases a <;> simp only [Fl.scale, Fl.feq, Fl.le]
  rename_i x
  congr 1 <;> congr 1
  · rw [eq_iff_iff]
    constructor
    · intro h; exact le_of_not_gt fun hx => absurd h (not_le.mpr (mul_pos hc hx))
    · intro h; exact mul_nonpos_of_nonneg_of_nonpos hc.le h
  · rw [eq_iff_iff]; exact mul_nonneg_iff_of_pos_left hc

theorem div_scale_both (h : R.Scales c) (a b : Fl K) : R.div (a.scale c) (b.scale c) = R.div a b := by
  rw [div_scale_right h, div_scale h, scale_scale h.pos.ne']

theorem meanLoss_scaled (h : R.Scales c) (pl : Fl K → Fl K → Fl K) (yhat y w : List (Fl K)) :
    meanLoss R pl yhat y (some (w.map (Fl.scale c))) = meanLoss R pl yhat y (some w) := by
  simp only [meanLoss, List.length_map, sum_scale h, feq_scale h.pos]
  rw [List.zipWith_map_left]
  simp only [mul_scale h]
  rw [← List.map_zipWith, sum_scale h, div_scale_both h]

theorem meanDloss_scaled (h : R.Scales c) (pd : Fl K → Fl K → Fl K) (yhat y w : List (Fl K)) :
    meanDloss R pd yhat y (some (w.map (Fl.scale c))) = meanDloss R pd yhat y (some w) := by
  simp only [meanDloss, List.length_map, sum_scale h, feq_scale h.pos]
  rw [List.zipWith_map_left]
  simp only [div_scale_right h, mul_scale_right h.inv, mul_scale h, scale_scale h.pos.ne']

theorem loss_scaled (h : R.Scales c) (l : LossKind K) (yhat y w : List (Fl K)) :
    l.loss R lib yhat y (some (w.map (Fl.scale c))) = l.loss R lib yhat y (some w) := by
  cases l with
  | mean l => exact meanLoss_scaled h _ _ _ _
  | rmse => simp only [LossKind.loss]; rw [meanLoss_scaled h]

theorem dloss_scaled (h : R.Scales c) (l : LossKind K) (yhat y w : List (Fl K)) :
    l.dloss R lib yhat y (some (w.map (Fl.scale c))) = l.dloss R lib yhat y (some w) := by
  cases l with
  | mean l => exact meanDloss_scaled h _ _ _ _
  | rmse =>
    simp only [LossKind.dloss]
    rw [meanLoss_scaled h]
    simp only [sum_scale h, feq_scale h.pos, List.zipWith_map_left]
    simp only [div_scale_right h, mul_scale_right h, div_scale h.inv, mul_scale h.inv]
    simp only [show ∀ a : Fl K, (a.scale c⁻¹).scale c = a from fun a => by
      have := scale_scale (inv_ne_zero h.pos.ne') a
      rwa [inv_inv] at this]
end

theorem scoresAlike_scaled [IsStrictOrderedRing K] {c : K} (hc : E.RT.Scales c) (o : SOptions K) (n : Nat) :
    ScoresAlike (Reweigh.scaled c) o n := by
  intro b b' hn h
  obtain ⟨w, hw⟩ : ∃ w, b.weights = some w := Option.isSome_iff_exists.mp h.before
  obtain ⟨w', hw'⟩ : ∃ w, b'.weights = some w := Option.isSome_iff_exists.mp h.after
  have hlen := h.w w hw
  have hlen' := h.w' w' hw'
  have hone : w' = w.map (Fl.scale c) := by
    refine List.ext_getElem (by rw [List.length_map, hlen, hlen']) ?_
    intro i hi hi'
    have := h.rows i (by rw [hlen', h.len, hn] at hi; exact hi)
    rw [List.length_map] at hi'
    simp only [Reweigh.scaled, Dataset.rowWeight, hw, hw', List.getD_eq_getElem?_getD, List.getElem?_eq_getElem hi,
      List.getElem?_eq_getElem hi', Option.getD_some] at this
    rw [this, List.getElem_map]
  refine ⟨h.x, h.baseline, ?_, ?_⟩
  · intro yhat
    rw [hw, hw', h.y, hone]
    exact loss_scaled hc _ _ _ _
  · intro yhat
    rw [hw, hw', h.y, hone]
    exact dloss_scaled hc _ _ _ _

/-! ## The other direction -/

section
variable {ρ : Reweigh K}
omit [LinearOrder K] E

/-- The relation the other way round. -/
def Reweigh.flip (ρ : Reweigh K) : Reweigh K := ⟨ρ.after, ρ.before, fun a b => ρ.row b a⟩

theorem Dataset.Alike.flip {k : Nat} {d d' : Dataset K} (h : d.Alike ρ k d') : d'.Alike ρ.flip k d :=
  ⟨h.x.symm, h.y.symm, h.baseline.symm, by rw [h.y, h.x]; exact h.len, h.after, h.before, by rw [h.y]; exact h.w', by rw [h.y]; exact h.w, h.rows⟩

theorem _root_.Option.Rel.swap {α β : Type} {P : α → β → Prop} {Q : β → α → Prop} {a : Option α} {b : Option β} (h : Option.Rel P a b)
    (hpq : ∀ x y, P x y → Q y x) : Option.Rel Q b a := by
  cases h with
  | none => exact .none
  | some h => exact .some (hpq _ _ h)

theorem PopState.Alike.flip {p p' : PopState K} (h : p.Alike ρ p') : p'.Alike ρ.flip p :=
  ⟨h.pop.symm, h.ev.symm, h.ctx.symm, h.rng.symm, h.counters.symm, h.batch.swap fun b b' hb => by rw [hb.x]; exact hb.flip⟩

theorem Shared.Alike.flip {s s' : Shared K} (h : s.Alike ρ s') : s'.Alike ρ.flip s :=
  ⟨h.counters.symm, h.stats.symm, h.hall.symm, List.Forall₂.flip (h.pops.imp fun _ _ h => h.swap fun _ _ h => h.flip), h.bestSub.symm,
    h.best.symm, h.totalEvals.symm⟩

theorem Task.Alike.flip {t t' : Task K} (h : t.Alike ρ t') : t'.Alike ρ.flip t := ⟨h.popIdx.symm, h.cur.symm, h.stats.symm, h.ps.flip⟩

theorem Par.Alike.flip {p p' : Par K} (h : p.Alike ρ p') : p'.Alike ρ.flip p :=
  ⟨h.shared.flip, h.orderRng.symm, h.pc.symm, h.iter.symm, h.order.symm, h.nextTask.symm, h.inFlight.symm,
    List.Forall₂.flip (h.pending.imp fun _ _ h => h.flip)⟩
end

theorem ScoresAlike.flip {ρ : Reweigh K} {o : SOptions K} {n : Nat} (h : ScoresAlike ρ o n) : ScoresAlike ρ.flip o n := by
  intro b b' hn hb
  have := h b' b (by rw [hb.x]; exact hn) hb.flip
  exact ⟨this.x.symm, this.baseline.symm, fun y => (this.loss y).symm, fun y => (this.dloss y).symm⟩

/-! ## The two searches -/

section
variable {ρ : Reweigh K} {o : SOptions K} {d d' : Dataset K}

theorem stepwise_alike (hd : ({ d with baseline := none } : Dataset K).Alike ρ d.x.cols { d' with baseline := none })
    (h1 : ScoresAlike ρ o d.x.cols) (h2 : ScoresAlike ρ o (phaseRows o d)) (seeds : Nat → Rng (Fl K)) (g : Rng (Fl K)) (k : Nat) :
    Option.Rel (fun r r' => r'.1 = r.1 ∧ r.2.Alike ρ r'.2)
      ((tagged o d).bind fun t => (Engine.new o t seeds g).bind fun e => e.step o t k)
      ((tagged o d').bind fun t => (Engine.new o t seeds g).bind fun e => e.step o t k) := by
  have ht := tagged_alike hd h1
  revert ht
  generalize tagged o d = a
  generalize tagged o d' = b
  intro ht
  cases ht with
  | none => exact .none
  | some ht =>
    rename_i t t'
    obtain ⟨ht, hc⟩ := ht
    simp only [Option.bind_some]
    have h1' : ScoresAlike ρ o t.x.cols := by rw [hc]; exact h1
    have h2' : ScoresAlike ρ o (phaseRows o t) := by unfold phaseRows at h2 ⊢; rw [hc]; exact h2
    unfold Engine.new
    have hi := init_alike (ρ := ρ) (h1' t t' rfl ht) seeds
    revert hi
    generalize Shared.init o t seeds = a
    generalize Shared.init o t' seeds = b
    intro hi
    cases hi with
    | none => exact .none
    | some hi =>
      simp only [Option.map_some, Option.bind_some]
      exact step_alike ht h1' h2' k ⟨hi, rfl, rfl, rfl, rfl, rfl⟩

theorem parallel_alike (hd : ({ d with baseline := none } : Dataset K).Alike ρ d.x.cols { d' with baseline := none })
    (h1 : ScoresAlike ρ o d.x.cols) (h2 : ScoresAlike ρ o (phaseRows o d)) (seeds : Nat → Rng (Fl K)) (g : Rng (Fl K)) :
    Option.Rel (fun (t : Dataset K × Par K) t' => t.2.Alike ρ t'.2 ∧ ∀ nw tr,
        (∀ q, ParRun o t.1 nw t.2 tr q → ∃ q', ParRun o t'.1 nw t'.2 tr q' ∧ q.Alike ρ q') ∧
        (∀ q', ParRun o t'.1 nw t'.2 tr q' → ∃ q, ParRun o t.1 nw t.2 tr q ∧ q'.Alike ρ.flip q))
      ((tagged o d).bind fun t => (Par.new o t seeds g).map fun p => (t, p))
      ((tagged o d').bind fun t => (Par.new o t seeds g).map fun p => (t, p)) := by
  have ht := tagged_alike hd h1
  revert ht
  generalize tagged o d = a
  generalize tagged o d' = b
  intro ht
  cases ht with
  | none => exact .none
  | some ht =>
    rename_i t t'
    obtain ⟨ht, hc⟩ := ht
    simp only [Option.bind_some]
    have h1' : ScoresAlike ρ o t.x.cols := by rw [hc]; exact h1
    have h2' : ScoresAlike ρ o (phaseRows o t) := by unfold phaseRows at h2 ⊢; rw [hc]; exact h2
    unfold Par.new
    have hi := init_alike (ρ := ρ) (h1' t t' rfl ht) seeds
    revert hi
    generalize Shared.init o t seeds = a
    generalize Shared.init o t' seeds = b
    intro hi
    cases hi with
    | none => exact .none
    | some hi =>
      rename_i s s'
      simp only [Option.map_some]
      have hp : (⟨s, g, .idle, 0, [], 0, 0, []⟩ : Par K).Alike ρ ⟨s', g, .idle, 0, [], 0, 0, []⟩ := ⟨hi, rfl, rfl, rfl, rfl, rfl, rfl, .nil⟩
      refine .some ⟨hp, fun nw tr => ⟨fun q hq => parRun_alike ht h1' h2' hp hq, fun q' hq => ?_⟩⟩
      refine parRun_alike (d := t') (d' := t) (by rw [ht.x]; exact ht.flip) (by rw [ht.x]; exact h1'.flip) ?_ hp.flip hq
      have : phaseRows o t' = phaseRows o t := by unfold phaseRows; rw [ht.x]
      rw [this]; exact h2'.flip
end

end SR
