import Verif.Spec.Batch
import Verif.Spec.Demo
import Verif.Props.Schedule
/-
C42: mini-batches.
-/
namespace SR
variable {K : Type} [Field K] [LinearOrder K] [E : Env K]
variable {full b : Dataset K}

omit E in
/-- One copied row. -/
theorem copyRow_spec (hfull : full.WF) (hb : BatchShape full b) {dst src : Nat} (hd : dst < b.x.cols)
    (hs : src < full.x.cols) :
    ∃ b', copyRow full b dst src = some b' ∧ BatchShape full b' ∧ b'.x.cols = b.x.cols ∧ SameRow full b' dst src ∧
      ∀ i s, i ≠ dst → SameRow full b i s → SameRow full b' i s := by
  have hy : full.y[src]? = some (full.y[src]'(by rw [hfull.y]; exact hs)) := List.getElem?_eq_getElem _
  unfold copyRow
  rw [hy]
  have hdy : dst < b.y.length := by rw [hb.y]; exact hd
  cases hwb : b.weights with
  | none =>
    have hwf : full.weights = none := by
      have := hb.weighted
      rw [hwb] at this
      exact Option.not_isSome_iff_eq_none.mp (by rw [← this]; simp)
    refine ⟨_, rfl, ⟨hb.features, by simp [hb.y], by simp, by simp [hwf]⟩, rfl,
      ⟨hs, fun f => by simp, ?_, by simp⟩, fun i s hi h => ⟨h.exists_, fun f => ?_, ?_, by simp⟩⟩
    · rw [hy]; simp [hdy]
    · simp only [if_neg hi]; exact h.x f
    · show (b.y.set dst _)[i]? = _
      rw [List.getElem?_set_ne (Ne.symm hi)]; exact h.y
  | some wd =>
    obtain ⟨ws, hwf⟩ : ∃ ws, full.weights = some ws := by
      have := hb.weighted
      rw [hwb] at this
      exact Option.isSome_iff_exists.mp this.symm
    have hw : ws[src]? = some (ws[src]'(by rw [hfull.w ws hwf]; exact hs)) := List.getElem?_eq_getElem _
    have hdw : dst < wd.length := by rw [hb.weights wd hwb]; exact hd
    rw [hwf]
    simp only [hw, Option.map_some, Option.bind_eq_bind, Option.bind_some]
    refine ⟨_, rfl, ⟨hb.features, by simp [hb.y], ?_, by simp [hwf]⟩, rfl,
      ⟨hs, fun f => by simp, ?_, ?_⟩, fun i s hi h => ⟨h.exists_, fun f => ?_, ?_, ?_⟩⟩
    · rintro w h
      simp only [Option.some.injEq] at h
      subst h
      simp [hb.weights wd hwb]
    · rw [hy]; simp [hdy]
    · rintro w1 w2 h1 h2
      simp only [Option.some.injEq] at h1
      rw [hwf, Option.some.injEq] at h2
      subst h1 h2
      rw [hw]; simp [hdw]
    · simp only [if_neg hi]; exact h.x f
    · show (b.y.set dst _)[i]? = _
      rw [List.getElem?_set_ne (Ne.symm hi)]; exact h.y
    · rintro w1 w2 h1 h2
      simp only [Option.some.injEq] at h1
      subst h1
      rw [List.getElem?_set_ne (Ne.symm hi)]
      exact h.weights wd w2 hwb h2

omit E in
theorem resampleLoop_spec (hfull : full.WF) (h0 : 0 < full.x.cols) (n : Nat) :
    ∀ (k dst : Nat) (b : Dataset K), BatchShape full b → b.x.cols = n → dst + k = n →
      (∀ i, i < dst → ∃ s, SameRow full b i s) →
      Rand.Total (resampleLoop full k dst b) fun b' => BatchShape full b' ∧ b'.x.cols = n ∧
        ∀ i, i < n → ∃ s, SameRow full b' i s := by
  intro k
  induction k with
  | zero =>
    intro dst b hb hn hk hrows
    exact Rand.Total.pure ⟨hb, hn, fun i hi => hrows i (by omega)⟩
  | succ k ih =>
    intro dst b hb hn hk hrows
    unfold resampleLoop
    refine Rand.Total.bind (Rand.Total.below h0) fun src hs => ?_
    obtain ⟨b', e, h1, h2, h3, h4⟩ := copyRow_spec hfull hb (dst := dst) (by omega) hs
    refine Rand.Total.bind (Rand.Total.lift (P := fun r => r = b') ⟨b', e, rfl⟩) ?_
    rintro _ rfl
    refine ih (dst + 1) _ h1 (h2.trans hn) (by omega) fun i hi => ?_
    by_cases he : i = dst
    · subst he; exact ⟨src, h3⟩
    · obtain ⟨s, hs⟩ := hrows i (by omega)
      exact ⟨s, h4 i s he hs⟩

omit E in
/-- C42: resampling a batch buffer never panics, and afterwards every row of the batch is a row of the full data set,
with all its features, its target and its weight. -/
theorem C42_resample (hfull : full.WF) (h0 : 0 < full.x.cols) (hb : BatchShape full b) :
    Rand.Total (resampleFrom full b) fun b' => BatchShape full b' ∧ b'.x.cols = b.x.cols ∧
      ∀ i, i < b'.x.cols → ∃ s, SameRow full b' i s := by
  unfold resampleFrom
  have hc : ¬ (full.x.cols = 0 ∨ b.x.rows ≠ full.x.rows ∨ b.y.length ≠ b.x.cols ∨
      (∃ w ∈ b.weights, w.length ≠ b.x.cols) ∨ b.weights.isSome ≠ full.weights.isSome) := by
    rintro (h | h | h | ⟨w, hw, h⟩ | h)
    · omega
    · exact h hb.features
    · exact h hb.y
    · exact h (hb.weights w hw)
    · exact h hb.weighted
  rw [if_neg hc]
  refine (resampleLoop_spec hfull h0 b.x.cols b.x.cols 0 b hb rfl (by omega) (by simp)).mono ?_
  rintro b' ⟨h1, h2, h3⟩
  exact ⟨h1, h2, fun i hi => h3 i (by omega)⟩

omit E in
theorem makeBatchBuffer_spec (h0 : 0 < full.x.cols) (n : Nat) :
    ∃ b, makeBatchBuffer full n = some b ∧ BatchShape full b ∧ b.x.cols = max n 1 := by
  refine ⟨_, if_neg (by omega), ⟨rfl, by simp, ?_, by simp⟩, rfl⟩
  rintro w h
  rw [Option.map_eq_some_iff] at h
  obtain ⟨_, -, rfl⟩ := h
  simp

/-- C42: with batching, the data set of a phase is drawn without panic, has the configured number of rows, all of them
rows of the full data set with their targets and weights, and the full data set's baseline; the stored buffer is
usable again. -/
theorem C42_phase (o : SOptions K) (hbat : o.batching = true) (hfull : full.WF) (h0 : 0 < full.x.cols)
    {batch : Option (Dataset K)} (hbatch : ∀ b, batch = some b → BatchShape full b) :
    Rand.Total (phaseDataset o full batch) fun r => BatchShape full r.1 ∧ r.1.x.cols = max o.batchSize 1 ∧
      r.1.baseline = full.baseline ∧ (∀ i, i < r.1.x.cols → ∃ s, SameRow full r.1 i s) ∧
      ∀ b, r.2 = some b → BatchShape full b := by
  unfold phaseDataset
  rw [if_pos hbat, if_neg (by omega)]
  have hbuf : ∃ b, (if needsNewBatch full (max o.batchSize 1) batch
      then makeBatchBuffer full (max o.batchSize 1) else batch) = some b ∧ BatchShape full b ∧
      b.x.cols = max o.batchSize 1 := by
    split
    · obtain ⟨b, h1, h2, h3⟩ := makeBatchBuffer_spec (full := full) h0 (max o.batchSize 1)
      exact ⟨b, h1, h2, by omega⟩
    · next h =>
      cases batch with
      | none => simp [needsNewBatch] at h
      | some b =>
        simp only [needsNewBatch, decide_eq_true_eq, not_or, not_not] at h
        exact ⟨b, rfl, hbatch b rfl, h.1⟩
  obtain ⟨b, e, hs, hc⟩ := hbuf
  refine Rand.Total.bind (Rand.Total.lift (P := fun r => r = b) ⟨b, e, rfl⟩) ?_
  rintro _ rfl
  refine Rand.Total.bind (C42_resample hfull h0 hs) ?_
  rintro b' ⟨h1, h2, h3⟩
  refine Rand.Total.pure ⟨⟨h1.features, h1.y, h1.weights, h1.weighted⟩, h2.trans hc, rfl, fun i hi => ?_, ?_⟩
  · obtain ⟨s, hs⟩ := h3 i hi
    exact ⟨s, hs.exists_, hs.x, hs.y, hs.weights⟩
  · rintro c h
    simp only [Option.some.injEq] at h
    subst h
    exact h1

omit E in
/-- C42: any choice of rows, with repetitions, is drawn for some random stream. -/
theorem C42_reaches (hfull : full.WF) (h0 : 0 < full.x.cols) (hb : BatchShape full b) (idx : Nat → Nat)
    (hidx : ∀ i, i < b.x.cols → idx i < full.x.cols) :
    ∃ g b' g', resampleFrom full b g = some (b', g') ∧ ∀ i, i < b.x.cols → SameRow full b' i (idx i) := by
  have key : ∀ (k dst : Nat) (b : Dataset K), BatchShape full b → dst + k = b.x.cols →
      (∀ i, i < b.x.cols → idx i < full.x.cols) → (∀ i, i < dst → SameRow full b i (idx i)) → ∀ g : Rng (Fl K),
      (∀ j, g.ints j = idx (dst + j)) →
      ∃ b' g', resampleLoop full k dst b g = some (b', g') ∧ ∀ i, i < b.x.cols → SameRow full b' i (idx i) := by
    intro k
    induction k with
    | zero =>
      intro dst b hb hk _ hr g hg
      exact ⟨b, g, rfl, fun i hi => hr i (by omega)⟩
    | succ k ih =>
      intro dst b hb hk hx hr g hg
      obtain ⟨b', e, h1, h2, h3, h4⟩ := copyRow_spec hfull hb (dst := dst) (by omega) (hx dst (by omega))
      obtain ⟨b'', g', e', h⟩ := ih (dst + 1) b' h1 (by omega) (by rw [h2]; exact hx) (fun i hi => by
        by_cases he : i = dst
        · subst he; exact h3
        · exact h4 i _ he (hr i (by omega))) g.nextInt (fun j => by
          show g.ints (j + 1) = _
          rw [hg]; congr 1; omega)
      refine ⟨b'', g', ?_, by rw [← h2]; exact h⟩
      unfold resampleLoop
      have h5 : (Rand.below full.x.cols : Rand (Fl K) Nat) g = some (idx dst, g.nextInt) := by
        unfold Rand.below
        rw [if_neg (by omega), hg, Nat.add_zero, Nat.mod_eq_of_lt (hx dst (by omega))]
      rw [Rand.run_bind, h5]
      simp only [Rand.run_bind, Rand.lift, e, Option.map_some]
      exact e'
  unfold resampleFrom
  have hc : ¬ (full.x.cols = 0 ∨ b.x.rows ≠ full.x.rows ∨ b.y.length ≠ b.x.cols ∨
      (∃ w ∈ b.weights, w.length ≠ b.x.cols) ∨ b.weights.isSome ≠ full.weights.isSome) := by
    rintro (h | h | h | ⟨w, hw, h⟩ | h)
    · omega
    · exact h hb.features
    · exact h hb.y
    · exact h (hb.weights w hw)
    · exact h hb.weighted
  rw [if_neg hc]
  obtain ⟨b', g', h1, h2⟩ := key b.x.cols 0 b hb (by omega) hidx (by omega) ⟨idx, fun _ => .fin 0⟩ (fun j => by simp)
  exact ⟨_, b', g', h1, h2⟩

end SR
