import Verif.Proofs.Ctx
import Verif.Proofs.Init
import Verif.Props.Tournament
import Verif.Props.Stats
/-
Every computation of a search returns: statistics, tournaments, evolution, tasks.
-/
namespace SR
variable {K : Type} [Field K] [LinearOrder K] [IsStrictOrderedRing K]

/-! ## Statistics -/

/-- A partial sum: representable and at least `b`, or infinite. -/
def SumOk (R : Rounding K) (b : K) (v : Fl K) : Prop := v = .pinf ∨ ∃ x, v = .fin x ∧ R.rnd x = .fin x ∧ b ≤ x ∧ 0 ≤ x

omit [IsStrictOrderedRing K] in
theorem SumOk.mono {R : Rounding K} {b c : K} {v : Fl K} (h : SumOk R b v) (hc : c ≤ b) : SumOk R c v := by
  rcases h with h | ⟨x, h1, h2, h3, h4⟩
  · exact .inl h
  · exact .inr ⟨x, h1, h2, hc.trans h3, h4⟩

theorem SumOk.add {R : Rounding K} (hR : R.Lawful) {b : K} {s v : Fl K} {n : Nat} (hs : SumOk R b s) (hv : EntryOk R n v) :
    SumOk R b (R.add s v) ∧ ∀ x, v = .fin x → SumOk R x (R.add s v) := by
  obtain ⟨x, rfl, hx, h1, -⟩ := hv
  rcases hs with rfl | ⟨y, rfl, hy, h2, h3⟩
  · exact ⟨.inl rfl, fun _ _ => .inl rfl⟩
  · have key : ∀ z, R.rnd z = .fin z → z ≤ y + x → 0 ≤ z → SumOk R z (R.add (.fin y) (.fin x)) := by
      intro z hz hle h0
      have hm := hR.mono hle
      rw [hz] at hm
      show SumOk R z (R.rnd (y + x))
      cases hr : R.rnd (y + x) with
      | nan => rw [hr] at hm; simp [Fl.le] at hm
      | ninf => rw [hr] at hm; simp [Fl.le] at hm
      | pinf => exact .inl rfl
      | fin w =>
        rw [hr] at hm
        have : z ≤ w := by simpa [Fl.le] using hm
        exact .inr ⟨w, rfl, hR.idem hr, this, h0.trans this⟩
    have h0 : (0 : K) ≤ x := zero_le_one.trans h1
    refine ⟨(key y hy (by linarith) h3).mono h2, fun z hz => ?_⟩
    cases hz
    exact key x hx (by linarith) h0

theorem sum_ok {R : Rounding K} (hR : R.Lawful) {n : Nat} : ∀ (l : List (Fl K)) (b : K) (s : Fl K), SumOk R b s →
    (∀ v ∈ l, EntryOk R n v) → SumOk R b (l.foldl R.add s) ∧ ∀ x, .fin x ∈ l → SumOk R x (l.foldl R.add s)
  | [], _, _, hs, _ => ⟨hs, by simp⟩
  | v :: l, b, s, hs, hl => by
    obtain ⟨h1, h2⟩ := hs.add hR (hl v (by simp))
    have hl' : ∀ v ∈ l, EntryOk R n v := fun w hw => hl w (by simp [hw])
    refine ⟨(sum_ok hR l b _ h1 hl').1, fun x hx => ?_⟩
    rcases List.mem_cons.mp hx with hx | hx
    · exact (sum_ok hR l x _ (h2 x hx.symm) hl').1
    · exact (sum_ok hR l b _ h1 hl').2 x hx

/-- Sensible statistics: one entry per size, each a number between one and `n`. -/
structure Stats.Ok (R : Rounding K) (maxsize n : Nat) (s : Stats K) : Prop where
  length : s.frequencies.length = maxsize
  entries : ∀ v ∈ s.frequencies, EntryOk R n v

theorem Stats.Ok.normalize {R : Rounding K} (hR : R.Lawful) {maxsize n : Nat} {s : Stats K} (h : s.Ok R maxsize n) :
    (maxsize = 0 ∨ (s.normalize R).normalized.length = maxsize) ∧
    ∀ f ∈ (s.normalize R).normalized, Fl.le (.fin 0) f = true ∧ f.le (.fin 1) = true := by
  have h0 : SumOk R 0 (.fin 0) := .inr ⟨0, rfl, hR.zero, le_refl _, le_refl _⟩
  obtain ⟨-, hsum⟩ := sum_ok hR s.frequencies 0 (.fin 0) h0 h.entries
  unfold Stats.normalize
  split
  · next hz =>
    constructor
    · left
      rw [← h.length]
      by_contra hne
      obtain ⟨v, hv⟩ := List.exists_mem_of_length_pos (Nat.pos_of_ne_zero hne)
      obtain ⟨x, rfl, -, h1, -⟩ := h.entries v hv
      rcases hsum x hv with e | ⟨y, e, -, h2, -⟩
      · rw [show R.sum s.frequencies = _ from e] at hz; simp [Fl.feq, Fl.le] at hz
      · rw [show R.sum s.frequencies = _ from e] at hz
        simp only [Fl.feq, Fl.le, Bool.and_eq_true, decide_eq_true_eq] at hz
        linarith [hz.1]
    · intro f hf
      simp only [List.mem_map] at hf
      obtain ⟨_, -, rfl⟩ := hf
      simp [Fl.le]
  · refine ⟨.inr (by simpa using h.length), ?_⟩
    intro f hf
    simp only [List.mem_map] at hf
    obtain ⟨v, hv, rfl⟩ := hf
    obtain ⟨x, rfl, -, h1, -⟩ := h.entries v hv
    rcases hsum x hv with e | ⟨y, e, -, h2, h3⟩
    · rw [show R.sum s.frequencies = _ from e]; simp [Rounding.div, Fl.le]
    · rw [show R.sum s.frequencies = _ from e]
      have hy : 0 < y := by linarith
      obtain ⟨z, e2, z1, z2, -⟩ := rnd_between hR hR.zero hR.one (div_nonneg (by linarith : (0 : K) ≤ x) hy.le)
        ((div_le_one hy).mpr h2)
      have : R.div (.fin x) (.fin y) = R.rnd (x / y) := by simp [Rounding.div, hy.ne']
      rw [this, e2]
      simp [Fl.le, z1, z2]

theorem Stats.Ok.new {R : Rounding K} (hR : R.Lawful) (maxsize w : Nat) : (Stats.new R maxsize w).Ok R maxsize 1 := by
  refine ⟨by simp [Stats.new], fun v hv => ?_⟩
  simp only [Stats.new] at hv
  rw [List.eq_of_mem_replicate hv]
  exact ⟨1, rfl, hR.one, le_refl _, by simp⟩

theorem Stats.Ok.update {R : Rounding K} (hR : R.Lawful) {B : Nat} (hB : R.CountsTo B) {maxsize n : Nat} {s : Stats K}
    (h : s.Ok R maxsize n) (sizes : List Nat) (hn : n + sizes.length ≤ B) :
    ((s.updateFromPopulation R sizes).moveWindow R).Ok R maxsize (n + sizes.length) := by
  obtain ⟨h1, h2⟩ := updateAll_ok hR hB sizes n s hn h.entries
  unfold Stats.moveWindow
  split
  · exact ⟨h2.trans h.length, h1⟩
  · obtain ⟨h3, h4⟩ := windowLoop_ok hR hB hn 1001 _ (R.sub (R.sum (s.updateFromPopulation R sizes).frequencies)
      (s.updateFromPopulation R sizes).windowSize) h1
    exact ⟨(h4.trans h2).trans h.length, h3⟩

/-! ## Tournaments -/

variable [E : Env K] {o : SOptions K} {d : Dataset K} {cur : Nat} {ops : List OpId} {N : Nat}

omit [IsStrictOrderedRing K] in
theorem weightedIndex_total {R : Rounding K} {ws : List (Fl K)} (h : Samplable R ws) :
    Rand.Total (weightedIndex R ws) fun _ => True := by
  obtain ⟨total, h1, h2, h3⟩ := h
  unfold weightedIndex
  split
  · next he =>
    rw [List.isEmpty_iff] at he
    subst he
    simp only [weightedTotal, Option.some.injEq] at h1
    subst h1
    simp [Fl.le] at h3
  rw [h1]
  simp only [h2, h3, Bool.not_true, Bool.or_false, Bool.false_eq_true, if_false]
  exact Rand.Total.bind (P := fun _ => True) (Rand.Total.float fun _ => trivial) fun _ _ => Rand.Total.pure trivial

/-- A tournament returns a member of the population. -/
theorem bestOfSample_total (hR : E.R.Lawful) (T : TourOk o) (hsize : 1 ≤ o.populationSize) {s : Stats K}
    {p : Population K} (hp : p.length = o.populationSize) (hcost : ∀ m ∈ p, m.cost.isNan = false)
    (hlen : o.maxsize = 0 ∨ s.normalized.length = o.maxsize)
    (hs : ∀ f ∈ s.normalized, Fl.le (.fin 0) f = true ∧ f.le (.fin 1) = true) :
    Rand.Total (bestOfSample E.R E.sort E.libm E.fuel o.tour s p) (· ∈ p) := by
  have hmul : ∀ (c : Fl K) (x : K), c.isNan = false → 0 < x → (E.R.mul c (.fin x)).isNan = false := by
    intro c x hc hx
    cases c with
    | nan => cases hc
    | fin y => exact hR.not_nan _
    | pinf => simp [Rounding.mul, Rounding.signInf, hx, Fl.isNan]
    | ninf => simp [Rounding.mul, Rounding.signInf, hx, hx.le, not_lt.mpr hx.le, Fl.isNan, Fl.neg]
  have hadj : ∀ m ∈ p, ∃ a, adjustedCost E.R E.libm o.tour s m = some a ∧
      (a.isNan = false ∨ SmallSorts E.sort ∧ min o.tour.n o.populationSize ≤ 20) := by
    intro m hm
    have hc := hcost m hm
    rw [adjustedCost]
    split
    · next hu =>
      split
      · next hcx =>
        have hin : m.complexity - 1 < s.normalized.length := by
          have := T.maxsize
          rcases hlen with h | h <;> omega
        rw [List.getElem?_eq_getElem hin]
        obtain ⟨f1, f2⟩ := hs _ (List.getElem_mem hin)
        refine ⟨_, rfl, ?_⟩
        rcases T.scale hu with h | h
        · obtain ⟨x, e, hx⟩ := h _ f1 f2
          exact .inl (by rw [e]; exact hmul _ _ hc hx)
        · exact .inr h
      · refine ⟨_, rfl, ?_⟩
        rcases T.scale hu with h | h
        · obtain ⟨x, e, hx⟩ := h (.fin 0) (by simp [Fl.le]) (by simp [Fl.le])
          exact .inl (by rw [e]; exact hmul _ _ hc hx)
        · exact .inr h
    · exact ⟨_, rfl, .inl hc⟩
  have hscored : ∀ l : List Nat, (∀ i ∈ l, i < p.length) →
      ∃ r, l.mapM (scoreIdx E.R E.libm o.tour s p) = some r ∧ r.length = l.length ∧
        ∀ e ∈ r, (e.1.isNan = false ∨ SmallSorts E.sort ∧ min o.tour.n o.populationSize ≤ 20) ∧ e.2 < p.length := by
    intro l hl
    induction l with
    | nil => exact ⟨[], rfl, rfl, by simp⟩
    | cons i l ih =>
      obtain ⟨r, h1, h2, h3⟩ := ih fun j hj => hl j (by simp [hj])
      have hi := hl i (by simp)
      obtain ⟨a, ha, han⟩ := hadj p[i] (List.getElem_mem hi)
      have hsi : scoreIdx E.R E.libm o.tour s p i = some (a, i) := by
        rw [scoreIdx, List.getElem?_eq_getElem hi]
        simp only [Option.bind_eq_bind, Option.bind_some, ha]
      refine ⟨(a, i) :: r, ?_, by simp [h2], ?_⟩
      · rw [List.mapM_cons, hsi, h1]; rfl
      · intro e he
        rcases List.mem_cons.mp he with rfl | he
        · exact ⟨han, hi⟩
        · exact h3 e he
  have hn := T.entrants
  rw [bestOfSample]
  refine Rand.Total.bind (P := fun sample => sample.length = min o.tour.n p.length ∧ ∀ i ∈ sample, i < p.length)
    ((Rand.Total.and_post (C33_sample_total E.fuel p.length (min o.tour.n p.length) (by
      rw [hp]
      rcases T.draw with h | h
      · left
        rw [show min (min o.tour.n o.populationSize) o.populationSize = min o.tour.n o.populationSize by omega]
        exact h
      · right; left; omega)) (C33_sample E.fuel p.length (min o.tour.n p.length))).mono ?_) ?_
  · rintro l ⟨-, h1, -, h2⟩
    exact ⟨by omega, h2⟩
  rintro sample ⟨hsl, hrange⟩
  obtain ⟨scored, hsc, hscl, hsce⟩ := hscored sample hrange
  refine Rand.Total.bind (Rand.Total.lift (P := fun r => r = scored) ⟨_, hsc, rfl⟩) ?_
  rintro r hr
  obtain rfl : scored = r := hr.symm
  have hk : scored.length = min o.tour.n o.populationSize := by omega
  refine Rand.Total.bind (P := fun _ => True) ?_ fun place _ => ?_
  · rw [sampleTournamentPlace, hk]
    split
    · exact Rand.Total.pure trivial
    · next h1 =>
      have h1a := fun h => h1 (.inl h)
      have h1b := fun h => h1 (.inr h)
      rcases T.place with h | h | ⟨h2, h3⟩
      · exact absurd h h1a
      · exact absurd h h1b
      rw [h2]
      simp only [Bool.false_eq_true, if_false]
      split
      · exact Rand.Total.pure trivial
      · next h4 =>
        rcases h3 with h3 | h3
        · exact absurd h3 h4
        · exact Rand.Total.bind (weightedIndex_total h3) fun _ _ => Rand.Total.pure trivial
  rw [if_neg (by omega)]
  obtain ⟨sorted, hsort⟩ : ∃ l', E.sort.run (fun a b : Fl K × Nat => a.1.cmpG b.1) scored = some l' := by
    by_cases hsm : SmallSorts E.sort ∧ min o.tour.n o.populationSize ≤ 20
    · exact hsm.1 _ _ (by omega)
    · have hnan : ∀ e ∈ scored, e.1.isNan = false := fun e he => (hsce e he).1.resolve_right hsm
      exact ⟨_, E.sort.sorted (fun a b : Fl K × Nat => a.1.cmpG b.1) scored
        (by
          intro a ha b hb
          exact Fl.cmpG_swap (hnan a ha) (hnan b hb))
        (by
          intro a ha b hb d hd
          rw [Fl.cmpG_ne_gt, Fl.cmpG_ne_gt, Fl.cmpG_ne_gt]
          exact Fl.le_trans)⟩
  have hperm := E.sort.perm _ _ _ hsort
  refine Rand.Total.bind (Rand.Total.lift (P := fun r => r = _) ⟨_, hsort, rfl⟩) ?_
  rintro srt hsrt
  obtain rfl : sorted = srt := hsrt.symm
  have hidx : min (place - 1) (scored.length - 1) < sorted.length := by
    rw [hperm.length_eq]; omega
  have hfin := (hsce _ (hperm.mem_iff.mp (List.getElem_mem hidx))).2
  refine Rand.Total.bind (Rand.Total.lift (P := fun r => r = _) ⟨_, List.getElem?_eq_getElem hidx, rfl⟩) ?_
  rintro _ rfl
  exact Rand.Total.lift ⟨_, List.getElem?_eq_getElem hfin, List.getElem_mem hfin⟩

/-! ## Mutation weights -/

/-- A number of the format between zero and the second. -/
def Below (R : Rounding K) (a b : Fl K) : Prop := ∃ x y : K, a = .fin x ∧ b = .fin y ∧ R.rnd x = .fin x ∧ 0 ≤ x ∧ x ≤ y

omit [IsStrictOrderedRing K] in
theorem Below.refl {R : Rounding K} {a : Fl K} {x : K} (h : a = .fin x) (hr : R.rnd x = .fin x) (h0 : 0 ≤ x) : Below R a a :=
  ⟨x, x, h, h, hr, h0, le_refl _⟩

omit [IsStrictOrderedRing K] in
theorem Below.zeroIf {R : Rounding K} (hR : R.Lawful) {a : Fl K} (h : Below R a a) (c : Bool) : Below R (zeroIf c a) a := by
  obtain ⟨x, y, h1, h2, h3, h4, h5⟩ := h
  cases c with
  | false => exact ⟨x, y, h1, h2, h3, h4, h5⟩
  | true => exact ⟨0, y, rfl, h2, hR.zero, le_refl _, h4.trans h5⟩

theorem weightedTotal_below {R : Rounding K} (hR : R.Lawful) : ∀ (ws ws' : List (Fl K)) (s s' : K) (tot' : Fl K),
    List.Forall₂ (Below R) ws ws' → R.rnd s = .fin s → 0 ≤ s → s ≤ s' → weightedTotal R ws' (.fin s') = some tot' →
    tot'.isFinite = true → ∃ tot : K, weightedTotal R ws (.fin s) = some (.fin tot) ∧ s ≤ tot ∧
      ∀ x, .fin x ∈ ws → x ≤ tot
  | [], [], s, s', tot', _, _, _, _, _, _ => ⟨s, rfl, le_refl _, by simp⟩
  | w :: ws, w' :: ws', s, s', tot', h, hs, hs0, hle, ht, hfin => by
    cases h with
    | cons h1 h2 =>
    obtain ⟨x, y, rfl, rfl, hx, hx0, hxy⟩ := h1
    rw [weightedTotal] at ht ⊢
    have hy : Fl.lt (.fin y) (.fin 0 : Fl K) = false := by simp [Fl.lt]; linarith
    have hx' : Fl.lt (.fin x) (.fin 0 : Fl K) = false := by simp [Fl.lt]; linarith
    simp only [Fl.isFinite, hy, hx', Bool.not_true, Bool.or_self, Bool.false_eq_true, if_false] at ht ⊢
    have hm := hR.mono (add_le_add hle hxy)
    have hms := hR.mono (show s ≤ s + x by linarith)
    have hmx := hR.mono (show x ≤ s + x by linarith)
    rw [hs] at hms
    rw [hx] at hmx
    change weightedTotal R ws' (R.rnd (s' + y)) = _ at ht
    show ∃ tot : K, weightedTotal R ws (R.rnd (s + x)) = _ ∧ _
    have fin' : ∃ z', R.rnd (s' + y) = .fin z' := by
      cases hz : R.rnd (s' + y) with
      | fin z => exact ⟨z, rfl⟩
      | nan => have := hR.not_nan (s' + y); rw [hz] at this; cases this
      | ninf =>
        rw [hz] at hm
        cases hq : R.rnd (s + x) with
        | fin z => rw [hq] at hm; simp [Fl.le] at hm
        | nan => have := hR.not_nan (s + x); rw [hq] at this; cases this
        | ninf => rw [hq] at hms; simp [Fl.le] at hms
        | pinf => rw [hq] at hm; simp [Fl.le] at hm
      | pinf =>
        exfalso
        rw [hz] at ht
        clear * - ht hfin
        have : ∀ (ws : List (Fl K)), weightedTotal R ws .pinf = some tot' → tot'.isFinite = false := by
          intro ws
          induction ws with
          | nil => intro h; cases h; rfl
          | cons w ws ih =>
            intro h
            rw [weightedTotal] at h
            split at h
            · cases h
            · next hw =>
              cases w with
              | fin z => exact ih h
              | _ => simp [Fl.isFinite] at hw
        rw [this _ ht] at hfin
        cases hfin
    obtain ⟨z', hz'⟩ := fin'
    rw [hz'] at hm ht
    have fin1 : ∃ z, R.rnd (s + x) = .fin z := by
      cases hq : R.rnd (s + x) with
      | fin z => exact ⟨z, rfl⟩
      | nan => have := hR.not_nan (s + x); rw [hq] at this; cases this
      | ninf => rw [hq] at hms; simp [Fl.le] at hms
      | pinf => rw [hq] at hm; simp [Fl.le] at hm
    obtain ⟨z, hz⟩ := fin1
    rw [hz] at hm hms hmx ⊢
    have e1 : z ≤ z' := by simpa [Fl.le] using hm
    have e2 : s ≤ z := by simpa [Fl.le] using hms
    have e3 : x ≤ z := by simpa [Fl.le] using hmx
    obtain ⟨tot, k1, k2, k3⟩ := weightedTotal_below hR ws ws' z z' tot' h2 (hR.idem hz) (hs0.trans e2) e1 ht hfin
    refine ⟨tot, k1, e2.trans k2, fun v hv => ?_⟩
    rcases List.mem_cons.mp hv with hv | hv
    · cases hv; exact e3.trans k2
    · exact k3 v hv

/-- Whatever is switched off for a member, a mutation can be drawn. -/
theorem DrawableWeights.conditioned (W : DrawableWeights o) (hR : E.R.Lawful) (m : Member K) (cur nf : Nat) :
    Samplable E.R ((conditionWeights o m cur nf o.weights).choices.map Prod.snd) := by
  obtain ⟨total, t1, t2, -⟩ := W.drawable
  have hnn : ∀ w ∈ o.weights.choices.map Prod.snd, Below E.R w w := by
    intro w hw
    obtain ⟨x, rfl, hx⟩ := W.numbers w hw
    refine Below.refl rfl hx ?_
    have : ∀ (ws : List (Fl K)) (s : Fl K), weightedTotal E.R ws s = some total → ∀ x, .fin x ∈ ws → 0 ≤ x := by
      intro ws
      induction ws with
      | nil => simp
      | cons w ws ih =>
        intro s h x hx
        rw [weightedTotal] at h
        split at h
        · cases h
        · next hw' =>
          rcases List.mem_cons.mp hx with hx | hx
          · subst hx
            by_contra hc
            exact hw' (by simp [Fl.lt, not_le.mp hc])
          · exact ih _ h x hx
    exact this _ _ t1 x hw
  have H := hnn
  simp only [MutWeights.choices, List.map_cons, List.map_nil, List.mem_cons, List.not_mem_nil, or_false,
    forall_eq_or_imp, forall_eq] at H
  obtain ⟨b1, b2, b3, b4, b5, b6, b7, b8, b9, b10, b11, b12⟩ := H
  have hzero : ∀ {w : Fl K}, Below E.R w w → Below E.R (.fin 0) w := fun h => h.zeroIf hR true
  have hmc : Below E.R (E.R.mul o.weights.mutateConstant
      (E.R.div (E.R.ofNat (min (countConstants m.expr.nodes) 8)) (E.R.ofNat 8))) o.weights.mutateConstant := by
    obtain ⟨x, y, h1, h2, h3, h4, h5⟩ := b1
    rw [h1, Fl.fin.injEq] at h2
    subst h2
    have h8 : E.R.ofNat 8 = .fin 8 := by show E.R.rnd ((8 : Nat) : K) = _; rw [← W.eight]; norm_num
    have hk : ((min (countConstants m.expr.nodes) 8 : Nat) : K) ≤ 8 := by
      have : min (countConstants m.expr.nodes) 8 ≤ 8 := Nat.min_le_right _ _
      exact_mod_cast this
    obtain ⟨k, e1, k1, k2, -⟩ := rnd_between hR hR.zero W.eight (Nat.cast_nonneg (min (countConstants m.expr.nodes) 8)) hk
    have e1' : E.R.ofNat (min (countConstants m.expr.nodes) 8) = .fin k := e1
    rw [e1', h8, h1]
    have h80 : (8 : K) ≠ 0 := by norm_num
    have : E.R.div (.fin k) (.fin 8) = E.R.rnd (k / 8) := by simp [Rounding.div, h80]
    rw [this]
    obtain ⟨q, e2, q1, q2, -⟩ := rnd_between hR hR.zero hR.one (div_nonneg k1 (by norm_num : (0 : K) ≤ 8))
      ((div_le_one (by norm_num)).mpr k2)
    rw [e2]
    obtain ⟨z, e3, z1, z2, z3⟩ := rnd_between hR hR.zero h3 (mul_nonneg h4 q1) (mul_le_of_le_one_right h4 q2)
    exact ⟨z, x, e3, rfl, z3, z1, z2⟩
  have hrel : List.Forall₂ (Below E.R) ((conditionWeights o m cur nf o.weights).choices.map Prod.snd)
      (o.weights.choices.map Prod.snd) := by
    unfold conditionWeights
    split
    · unfold MutWeights.leaf
      simp only
      split
      · exact .cons (hzero b1) (.cons (hzero b2) (.cons b3 (.cons (hzero b4) (.cons b5 (.cons b6 (.cons b7
          (.cons (hzero b8) (.cons (hzero b9) (.cons b10 (.cons b11 (.cons (hzero b12) .nil)))))))))))
      · exact .cons b1 (.cons (hzero b2) (.cons (hzero b3) (.cons (hzero b4) (.cons b5 (.cons b6 (.cons b7
          (.cons (hzero b8) (.cons (hzero b9) (.cons b10 (.cons b11 (.cons b12 .nil)))))))))))
    · exact .cons hmc (.cons b2 (.cons (b3.zeroIf hR _) (.cons (b4.zeroIf hR _) (.cons b5 (.cons (b6.zeroIf hR _)
        (.cons (b7.zeroIf hR _) (.cons b8 (.cons (b9.zeroIf hR _) (.cons b10 (.cons b11
          (.cons (b12.zeroIf hR _) .nil)))))))))))
  obtain ⟨tot, k1, -, k3⟩ := weightedTotal_below hR _ _ 0 0 total hrel hR.zero (le_refl _) (le_refl _) t1 t2
  refine ⟨.fin tot, k1, rfl, ?_⟩
  have hkeep : (conditionWeights o m cur nf o.weights).rotateTree = o.weights.rotateTree ∧
      (conditionWeights o m cur nf o.weights).randomize = o.weights.randomize ∧
      (conditionWeights o m cur nf o.weights).doNothing = o.weights.doNothing := by
    unfold conditionWeights
    split
    · unfold MutWeights.leaf
      simp only
      split <;> exact ⟨rfl, rfl, rfl⟩
    · exact ⟨rfl, rfl, rfl⟩
  have hpos : ∀ w : Fl K, w ∈ (conditionWeights o m cur nf o.weights).choices.map Prod.snd → Below E.R w w →
      Fl.lt (.fin 0) w = true → 0 < tot := by
    rintro w hw ⟨x, y, rfl, -⟩ hlt
    have : 0 < x := by simpa [Fl.lt] using hlt
    exact this.trans_le (k3 x hw)
  have : 0 < tot := by
    rcases W.always with h | h | h
    · exact hpos _ (by rw [← hkeep.1]; simp [MutWeights.choices]) b5 h
    · exact hpos _ (by rw [← hkeep.2.1]; simp [MutWeights.choices]) b10 h
    · exact hpos _ (by rw [← hkeep.2.2]; simp [MutWeights.choices]) b11 h
  simp [Fl.le, this]

/-! ## Evolution -/

/-- Normalised statistics a tournament can use. -/
def Stats.Usable (o : SOptions K) (s : Stats K) : Prop :=
  (o.maxsize = 0 ∨ s.normalized.length = o.maxsize) ∧
    ∀ f ∈ s.normalized, Fl.le (.fin 0) f = true ∧ f.le (.fin 1) = true

/-- A population evolution can work on. -/
structure EvolState.Steady (o : SOptions K) (d : Dataset K) (ops : List OpId) (N : Nat) (st : EvolState K) : Prop where
  ok : st.Ok d ops N
  sound : ∀ m ∈ st.pop, m.Sound o d ops N
  size : st.pop.length = o.populationSize

theorem EvolMove.steady {st st' : EvolState K} (h : EvolMove o d cur ops N st st') (hst : st.Steady o d ops N) :
    st'.Steady o d ops N :=
  ⟨(h.keeps hst.ok).1, h.sound hst.sound, (h.keeps hst.ok).2.1.trans hst.size⟩

theorem evolStep_total (Q : RunSetting o d ops N) (hcur : cur ≤ o.maxsize) (temperature : Fl K) {s : Stats K}
    (hs : s.Usable o) (st : EvolState K) (hst : st.Steady o d ops N) :
    Rand.Total (evolStep o d cur temperature s st) (fun st' => st'.Steady o d ops N) := by
  have S := Q.search.evol.down hcur
  have hb : Rand.Total (bestOfSample E.R E.sort E.libm E.fuel o.tour s st.pop) (· ∈ st.pop) :=
    bestOfSample_total Q.search.formats.1 Q.tour Q.search.populationSize hst.size
      (fun m hm => (hst.sound m hm).cost_not_nan Q.search.evol Q.search.costs) hs.1 hs.2
  have htot : Rand.Total (evolStep o d cur temperature s st) (fun _ => True) := by
    unfold evolStep
    refine Rand.Total.bind (P := fun _ => True) (Rand.Total.float fun _ => trivial) fun u _ => ?_
    split
    · unfold mutationStep
      refine Rand.Total.bind hb fun a ha => ?_
      refine Rand.Total.bind (C35_generation Q.search.formats Q.search.ls S a (hst.ok.pop a ha) temperature s st.ev
        hst.ok.ev st.counters (Q.weights.conditioned Q.search.formats.1 a cur d.x.rows)) fun r _ => ?_
      split
      · exact Rand.Total.pure trivial
      · obtain ⟨i, m, -, h, -⟩ := C29_replace_oldest st.pop (by
          intro h; have := hst.size; have := Q.two; rw [h] at *; simp at *; omega) r.baby
        refine Rand.Total.bind (Rand.Total.lift (P := fun _ => True) ⟨_, h, trivial⟩) fun _ _ => Rand.Total.pure trivial
    · unfold crossoverStep
      refine Rand.Total.bind hb fun a1 h1 => ?_
      refine Rand.Total.bind hb fun a2 h2 => ?_
      refine Rand.Total.bind (C35_crossover S a1 a2 (hst.ok.pop a1 h1) (hst.ok.pop a2 h2) st.ev
        hst.ok.ev st.counters) fun r _ => ?_
      split
      · exact Rand.Total.pure trivial
      · obtain ⟨i1, i2, m1, m2, -, -, -, h, -⟩ := C29_replace_two_oldest st.pop (by rw [hst.size]; exact Q.two) r.baby1 r.baby2
        refine Rand.Total.bind (Rand.Total.lift (P := fun _ => True) ⟨_, h, trivial⟩) fun _ _ => Rand.Total.pure trivial
  exact (htot.and_post (C36_step Q.search.formats Q.search.ls S temperature s st hst.ok)).mono
    fun st' h => h.2.steady hst

theorem evolLoop_total (Q : RunSetting o d ops N) (hcur : cur ≤ o.maxsize) (temperature : Fl K) {s : Stats K}
    (hs : s.Usable o) : ∀ (k : Nat) (st : EvolState K), st.Steady o d ops N →
    Rand.Total (evolLoop o d cur temperature s k st) (fun st' => st'.Steady o d ops N)
  | 0, st, h => Rand.Total.pure h
  | k + 1, st, h => by
    unfold evolLoop
    exact Rand.Total.bind (evolStep_total Q hcur temperature hs st h) fun st1 h1 =>
      evolLoop_total Q hcur temperature hs k st1 h1

theorem srLoop_total (Q : RunSetting o d ops N) (hcur : cur ≤ o.maxsize) {s : Stats K} (hs : s.Usable o) (n : Nat) :
    ∀ (k : Nat) (st : EvolState K) (best : Hall K), st.Steady o d ops N → best.Sound o d ops N →
    Rand.Total (srLoop o d cur s n k st best) (fun r => r.1.Steady o d ops N)
  | 0, st, best, h, _ => Rand.Total.pure h
  | k + 1, st, best, h, hb => by
    unfold srLoop
    refine Rand.Total.bind (evolLoop_total Q hcur _ hs _ st h) fun st1 h1 => ?_
    obtain ⟨b', e, hb'⟩ := update_sound Q.search.evol hcur st1.pop hb h1.sound
    refine Rand.Total.bind (Rand.Total.lift (P := fun r => r = _) ⟨_, e, rfl⟩) ?_
    rintro b hbb
    rw [hbb]
    exact srLoop_total Q hcur hs n k st1 b' h1 hb'

theorem srCycle_total (Q : RunSetting o d ops N) (hcur : cur ≤ o.maxsize) {s : Stats K} (hs : s.Usable o)
    (st : EvolState K) (h : st.Steady o d ops N) :
    Rand.Total (srCycle o d cur s st) (fun r => r.1.Steady o d ops N) := by
  unfold srCycle
  obtain ⟨b', e, hb'⟩ := update_sound Q.search.evol hcur st.pop (Hall.Sound.new (d := d) (ops := ops) (N := N)) h.sound
  refine Rand.Total.bind (Rand.Total.lift (P := fun r => r = _) ⟨_, e, rfl⟩) ?_
  rintro b hbb
  rw [hbb]
  exact srLoop_total Q hcur hs _ _ st b' h hb'

/-! ## Tasks -/

/-- A task that cannot panic. -/
structure Task.Steady (o : SOptions K) (d : Dataset K) (ops : List OpId) (N : Nat) (t : Task K) : Prop where
  sound : t.Sound o d ops N
  stats : t.stats.Usable o
  ctx : o.shouldOptimizeConstants = true → CtxSafe d t.ps.ctx

theorem Task.run_total (Q : RunSetting o d ops N) {t : Task K} (ht : t.Steady o d ops N) :
    ∃ r, t.run o d = some r ∧ (o.shouldOptimizeConstants = true → CtxSafe d r.ps.ctx) := by
  have htot : Rand.Total (taskBody o d t) fun x => o.shouldOptimizeConstants = true → CtxSafe d x.2.1 := by
    unfold taskBody
    have hph : ∀ b, phaseDataset o d b = pure (d, b) := by
      intro b; unfold phaseDataset; rw [Q.search.batching]; rfl
    rw [hph]
    refine Rand.Total.bind (P := fun x => x = (d, t.ps.batch)) (Rand.Total.pure rfl) ?_
    rintro _ rfl
    refine Rand.Total.bind (srCycle_total Q ht.sound.cur ht.stats ⟨t.ps.pop, t.ps.ev, t.ps.counters, 0⟩
      ⟨⟨fun m hm => (ht.sound.ps.pop m hm).good, ht.sound.ps.ev⟩, ht.sound.ps.pop, ht.sound.ps.size⟩) ?_
    rintro ⟨st, seen⟩ hst
    simp only at hst ⊢
    rw [hph]
    refine Rand.Total.bind (P := fun x => x = (d, t.ps.batch)) (Rand.Total.pure rfl) ?_
    rintro _ rfl
    have S := Q.search.evol
    refine Rand.Total.bind ((optimizeAndSimplify_total Q.search.formats Q.search.ls S t.ps.ctx st hst.ok.pop
      hst.ok.ev.2 ht.ctx).and_post (C58_rescored S d S.data rfl S.rows t.ps.ctx st hst.ok.pop hst.ok.ev.2)) ?_
    rintro ⟨st2, ctx⟩ ⟨k0, k1, -⟩
    simp only at k0 k1 ⊢
    have hcost : ∀ m ∈ st2.pop, m.cost.isNan = false := by
      intro m hm
      have := (List.forall₂_iff_get.mp k1)
      obtain ⟨i, hi, rfl⟩ := List.mem_iff_getElem.mp hm
      have h := this.2 i (this.1 ▸ hi) hi
      exact (h.scored.sound h.good).cost_not_nan S Q.search.costs
    obtain ⟨best, _, hb, -⟩ := C30_best_sub_pop E.sort st2.pop o.topn hcost
    exact Rand.Total.bind (Rand.Total.lift (P := fun _ => True) ⟨_, hb, trivial⟩) fun _ _ => Rand.Total.pure k0
  obtain ⟨x, g, h1, h2⟩ := htot t.ps.rng
  exact ⟨_, by rw [Task.run, h1]; rfl, h2⟩

/-! ## The shared state -/

/-- The shared state of a search that cannot panic, after `completed` results. -/
structure Shared.Steady (o : SOptions K) (d : Dataset K) (ops : List OpId) (N : Nat) (s : Shared K) : Prop where
  sound : s.Sound o d ops N
  stats : s.stats.Ok E.R o.maxsize (1 + s.counters.completed * o.populationSize)
  ctx : o.shouldOptimizeConstants = true → ∀ ps, some ps ∈ s.pops → CtxSafe d ps.ctx

omit [IsStrictOrderedRing K] in
theorem CtxSafe.new : CtxSafe d (DContext.new d.x.cols : DContext (Fl K)) :=
  ⟨by simp [DContext.ScratchWF, DContext.new, Buf.zeros, Buf.WF],
    .inl rfl⟩

theorem init_steady (Q : RunSetting o d ops N) (seeds : Nat → Rng (Fl K)) :
    ∃ s, Shared.init o d seeds = some s ∧ s.Steady o d ops N ∧ s.Fresh o o.populations := by
  obtain ⟨s, h1, h2, h3, h4, -⟩ := init_total Q.search.evol Q.search.init Q.search.costs Q.search.populations
    Q.search.populationSize seeds
  refine ⟨s, h1, ⟨h2, ?_, ?_⟩, h3⟩
  · have : s.stats = Stats.new E.R o.maxsize 100000 := by
      unfold Shared.init at h1
      simp only [Option.bind_eq_bind, Option.bind_eq_some_iff, Option.some.injEq] at h1
      obtain ⟨_, -, _, -, _, -, rfl⟩ := h1
      rfl
    rw [this, h3.completed, Nat.zero_mul, Nat.add_zero]
    exact Stats.Ok.new Q.search.formats.1 _ _
  · intro _ ps hps
    obtain ⟨i, hi⟩ := List.mem_iff_getElem?.mp hps
    rw [(h4 i ps hi).ctx]
    exact CtxSafe.new

omit [IsStrictOrderedRing K] in
theorem getCurMaxsize_total (h : Fl.lt (.fin 0) o.warmupMaxsizeBy = true → 3 ≤ o.maxsize) (total remaining : Nat) :
    ∃ c, getCurMaxsize o total remaining = some c := by
  unfold getCurMaxsize
  simp only
  split
  · next hc =>
    rw [Bool.and_eq_true] at hc
    rw [if_neg (by have := h hc.1; omega)]
    exact ⟨_, rfl⟩
  · exact ⟨_, rfl⟩

omit [IsStrictOrderedRing K] in
/-- A dispatch returns. -/
theorem dispatch_total (h : Fl.lt (.fin 0) o.warmupMaxsizeBy = true → 3 ≤ o.maxsize) {s : Shared K} {i : Nat}
    (hi : i < s.pops.length) : ∃ r, s.dispatch o i = some r := by
  unfold Shared.dispatch
  rw [List.getElem?_eq_getElem hi]
  simp only [Option.bind_eq_bind, Option.bind_some]
  cases s.pops[i] with
  | none => exact ⟨_, rfl⟩
  | some ps =>
    obtain ⟨c, hc⟩ := getCurMaxsize_total h s.counters.total (s.counters.total - s.counters.started)
    simp only [hc, Option.bind_some]
    exact ⟨_, rfl⟩

theorem dispatch_steady (Q : RunSetting o d ops N) {s s' : Shared K} {i : Nat} {t : Task K} (hs : s.Steady o d ops N)
    (h : s.dispatch o i = some (some t, s')) : t.Steady o d ops N ∧ s'.Steady o d ops N := by
  obtain ⟨k1, k2⟩ := dispatch_sound Q.search hs.sound h
  obtain ⟨h1, -, h3, -, rfl⟩ := dispatch_task h
  refine ⟨⟨k1, ?_, fun hc => hs.ctx hc _ (List.mem_of_getElem? h1)⟩, k2, hs.stats, ?_⟩
  · rw [h3]; exact hs.stats.normalize Q.search.formats.1
  · intro hc ps hps
    rcases List.mem_or_eq_of_mem_set hps with hps | hps
    · exact hs.ctx hc ps hps
    · cases hps

theorem apply_steady (Q : RunSetting o d ops N) {s s' : Shared K} {r : TaskResult K} (hs : s.Steady o d ops N)
    (hr : r.Sound o d ops N) (hc : o.shouldOptimizeConstants = true → CtxSafe d r.ps.ctx)
    (hn : s.counters.completed + 1 ≤ o.niterations * o.populations)
    (h : s.apply o r = some s') : s'.Steady o d ops N := by
  have hsnd := apply_sound Q.search.evol hs.sound hr h
  obtain ⟨-, -, a3, a4, -, -, -, pop, counters, rng, -, a8⟩ := apply_result h
  refine ⟨hsnd, ?_, ?_⟩
  · rw [a3, a4]
    have hl : (r.ps.pop.map (·.complexity)).length = o.populationSize := by rw [List.length_map]; exact hr.ps.size
    have := hs.stats.update Q.search.formats.1 Q.counts (r.ps.pop.map (·.complexity)) (by
      rw [hl]
      have := Nat.mul_le_mul_right o.populationSize hn
      rw [Nat.succ_mul] at this
      omega)
    rw [hl] at this
    show Stats.Ok _ _ (1 + (s.counters.completed + 1) * o.populationSize) _
    rwa [Nat.succ_mul, ← Nat.add_assoc]
  · intro hcc ps hps
    rw [a8] at hps
    rcases List.mem_or_eq_of_mem_set hps with hps | hps
    · exact hs.ctx hcc ps hps
    · simp only [Option.some.injEq] at hps
      subst hps
      exact hc hcc

omit [IsStrictOrderedRing K] in
theorem migrate_stuck {dst migrants : List (Member K)} {frac : Fl K} {c : Counters} {g : Rng (Fl K)}
    (hl : dst.length = o.populationSize) (h : migrate dst migrants frac c g = none) : SamplerStuck o frac g := by
  unfold migrate at h
  rw [migrateInto] at h
  by_cases h1 : migrants.isEmpty = true
  · rw [if_pos h1] at h; cases h
  rw [if_neg h1] at h
  by_cases h2 : frac.le (.fin 0) = true
  · rw [if_pos h2] at h; cases h
  rw [if_neg h2] at h
  by_cases h3 : dst.isEmpty = true
  · rw [if_pos h3] at h; cases h
  rw [if_neg h3] at h
  split at h
  · cases h
  · rw [SamplerStuck, ← hl]
    cases hn : poissonSample E.R E.libm E.ptrs E.fuel (E.R.mul (E.R.ofNat dst.length) frac) g with
    | none => rfl
    | some x =>
      rw [Rand.run_bind, hn] at h
      obtain ⟨a, g'', e, _⟩ := migrateLoop_total (F := Fl K) migrants (by simpa using h1)
        (min (min x.1 dst.length) migrants.length) dst c (by simpa using h3) x.2
      simp only [e] at h
      cases h

/-- Absorbing sound members returns. -/
theorem absorb_total (S : EvolSetting o d o.maxsize ops N) (hcur : cur ≤ o.maxsize) : ∀ (ms : List (Member K))
    (h : Hall K) (b : Member K), (∀ m ∈ ms, m.Sound o d ops N) → h.Sound o d ops N →
    ∃ r, absorbMembers o cur ms (h, b) = some r
  | [], h, b, _, _ => ⟨_, rfl⟩
  | m :: ms, h, b, hm, hh => by
    obtain ⟨h1, e1, s1⟩ := consider_sound S hcur hh (hm m (by simp))
    obtain ⟨ok, e2, -⟩ := checkConstraints_feasible S hcur (hm m (by simp)).good
    obtain ⟨r, e3⟩ := absorb_total S hcur ms h1 (if ok && m.loss.lt b.loss then m else b)
      (fun x hx => hm x (by simp [hx])) s1
    exact ⟨r, by rw [absorbMembers, e1]; simp only [Option.bind_eq_bind, Option.bind_some]; rw [e2]; exact e3⟩

/-- Applying a result returns, unless the sampler of a migration is stuck. -/
theorem apply_stuck (Q : RunSetting o d ops N) {s : Shared K} {r : TaskResult K} (hs : s.Sound o d ops N)
    (hr : r.Sound o d ops N) (hi : r.popIdx < s.bestSub.length ∧ r.popIdx < s.pops.length)
    (h : s.apply o r = none) : ApplyStuck o s r := by
  have S := Q.search.evol
  unfold Shared.apply at h
  rw [if_pos hi] at h
  obtain ⟨hall, e1, s1⟩ := update_sound S hr.cur r.bestSeen.members hs.hall hr.seen.members
  obtain ⟨⟨hall', best⟩, e2⟩ := absorb_total S hr.cur r.ps.pop hall s.best hr.ps.pop s1
  simp only [Option.bind_eq_bind, e1, e2, Option.bind_some] at h
  have hm : migrations o (migrationCandidates (s.bestSub.set r.popIdx r.bestSub) r.popIdx) hall'.paretoFront r.ps.pop
      r.ps.counters r.ps.rng = none := by
    cases hh : migrations o (migrationCandidates (s.bestSub.set r.popIdx r.bestSub) r.popIdx) hall'.paretoFront r.ps.pop
      r.ps.counters r.ps.rng with
    | none => rfl
    | some x => rw [hh] at h; cases h
  unfold migrations at hm
  have hof : ∀ (p : Population K) (c : Counters) (g : Rng (Fl K)), p.length = o.populationSize →
      (if o.hofMigration then migrate p hall'.paretoFront o.fractionReplacedHof c else pure (p, c) :
        Rand (Fl K) (Population K × Counters)) g = none →
      o.hofMigration = true ∧ SamplerStuck o o.fractionReplacedHof g := by
    intro p c g hl hn
    split at hn
    · next hh => exact ⟨hh, migrate_stuck hl hn⟩
    · cases hn
  split at hm
  · next hmig =>
    rw [Rand.run_bind] at hm
    split at hm
    · next hn => exact .inl ⟨hmig, migrate_stuck hr.ps.size hn⟩
    · next p g he =>
      obtain ⟨h1, h2⟩ := hof _ _ _ ((C30_migrate E.R _ _ _ _ _ _ _ _ he).1.trans hr.ps.size) hm
      exact .inr ⟨h1, p, g, by rw [if_pos hmig]; exact he, h2⟩
  · next hmig =>
    obtain ⟨h1, h2⟩ := hof _ _ _ hr.ps.size hm
    exact .inr ⟨h1, _, r.ps.rng, by rw [if_neg hmig]; rfl, h2⟩

end SR
