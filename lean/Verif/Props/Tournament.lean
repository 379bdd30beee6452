import Verif.Props.Random
import Verif.Model.Population
import Mathlib.Data.List.Forall2
/-
C31 (tournament selection).
-/
namespace SR
variable {K : Type} [Field K] [LinearOrder K]

/-- The adjusted cost: the cost, multiplied by `exp (scaling · frequency of its complexity)` when enabled (the
frequency of a complexity outside `1..maxsize` counts as zero). -/
def IsAdjusted (R : Rounding K) (exp : Fl K → Fl K) (o : TourOptions K) (normalized : List (Fl K))
    (m : Member K) (a : Fl K) : Prop :=
  (o.useFrequency = false ∧ a = m.cost) ∨
  (o.useFrequency = true ∧ ∃ f, a = R.mul m.cost (exp (R.mul o.scaling f)) ∧
    ((1 ≤ m.complexity ∧ m.complexity ≤ o.maxsize ∧ normalized[m.complexity - 1]? = some f) ∨
     ((m.complexity = 0 ∨ o.maxsize < m.complexity) ∧ f = .fin 0)))

theorem adjustedCost_spec (R : Rounding K) (lib : Libm K) (o : TourOptions K) (s : Stats K) (m : Member K)
    (a : Fl K) : adjustedCost R lib o s m = some a ↔ IsAdjusted R lib.exp o s.normalized m a := by
  rw [adjustedCost, IsAdjusted]
  by_cases hu : o.useFrequency = true
  · rw [if_pos hu]
    simp only [hu, Bool.true_eq_false, false_and, true_and, false_or]
    by_cases hc : 0 < m.complexity ∧ m.complexity ≤ o.maxsize
    · rw [if_pos hc]
      cases hn : s.normalized[m.complexity - 1]? with
      | none =>
        simp only [reduceCtorEq, false_iff, not_exists]
        rintro f ⟨_, h | h⟩
        · simp at h
        · omega
      | some f =>
        constructor
        · intro h
          simp at h
          exact ⟨f, h.symm, .inl ⟨hc.1, hc.2, rfl⟩⟩
        · rintro ⟨f', h1, h | h⟩
          · simp at h; rw [h1, h.2.2]
          · omega
    · rw [if_neg hc]
      constructor
      · intro h
        simp at h
        exact ⟨.fin 0, h.symm, .inr ⟨by omega, rfl⟩⟩
      · rintro ⟨f, h1, h | h⟩
        · exact absurd ⟨h.1, h.2.1⟩ hc
        · rw [h1, h.2]
  · rw [if_neg hu]
    simp [hu, eq_comm]

omit [Field K] [LinearOrder K] in
theorem mapM_forall₂ {α β : Type} (f : α → Option β) : ∀ (l : List α) (r : List β), l.mapM f = some r →
    List.Forall₂ (fun a b => f a = some b) l r := by
  intro l
  induction l with
  | nil => intro r h; simp at h; subst h; exact .nil
  | cons a l ih =>
    intro r h
    rw [List.mapM_cons] at h
    cases ha : f a with
    | none => rw [ha] at h; simp at h
    | some b =>
      rw [ha] at h
      cases hl : l.mapM f with
      | none => rw [hl] at h; simp at h
      | some bs =>
        rw [hl] at h
        simp at h
        subst h
        exact .cons ha (ih bs hl)

omit [Field K] in
/-- The rank of the entry at place `k` of a sorted list. -/
theorem rank_of_sorted {α : Type} (key : α → Fl K) (l : List α)
    (hs : l.Pairwise fun a b => (key a).le (key b) = true) (hn : ∀ a ∈ l, (key a).isNan = false) (k : Nat)
    (e : α) (hk : l[k]? = some e) :
    l.countP (fun a => (key a).lt (key e)) ≤ k ∧ k < l.countP (fun a => (key a).le (key e)) := by
  have hlt : k < l.length := by
    by_contra hh
    rw [List.getElem?_eq_none (by omega)] at hk; simp at hk
  rw [List.getElem?_eq_getElem hlt] at hk
  simp at hk
  have hsplit : l = l.take k ++ e :: l.drop (k + 1) := by
    conv_lhs => rw [← List.take_append_drop k l, List.drop_eq_getElem_cons hlt]
    rw [hk]
  rw [hsplit] at hs
  have h1 := List.pairwise_append.mp hs
  have h2 := List.pairwise_cons.mp h1.2.1
  have hen : (key e).isNan = false := hn e (by rw [hsplit]; simp)
  constructor
  · rw [hsplit, List.countP_append, List.countP_cons]
    have z : (l.drop (k + 1)).countP (fun a => (key a).lt (key e)) = 0 := by
      rw [List.countP_eq_zero]
      intro a ha
      have han := hn a (List.mem_of_mem_drop ha)
      have := (Fl.le_iff hen han).mp (h2.1 a ha)
      simp [this]
    have t : (l.take k).countP (fun a => (key a).lt (key e)) ≤ k := by
      refine List.countP_le_length.trans ?_
      simp
    rw [z, Fl.lt_irrefl]
    simpa using t
  · rw [hsplit, List.countP_append, List.countP_cons]
    have t : (l.take k).countP (fun a => (key a).le (key e)) = k := by
      rw [List.countP_eq_length.mpr]
      · simp; omega
      · intro a ha
        exact h1.2.2 a ha e (by simp)
    rw [t, Fl.le_refl hen]
    simp

/-- C31: the winner of a tournament is a member of the population at an index of a sample of
`min n size` distinct members; if the adjusted costs are comparable, at most `k` sampled members have a strictly
smaller adjusted cost and more than `k` have an adjusted cost that is not greater, where `k` is the drawn place:
`0` for selection probability one (or a single entrant), otherwise drawn with the weights `p, p·q, p·q², …`
(`q = 1 - p`). -/
theorem C31_tournament (R : Rounding K) (S : SortBy) (lib : Libm K) (fuel : Nat) (o : TourOptions K)
    (s : Stats K) (p : Population K)
    (hn : ∀ m ∈ p, ∀ a, IsAdjusted R lib.exp o s.normalized m a → a.isNan = false) :
    Rand.Post (bestOfSample R S lib fuel o s p) fun m =>
      ∃ (sample : List Nat) (adj : Nat → Fl K) (k i : Nat),
        sample.length = min o.n p.length ∧ sample.Nodup ∧
        (∀ j ∈ sample, ∃ x, p[j]? = some x ∧ IsAdjusted R lib.exp o s.normalized x (adj j)) ∧
        i ∈ sample ∧ p[i]? = some m ∧
        sample.countP (fun j => (adj j).lt (adj i)) ≤ k ∧
        k < sample.countP (fun j => (adj j).le (adj i)) ∧
        (sample.length ≤ 1 ∨ Fl.le (.fin 1) o.p = true → k = 0) ∧
        (k = 0 ∨ ∃ g0 g1, weightedIndex R (geomWeights R (R.sub (.fin 1) o.p) sample.length o.p) g0
          = some (k, g1)) := by
  rw [bestOfSample]
  refine Rand.Post.bind (C33_sample fuel p.length (min o.n p.length)) fun sample hsample => ?_
  obtain ⟨hlen, hnd, hrange⟩ := hsample
  rw [show min (min o.n p.length) p.length = min o.n p.length by omega] at hlen
  refine Rand.Post.bind (P := fun scored => sample.mapM (scoreIdx R lib o s p) = some scored)
    (Rand.Post.lift fun a h => h) fun scored hscored => ?_
  have hF := mapM_forall₂ _ _ _ hscored
  have hlen2 : scored.length = sample.length := hF.length_eq.symm
  -- the adjusted costs
  have hentry : ∀ e ∈ scored, ∃ x, p[e.2]? = some x ∧ IsAdjusted R lib.exp o s.normalized x e.1 ∧
      e.2 ∈ sample := by
    intro e he
    obtain ⟨n, hn1, hn2⟩ := List.mem_iff_getElem.mp he
    have h1 := (List.forall₂_iff_get.mp hF).2 n (by omega) hn1
    simp only [List.get_eq_getElem, hn2] at h1
    rw [scoreIdx] at h1
    cases hx : p[sample[n]]? with
    | none => rw [hx] at h1; simp at h1
    | some x =>
      rw [hx] at h1
      simp only [Option.bind_eq_bind, Option.bind_some] at h1
      cases ha : adjustedCost R lib o s x with
      | none => rw [ha] at h1; simp at h1
      | some a =>
        rw [ha] at h1
        simp only [Option.bind_some, Option.some.injEq] at h1
        rw [← h1]
        exact ⟨x, hx, (adjustedCost_spec R lib o s x a).mp ha, List.getElem_mem _⟩
  have hsnd : scored.map Prod.snd = sample := by
    apply List.ext_getElem
    · simp [hlen2]
    · intro n h1 h2
      have h3 := (List.forall₂_iff_get.mp hF).2 n (by omega) (by omega)
      simp only [List.get_eq_getElem] at h3
      rw [scoreIdx] at h3
      cases hx : p[sample[n]]? with
      | none => rw [hx] at h3; simp at h3
      | some x =>
        rw [hx] at h3
        simp only [Option.bind_eq_bind, Option.bind_some] at h3
        cases ha : adjustedCost R lib o s x with
        | none => rw [ha] at h3; simp at h3
        | some a =>
          rw [ha] at h3
          simp only [Option.bind_some, Option.some.injEq] at h3
          simp [← h3]
  let adj : Nat → Fl K := fun j => ((scored.find? fun e => e.2 == j).map Prod.fst).getD .nan
  have hndS : (scored.map Prod.snd).Nodup := by rw [hsnd]; exact hnd
  have hadj : ∀ e ∈ scored, adj e.2 = e.1 := by
    intro e he
    have : ∃ e', scored.find? (fun x => x.2 == e.2) = some e' := by
      cases h : scored.find? (fun x => x.2 == e.2) with
      | some e' => exact ⟨e', rfl⟩
      | none => rw [List.find?_eq_none] at h; simpa using h e he
    obtain ⟨e', he'⟩ := this
    have h1 := List.find?_some he'
    have h2 := List.mem_of_find?_eq_some he'
    have : e' = e := by
      have h1' : e'.2 = e.2 := by simpa using h1
      exact List.inj_on_of_nodup_map hndS h2 he h1'
    simp [adj, he', this]
  have hnum : ∀ e ∈ scored, e.1.isNan = false := by
    intro e he
    obtain ⟨x, h1, h2, _⟩ := hentry e he
    exact hn x (List.mem_of_getElem? h1) e.1 h2
  -- the place
  refine Rand.Post.bind (P := fun place => place ≠ 0 ∧
      (sample.length ≤ 1 ∨ Fl.le (.fin 1) o.p = true → place = 1) ∧
      (place = 1 ∨ ∃ g0 g1, weightedIndex R (geomWeights R (R.sub (.fin 1) o.p) sample.length o.p) g0
          = some (place - 1, g1))) ?_ fun place hplace => ?_
  · rw [sampleTournamentPlace]
    by_cases h1 : scored.length ≤ 1 ∨ Fl.le (.fin 1) o.p = true
    · rw [if_pos h1]; exact Rand.Post.pure ⟨by omega, fun _ => rfl, .inl rfl⟩
    rw [if_neg h1]
    have h1' : ¬ (sample.length ≤ 1 ∨ Fl.le (.fin 1) o.p = true) := by rw [← hlen2]; exact h1
    split
    · exact Rand.Post.fail
    · simp only
      split
      · exact Rand.Post.pure ⟨by omega, fun h => absurd h h1', .inl rfl⟩
      · refine Rand.Post.bind (P := fun i => ∃ g0 g1,
          weightedIndex R (geomWeights R (R.sub (.fin 1) o.p) scored.length o.p) g0 = some (i, g1))
          (fun g a g' e => ⟨g, g', e⟩) fun i hi => ?_
        apply Rand.Post.pure
        refine ⟨by omega, fun h => absurd h h1', .inr ?_⟩
        rw [← hlen2]; exact hi
  obtain ⟨hp0, hp1, hp2⟩ := hplace
  by_cases hz : scored.length = 0
  · rw [if_pos hz]; exact Rand.Post.fail
  rw [if_neg hz]
  -- the sorted entries
  have hsort := S.sorted (fun a b : Fl K × Nat => a.1.cmpG b.1) scored
    (by
      intro a ha b hb
      exact Fl.cmpG_swap (hnum a ha) (hnum b hb))
    (by
      intro a ha b hb d hd
      rw [Fl.cmpG_ne_gt, Fl.cmpG_ne_gt, Fl.cmpG_ne_gt]
      exact Fl.le_trans)
  let le' : Fl K × Nat → Fl K × Nat → Bool := fun a b => a.1.cmpG b.1 != .gt
  have hle : ∀ a b, le' a b = true ↔ a.1.le b.1 = true := by
    intro a b
    simp only [le', bne_iff_ne]
    exact Fl.cmpG_ne_gt
  have hperm : (scored.mergeSort le').Perm scored := List.mergeSort_perm _ _
  have hsorted : (scored.mergeSort le').Pairwise fun a b => a.1.le b.1 = true := by
    have h3 := List.pairwise_mergeSort (le := fun (a b : {e : Fl K × Nat // e.1.isNan = false}) => le' a.1 b.1)
      (by intro a b c h1 h2; rw [hle] at *; exact Fl.le_trans h1 h2)
      (by
        intro a b
        rw [Bool.or_eq_true, hle, hle]
        exact Fl.le_total a.2 b.2) (scored.attachWith _ hnum)
    have h2 : ((scored.attachWith _ hnum).mergeSort fun a b => le' a.1 b.1).map Subtype.val
        = scored.mergeSort le' := by
      rw [List.map_mergeSort (r := fun (a b : {e : Fl K × Nat // e.1.isNan = false}) => le' a.1 b.1)
        (s := le')]
      · rw [List.attachWith_map_subtype_val]
      · intros; rfl
    rw [← h2, List.pairwise_map]
    exact h3.imp fun h => (hle _ _).mp h
  refine Rand.Post.bind (P := fun sorted => sorted = scored.mergeSort le')
    (Rand.Post.lift fun a h => (Option.some.inj (hsort.symm.trans h)).symm) fun sorted hs => ?_
  subst hs
  refine Rand.Post.bind (P := fun e => (scored.mergeSort le')[min (place - 1) (scored.length - 1)]? = some e)
    (Rand.Post.lift fun a h => h) fun e he => ?_
  refine Rand.Post.lift fun m hm => ?_
  have hmemS : e ∈ scored := hperm.mem_iff.mp (List.mem_of_getElem? he)
  obtain ⟨x, h1, h2, h3⟩ := hentry e hmemS
  have hrank := rank_of_sorted (fun e : Fl K × Nat => e.1) _ hsorted
    (fun a ha => hnum a (hperm.mem_iff.mp ha)) _ e he
  have hcount : ∀ f : Fl K → Bool, (scored.mergeSort le').countP (fun a => f a.1)
      = sample.countP (fun j => f (adj j)) := by
    intro f
    rw [hperm.countP_eq, ← hsnd, List.countP_map]
    apply List.countP_congr
    intro a ha
    simp [hadj a ha]
  have hae := hadj e hmemS
  rw [hcount (fun a => a.lt e.1), hcount (fun a => a.le e.1), ← hae] at hrank
  refine ⟨sample, adj, min (place - 1) (scored.length - 1), e.2, hlen, hnd, ?_, h3, hm, hrank.1, hrank.2,
    ?_, ?_⟩
  · intro j hj
    rw [← hsnd] at hj
    obtain ⟨e', he', rfl⟩ := List.mem_map.mp hj
    obtain ⟨x', h4, h5, _⟩ := hentry e' he'
    exact ⟨x', h4, by rw [hadj e' he']; exact h5⟩
  · intro h
    have := hp1 h
    omega
  · rcases hp2 with hp2 | ⟨g0, g1, hg⟩
    · exact .inl (by omega)
    · have hr := (C32_range R _ g0 _ _ hg).1
      have hgl : ∀ (q : Fl K) (n : Nat) (c : Fl K), (geomWeights R q n c).length = n := by
        intro q n
        induction n with
        | zero => intro c; rfl
        | succ n ih => intro c; simp [geomWeights, ih]
      rw [hgl] at hr
      refine .inr ⟨g0, g1, ?_⟩
      rw [hg]
      congr 2
      omega

/-- C31: with selection probability one, the winner has the least adjusted cost of its sample, and if the
tournament size is at least the population size, of the whole population. -/
theorem C31_best (R : Rounding K) (S : SortBy) (lib : Libm K) (fuel : Nat) (o : TourOptions K)
    (s : Stats K) (p : Population K) (hp : Fl.le (.fin 1) o.p = true) (hall : p.length ≤ o.n)
    (hn : ∀ m ∈ p, ∀ a, IsAdjusted R lib.exp o s.normalized m a → a.isNan = false) :
    Rand.Post (bestOfSample R S lib fuel o s p) fun m =>
      m ∈ p ∧ ∃ a, IsAdjusted R lib.exp o s.normalized m a ∧
        ∀ x ∈ p, ∃ b, IsAdjusted R lib.exp o s.normalized x b ∧ a.le b = true := by
  refine (C31_tournament R S lib fuel o s p hn).mono ?_
  rintro m ⟨sample, adj, k, i, hlen, hnd, hadj, hi, hm, h1, h2, h3, h4⟩
  have hk := h3 (.inr hp)
  subst hk
  obtain ⟨x0, hx0, hx0a⟩ := hadj i hi
  rw [hm] at hx0; simp at hx0; subst hx0
  refine ⟨List.mem_of_getElem? hm, adj i, hx0a, ?_⟩
  intro x hx
  obtain ⟨j, hj⟩ := List.mem_iff_getElem?.mp hx
  have hjl : j < p.length := by
    by_contra hh
    rw [List.getElem?_eq_none (by omega)] at hj; simp at hj
  have hlen' : sample.length = p.length := by omega
  have hsubset : ∀ j ∈ sample, j ∈ List.range p.length := by
    intro j hj
    obtain ⟨x, h, _⟩ := hadj j hj
    rw [List.mem_range]
    by_contra hh
    rw [List.getElem?_eq_none (by omega)] at h; simp at h
  have hperm : sample.Perm (List.range p.length) :=
    (hnd.subperm hsubset).perm_of_length_le (by simp [hlen'])
  have hjs : j ∈ sample := hperm.mem_iff.mpr (by simpa using hjl)
  obtain ⟨x', hx', hxa⟩ := hadj j hjs
  rw [hj] at hx'; simp at hx'; subst hx'
  refine ⟨adj j, hxa, ?_⟩
  have hz : sample.countP (fun j => (adj j).lt (adj i)) = 0 := by omega
  rw [List.countP_eq_zero] at hz
  have hxi := List.mem_of_getElem? hm
  exact (Fl.le_iff (hn m hxi _ hx0a) (hn x hx _ hxa)).mpr (by simpa using hz j hjs)

/-- C31 (exact arithmetic): the places are drawn with geometric weights: the weight of place `k` is
`p · (1 - p)^k`. -/
theorem C31_geometric [IsStrictOrderedRing K] (p : K) (n : Nat) :
    geomWeights (Rounding.exact K) ((Rounding.exact K).sub (.fin 1) (.fin p)) n (.fin p)
      = (List.range n).map fun k => .fin (p * (1 - p) ^ k) := by
  rw [exact_sub]
  have : ∀ (n : Nat) (c : K), geomWeights (Rounding.exact K) (.fin (1 - p)) n (.fin c)
      = (List.range n).map fun k => .fin (c * (1 - p) ^ k) := by
    intro n
    induction n with
    | zero => intro c; rfl
    | succ n ih =>
      intro c
      rw [geomWeights, exact_mul, ih, List.range_succ_eq_map, List.map_cons, List.map_map]
      congr 1
      · simp
      · apply List.map_congr_left
        intro k _
        simp only [Function.comp, pow_succ]
        congr 1; ring
  exact this n p

/-- C31: a tournament does not panic once its sample is drawn: in exact arithmetic, for a non-empty population,
a positive tournament size, a positive selection probability, statistics covering the sizes up to `maxsize`, and
comparable adjusted costs. -/
theorem C31_no_panic [IsStrictOrderedRing K] (S : SortBy) (lib : Libm K) (fuel : Nat) (o : TourOptions K)
    (s : Stats K) (p : Population K) (hne : p ≠ []) (hon : 0 < o.n) (pr : K) (hp : o.p = .fin pr) (hpr : 0 < pr)
    (hstats : o.useFrequency = true → o.maxsize ≤ s.normalized.length)
    (hn : ∀ m ∈ p, ∀ a, IsAdjusted (Rounding.exact K) lib.exp o s.normalized m a → a.isNan = false)
    (g : Rng (Fl K)) (hg : (sampleIndices fuel p.length (min o.n p.length) g).isSome) :
    (bestOfSample (Rounding.exact K) S lib fuel o s p g).isSome := by
  obtain ⟨⟨sample, g1⟩, hs⟩ := Option.isSome_iff_exists.mp hg
  obtain ⟨hlen, hnd, hrange⟩ := C33_sample fuel p.length (min o.n p.length) g sample g1 hs
  have hpl : 0 < p.length := List.length_pos_iff.mpr hne
  have hadjx : ∀ m : Member K, ∃ a, adjustedCost (Rounding.exact K) lib o s m = some a := by
    intro m
    rw [adjustedCost]
    by_cases hu : o.useFrequency = true
    · rw [if_pos hu]
      split
      · next hc =>
        have := hstats hu
        rw [List.getElem?_eq_getElem (by omega)]
        exact ⟨_, rfl⟩
      · exact ⟨_, rfl⟩
    · rw [if_neg hu]; exact ⟨_, rfl⟩
  have hscored : ∀ l : List Nat, (∀ i ∈ l, i < p.length) →
      ∃ r, l.mapM (scoreIdx (Rounding.exact K) lib o s p) = some r ∧ r.length = l.length ∧
        ∀ e ∈ r, e.1.isNan = false ∧ e.2 < p.length := by
    intro l hl
    induction l with
    | nil => exact ⟨[], rfl, rfl, by simp⟩
    | cons i l ih =>
      obtain ⟨r, h1, h2, h3⟩ := ih fun j hj => hl j (by simp [hj])
      have hi := hl i (by simp)
      obtain ⟨a, ha⟩ := hadjx p[i]
      have hsi : scoreIdx (Rounding.exact K) lib o s p i = some (a, i) := by
        rw [scoreIdx, List.getElem?_eq_getElem hi]
        simp only [Option.bind_eq_bind, Option.bind_some, ha]
      refine ⟨(a, i) :: r, ?_, by simp [h2], ?_⟩
      · rw [List.mapM_cons, hsi, h1]; rfl
      · intro e he
        rcases List.mem_cons.mp he with rfl | he
        · exact ⟨hn p[i] (List.getElem_mem hi) a ((adjustedCost_spec _ _ _ _ _ _).mp ha), hi⟩
        · exact h3 e he
  obtain ⟨scored, hsc, hscl, hsce⟩ := hscored sample hrange
  have hplace : Rand.Total (sampleTournamentPlace (Rounding.exact K) scored.length o.p) fun _ => True := by
    rw [sampleTournamentPlace]
    split
    · exact Rand.Total.pure trivial
    · next h1 =>
      rw [hp]
      rw [if_neg (by simpa [Fl.le] using hpr)]
      simp only
      split
      · exact Rand.Total.pure trivial
      · next h2 =>
        rw [exact_sub] at h2
        have hq : 0 < 1 - pr := by simpa [Fl.le] using h2
        rw [C31_geometric]
        refine Rand.Total.bind (P := fun _ => True) ?_ fun _ _ => Rand.Total.pure trivial
        have hpos : ∀ w ∈ (List.range scored.length).map (fun k => pr * (1 - pr) ^ k), 0 ≤ w := by
          intro w hw
          obtain ⟨k, _, rfl⟩ := List.mem_map.mp hw
          positivity
        have hmap : ((List.range scored.length).map fun k => Fl.fin (pr * (1 - pr) ^ k))
            = ((List.range scored.length).map (fun k => pr * (1 - pr) ^ k)).map .fin := by
          rw [List.map_map]; rfl
        intro g
        push Not at h1
        have hsl : 0 < scored.length := by have := h1.1; omega
        rw [hmap, weightedIndex, if_neg (by intro hh; simp at hh; simp [hh] at hsl), weightedTotal_exact _ hpos]
        simp only [zero_add]
        have hsum : 0 < ((List.range scored.length).map (fun k => pr * (1 - pr) ^ k)).sum := by
          obtain ⟨n, hn⟩ : ∃ n, scored.length = n + 1 := ⟨scored.length - 1, by omega⟩
          rw [hn, List.range_succ_eq_map, List.map_cons, List.sum_cons]
          have : 0 ≤ ((List.map Nat.succ (List.range n)).map (fun k => pr * (1 - pr) ^ k)).sum := by
            apply List.sum_nonneg
            intro w hw
            obtain ⟨k, _, rfl⟩ := List.mem_map.mp hw
            positivity
          simp only [pow_zero, mul_one]
          linarith
        rw [if_neg (by simp [Fl.isFinite, Fl.le, hsum])]
        exact ⟨_, _, rfl, trivial⟩
  obtain ⟨place, g2, hpe, _⟩ := hplace g1
  have hsort := S.sorted (fun a b : Fl K × Nat => a.1.cmpG b.1) scored
    (by
      intro a ha b hb
      exact Fl.cmpG_swap (hsce a ha).1 (hsce b hb).1)
    (by
      intro a ha b hb d hd
      rw [Fl.cmpG_ne_gt, Fl.cmpG_ne_gt, Fl.cmpG_ne_gt]
      exact Fl.le_trans)
  have hperm := S.perm _ _ _ hsort
  have hz : ¬ scored.length = 0 := by omega
  have hidx : min (place - 1) (scored.length - 1) <
      (scored.mergeSort fun a b => a.1.cmpG b.1 != .gt).length := by
    rw [hperm.length_eq]; omega
  have hfin := (hsce _ (hperm.mem_iff.mp (List.getElem_mem hidx))).2
  rw [bestOfSample, Rand.run_bind, hs]
  simp only
  rw [Rand.run_bind, hsc]
  simp only [Rand.lift, Option.map_some]
  rw [Rand.run_bind, hpe]
  simp only [hz, if_false]
  rw [Rand.run_bind, hsort]
  simp only [Rand.lift, Option.map_some]
  rw [Rand.run_bind, List.getElem?_eq_getElem hidx]
  simp only [Rand.lift, Option.map_some]
  rw [List.getElem?_eq_getElem hfin]
  rfl

/-! ### A concrete case -/

/-- A sort that meets the contract and, on two elements, does what the standard library does (insertion: swap iff
the second compares `Less` than the first). -/
def SortBy.small : SortBy where
  run c l := match l with
    | [a, b] => if c b a = .lt then some [b, a] else some [a, b]
    | l => some (l.mergeSort fun a b => c a b != .gt)
  perm c l l' h := by
    split at h
    · split at h
      · simp at h; subst h; exact List.Perm.swap _ _ _
      · simp at h; subst h; exact List.Perm.refl _
    · simp at h; subst h; exact List.mergeSort_perm _ _
  sorted c l h1 h2 := by
    split
    · next a b =>
      have h := h1 a (by simp) b (by simp)
      have e : [a, b].mergeSort (fun a b => c a b != .gt) = if c a b ≠ .gt then [a, b] else [b, a] := by
        rw [List.mergeSort]
        simp [List.MergeSort.Internal.splitInTwo, List.merge]
      rw [e]
      cases hc : c a b <;> simp [h, hc, Ordering.swap]
    · rfl

/-- Two members, tournament of size two, probability one, no frequency adjustment: the cheaper wins. -/
example : (bestOfSample (Rounding.exact ℚ) SortBy.small ⟨id, id, id, id, fun _ => none⟩ 5
      ⟨2, .fin 1, false, .fin 0, 5⟩ ⟨.fin 1, [], []⟩
      [⟨0, none, 0, ⟨[.var 0], []⟩, ⟨[], 0, .slot 0, 0⟩, 1, .fin 3, .fin 3⟩,
       ⟨1, none, 0, ⟨[.var 0], []⟩, ⟨[], 0, .slot 0, 0⟩, 1, .fin 2, .fin 2⟩]
      ⟨fun _ => 0, fun _ => .fin 0⟩).map (·.1.id) = some 1 := by decide +kernel

/-- C31 (the hypothesis on NaN is needed): when `exp` overflows, a perfect member (cost zero) has a NaN adjusted
cost, and it loses against a worse one although the place drawn is the first. -/
theorem C31_nan_adjusted : ∃ (lib : Libm ℚ) (o : TourOptions ℚ) (s : Stats ℚ) (p : Population ℚ),
    Fl.le (.fin 1) o.p = true ∧ p.length ≤ o.n ∧ (∀ m ∈ p, m.cost.isFinite = true) ∧
    (∃ m ∈ p, m.cost = .fin 0 ∧ IsAdjusted (Rounding.exact ℚ) lib.exp o s.normalized m .nan) ∧
    ∃ S g, ((bestOfSample (Rounding.exact ℚ) S lib 5 o s p) g).map (·.1.cost) = some (.fin 7) := by
  refine ⟨⟨fun x => if Fl.lt (.fin 700) x then .pinf else .fin 1, id, id, id, fun _ => none⟩,
    ⟨2, .fin 1, true, .fin 1040, 5⟩, ⟨.fin 1, [], [.fin (4/5), .fin (1/20), .fin (1/20), .fin (1/20), .fin (1/20)]⟩,
    [⟨1, none, 0, ⟨[.var 0, .op 1 0], []⟩, ⟨[], 0, .slot 0, 0⟩, 2, .fin 7, .fin 7⟩,
     ⟨0, none, 0, ⟨[.var 0], []⟩, ⟨[], 0, .slot 0, 0⟩, 1, .fin 0, .fin 0⟩], ?_, ?_, ?_, ?_, ?_⟩
  · decide +kernel
  · decide
  · decide
  · refine ⟨_, List.mem_cons_of_mem _ List.mem_cons_self, rfl,
      .inr ⟨rfl, .fin (4/5), ?_, .inl ⟨by decide, by decide, rfl⟩⟩⟩
    decide +kernel
  · exact ⟨SortBy.small, ⟨fun _ => 1, fun _ => .fin 0⟩, by decide +kernel⟩

end SR
