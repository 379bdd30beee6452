import Verif.Props.Evolve
import Verif.Spec.Accept
import Verif.Props.Stats
import Verif.Spec.Demo
import Mathlib.Tactic.Linarith
import Mathlib.Tactic.FieldSimp
import Mathlib.Tactic.NormNum
/-
C72: which candidates a generation accepts.
-/
namespace SR
variable {K : Type} [Field K] [LinearOrder K] [E : Env K]
variable {o : SOptions K} {d : Dataset K} {cur : Nat} {ops : List OpId} {N : Nat}

theorem Rand.bind_inv {F α β : Type} {m : Rand F α} {f : α → Rand F β} {g g' : Rng F} {b : β}
    (h : (m >>= f) g = some (b, g')) : ∃ a g1, m g = some (a, g1) ∧ f a g1 = some (b, g') := by
  rw [Rand.run_bind] at h
  split at h
  · cases h
  · next a g1 e => exact ⟨a, g1, e, h⟩

theorem Rand.lift_inv {F α : Type} {x : Option α} {g g' : Rng F} {a : α}
    (h : (Rand.lift x : Rand F α) g = some (a, g')) : x = some a ∧ g' = g := by
  cases x with
  | none => simp [Rand.lift] at h
  | some y => simp only [Rand.lift, Option.map_some, Option.some.injEq, Prod.mk.injEq] at h; exact ⟨by rw [h.1], h.2.symm⟩

theorem Rand.pure_inv {F α : Type} {g g' : Rng F} {a b : α}
    (h : (Pure.pure a : Rand F α) g = some (b, g')) : b = a ∧ g' = g := by
  rw [Rand.run_pure, Option.some.injEq, Prod.mk.injEq] at h; exact ⟨h.1.symm, h.2.symm⟩

/-- The immediate flag belongs to simplification only. -/
theorem apply_immediate {T : Fl K} {m : Member K} {ev : Evaluator K} {k : Mutation} :
    Rand.Post (k.apply o d cur T m ev) fun r => (r.immediate = true ↔ k = .simplify) ∧ (k ≠ .optimize → r.evals = 0) := by
  cases k <;> unfold Mutation.apply <;>
    first
    | exact Rand.Post.pure (by simp [MutOutcome.plain])
    | exact Rand.Post.bind Rand.Post.true fun _ _ => Rand.Post.pure (by simp [MutOutcome.plain])
    | exact Rand.Post.bind Rand.Post.true fun _ _ => Rand.Post.bind Rand.Post.true fun _ _ =>
        Rand.Post.pure (by simp [MutOutcome.plain])

/-- The result of `j` attempts. -/
def Tried (o : SOptions K) (d : Dataset K) (cur : Nat) (T : Fl K) (m : Member K) (k : Mutation) (j e0 : Nat)
    (ev : Evaluator K) (g : Rng (Fl K)) (a : Attempt K) (g2 : Rng (Fl K)) : Prop :=
  (a.found = none ∧ ∃ evals, FailedTries o d cur T m k j ev g evals a.ev g2 ∧ a.evals = e0 + evals) ∨
    ∃ tree imm, a.found = some (tree, imm) ∧ (imm = true ↔ k = .simplify) ∧
      ∃ n ev1 g1 evals1 r ch, n < j ∧ FailedTries o d cur T m k n ev g evals1 ev1 g1 ∧
      k.apply o d cur T m ev1 g1 = some (r, g2) ∧ r.mutated = true ∧ compressConstants r.expr = some (tree, ch) ∧
      FeasibleExpr o.cx cur tree ∧ a.evals = e0 + (evals1 + r.evals)

variable [IsStrictOrderedRing K]

theorem attemptLoop_tries (hF : Env.Formats K) (hls : LsOk o) (S : EvolSetting o d cur ops N) (m : Member K)
    (hm : m.Good d ops N) (T : Fl K) (k : Mutation) : ∀ (j e0 : Nat) (ev : Evaluator K) (g g2 : Rng (Fl K))
    (a : Attempt K), ev.Ready d → attemptLoop o d cur T m k j e0 ev g = some (a, g2) →
    Tried o d cur T m k j e0 ev g a g2
  | 0, e0, ev, g, g2, a, hev, h => by
    obtain ⟨rfl, rfl⟩ := Rand.pure_inv h
    exact .inl ⟨rfl, 0, .nil _ _, rfl⟩
  | j + 1, e0, ev, g, g2, a, hev, h => by
    unfold attemptLoop at h
    obtain ⟨r, g1, hr, h⟩ := Rand.bind_inv h
    obtain ⟨h1, ⟨t, h2, h3, h4⟩, -⟩ := (apply_spec hF hls S m hm T ev hev k).post g r g1 hr
    have himm := (apply_immediate (o := o) (d := d) (cur := cur) g r g1 hr).1
    simp only at h
    have again : ∀ (hfail : r.mutated = false ∨
          ∃ tree ch, compressConstants r.expr = some (tree, ch) ∧ ¬ FeasibleExpr o.cx cur tree),
        attemptLoop o d cur T m k j (e0 + r.evals) r.ev g1 = some (a, g2) →
        Tried o d cur T m k (j + 1) e0 ev g a g2 := fun hfail h' => by
      rcases attemptLoop_tries hF hls S m hm T k j _ _ _ _ _ h1 h' with ⟨a1, evals, a2, a3⟩ |
        ⟨tree, imm, a1, a2, n, ev1, g3, evals1, r', ch, a3, a4, a5, a6, a7, a8, a9⟩
      · exact Or.inl ⟨a1, _, .cons r hr hfail a2, by omega⟩
      · exact Or.inr ⟨tree, imm, a1, a2, n + 1, ev1, g3, _, r', ch, by omega, .cons r hr hfail a4, a5, a6, a7, a8,
          by omega⟩
    by_cases hmut : r.mutated = true
    · simp only [hmut, Bool.not_true, Bool.false_eq_true, if_false] at h
      obtain ⟨p, g3, hp, hnext⟩ := Rand.bind_inv h
      clear h
      have h := hnext
      clear hnext
      obtain ⟨hp', rfl⟩ := Rand.lift_inv hp
      clear hp
      have hp := hp'
      obtain ⟨tree, ch⟩ := p
      obtain ⟨e', ch', k1, t', k2, k3, k4, k5⟩ := compress_good h2 h3 h4
      rw [hp] at k1
      obtain ⟨rfl, rfl⟩ := Prod.mk.inj (Option.some.inj k1)
      simp only at h
      obtain ⟨ok, g4, hok, hnext⟩ := Rand.bind_inv h
      clear h
      have h := hnext
      clear hnext
      obtain ⟨hok', rfl⟩ := Rand.lift_inv hok
      clear hok
      have hok := hok'
      have hfe : ok = true ↔ FeasibleExpr o.cx cur tree := by
        obtain ⟨b, l1, l2⟩ := C23_accepts_iff o.cx S.cx cur S.cur_lt t' (S.proper k3) (S.arityLe k3)
        rw [k2, l1] at hok
        obtain rfl := Option.some.inj hok
        refine l2.trans ⟨fun h => ⟨t', k2, h⟩, fun ⟨u, hu, hal⟩ => ?_⟩
        rwa [← toPostfix_injective (k2.symm.trans hu)] at hal
      cases hb : ok with
      | true =>
        rw [hb, if_pos rfl] at h
        obtain ⟨rfl, rfl⟩ := Rand.pure_inv h
        exact .inr ⟨tree, _, rfl, himm, 0, ev, g, 0, r, ch, by omega, .nil _ _, hr, hmut, hp, hfe.mp hb, by simp⟩
      | false =>
        rw [hb] at h
        exact again (.inr ⟨tree, ch, hp, fun hf => by rw [hfe.mpr hf] at hb; cases hb⟩) (by simpa using h)
    · simp only [hmut, Bool.not_false, if_true] at h
      exact again (.inl (by simpa using hmut)) h
theorem parentCopy_inv (S : EvolSetting o d cur ops N) {m : Member K} (hm : m.Good d ops N) {c : Counters} {n : Nat}
    {ev : Evaluator K} {g g' : Rng (Fl K)} {r : GenOut K}
    (h : (do let baby ← Rand.lift (parentCopy d c m); pure ⟨baby, false, n, ev, c.tick⟩ : Rand (Fl K) (GenOut K)) g
      = some (r, g')) : r.accepted = false ∧ CopyOf m r.baby ∧ r.evals = n ∧ g' = g := by
  obtain ⟨b, h1, h2, h3, h4, h5, h6, h7, h8, h9⟩ := parentCopy_spec S m hm c
  obtain ⟨b', g1, e1, h⟩ := Rand.bind_inv h
  obtain ⟨e2, rfl⟩ := Rand.lift_inv e1
  rw [h1] at e2
  obtain rfl := Option.some.inj e2
  obtain ⟨rfl, rfl⟩ := Rand.pure_inv h
  exact ⟨rfl, ⟨h5, h6, h7, h8⟩, rfl, rfl⟩

theorem generationWith_verdict (hF : Env.Formats K) (hls : LsOk o) (S : EvolSetting o d cur ops N) (m : Member K)
    (hm : m.Good d ops N) (T : Fl K) (s : Stats K) (ev : Evaluator K) (hev : ev.Ready d) (c : Counters)
    (k : Mutation) (g g' : Rng (Fl K)) (r : GenOut K)
    (h : generationWith o d cur T s ev c m k g = some (r, g')) :
    Verdict o d cur ops N T ev c m (fun b u => (acceptProb o s T m b).lt u = false) k g r g' := by
  unfold generationWith at h
  obtain ⟨a, g1, ha, h⟩ := Rand.bind_inv h
  have htr := attemptLoop_tries hF hls S m hm T k 10 0 ev g g1 a hev ha
  obtain ⟨hev1, hfound⟩ := (attemptLoop_spec hF hls S m hm T k 10 0 ev hev).post g a g1 ha
  obtain ⟨found, evals, ev1⟩ := a
  simp only at htr hfound hev1 h
  rcases htr with ⟨rfl, ev0, h1, h2⟩ | ⟨tree, imm, rfl, himm, n, ev0, g0, evals1, r0, ch, h1, h2, h3, h4, h5, h6, h7⟩
  · simp only at h
    obtain ⟨k1, k2, k3, rfl⟩ := parentCopy_inv S hm h
    exact .exhausted _ _ _ h1 k1 k2 k3
  · have hF : Found o d cur T m k ev g tree evals g1 :=
      ⟨n, ev0, g0, evals1, r0, ch, h1, h2, h3, h4, h5, h6, by simpa using h7⟩
    obtain ⟨q1, q2, -⟩ := hfound tree imm rfl
    cases imm with
    | true =>
      simp only at h
      obtain ⟨b, k1, k2, k3, k4, k5, k6, k7, k8, k9⟩ := simplifiedChild_spec S m q1 c
      obtain ⟨b', g2, e1, h⟩ := Rand.bind_inv h
      obtain ⟨e2, rfl⟩ := Rand.lift_inv e1
      rw [k1] at e2
      obtain rfl := Option.some.inj e2
      obtain ⟨rfl, rfl⟩ := Rand.pure_inv h
      exact .simplified tree evals _ (himm.mp rfl) hF rfl k5 rfl
    | false =>
      simp only at h
      have hk : k ≠ .simplify := fun e => by simpa using himm.mpr e
      obtain ⟨b, b', ok, ev2, k1, k2, k3, k4, k5, k6, k7, k8, k9, k10⟩ :=
        born_spec S q1 c.nextId (some m.id) c.nextBirth ev1 hev1
      obtain ⟨b0, g2, e1, h⟩ := Rand.bind_inv h
      obtain ⟨e2, rfl⟩ := Rand.lift_inv e1
      rw [k1] at e2
      obtain rfl := Option.some.inj e2
      obtain ⟨b1, g3, e1, h⟩ := Rand.bind_inv h
      obtain ⟨e2, rfl⟩ := Rand.lift_inv e1
      rw [k2] at e2
      obtain rfl := Option.some.inj e2
      have hcand : Candidate o d ops N c m tree b' := ⟨k7, ⟨k4, k5, k6⟩, k8, k9⟩
      simp only at h
      by_cases hfin : ok = true ∧ b'.cost.isFinite = true
      · rw [if_neg (by simp [hfin.1, hfin.2])] at h
        obtain ⟨u, g4, e1, h⟩ := Rand.bind_inv h
        have e1 : some (g3.floats 0, g3.nextFloat) = some (u, g4) := e1
        obtain ⟨rfl, rfl⟩ := Prod.mk.inj (Option.some.inj e1)
        cases hlt : (acceptProb o s T m b').lt (g3.floats 0) with
        | true =>
          rw [hlt, if_pos rfl] at h
          obtain ⟨w1, w2, w3, rfl⟩ := parentCopy_inv S hm h
          exact .rejected tree evals b' _ hk hF hcand (k10.mp hfin.1) hfin.2 (by simp [hlt]) w1 w2 w3
        | false =>
          rw [hlt, if_neg (by simp)] at h
          obtain ⟨rfl, rfl⟩ := Rand.pure_inv h
          exact .accepted tree evals b' _ hk hF hcand (k10.mp hfin.1) hfin.2 hlt rfl rfl rfl
      · rw [if_pos (by simpa [Bool.or_eq_true, Bool.not_eq_true', Decidable.not_and_iff_or_not] using
          (not_and_or.mp hfin))] at h
        obtain ⟨w1, w2, w3, rfl⟩ := parentCopy_inv S hm h
        exact .unscorable tree evals b' _ hk hF hcand (fun hh => hfin ⟨k10.mpr hh.1, hh.2⟩) w1 w2 w3

omit [IsStrictOrderedRing K] in
theorem Verdict.congr {T : Fl K} {ev : Evaluator K} {c : Counters} {m : Member K} {A B : Member K → Fl K → Prop}
    {k : Mutation} {g g' : Rng (Fl K)} {r : GenOut K}
    (hAB : ∀ b u, b.loss.isFinite = true → b.cost.isFinite = true → (A b u ↔ B b u))
    (h : Verdict o d cur ops N T ev c m A k g r g') : Verdict o d cur ops N T ev c m B k g r g' := by
  cases h with
  | exhausted ev1 evals _ h1 h2 h3 h4 => exact .exhausted ev1 evals _ h1 h2 h3 h4
  | simplified tree evals _ h1 h2 h3 h4 h5 => exact .simplified tree evals _ h1 h2 h3 h4 h5
  | unscorable tree evals b _ h0 h1 h2 h3 h4 h5 h6 => exact .unscorable tree evals b _ h0 h1 h2 h3 h4 h5 h6
  | accepted tree evals b g1 h0 h1 h2 h3 h4 h5 h6 h7 h8 =>
    exact .accepted tree evals b g1 h0 h1 h2 h3 h4 ((hAB b _ h3 h4).mp h5) h6 h7 h8
  | rejected tree evals b g1 h0 h1 h2 h3 h4 h5 h6 h7 h8 =>
    exact .rejected tree evals b g1 h0 h1 h2 h3 h4 (fun hb => h5 ((hAB b _ h3 h4).mpr hb)) h6 h7 h8

theorem nextGeneration_verdict (hF : Env.Formats K) (hls : LsOk o) (S : EvolSetting o d cur ops N) {m : Member K}
    (hm : m.Good d ops N) {T : Fl K} {s : Stats K} {ev : Evaluator K} (hev : ev.Ready d) {c : Counters}
    {g g' : Rng (Fl K)} {r : GenOut K} (h : nextGeneration o d cur T s ev c m g = some (r, g'))
    (A : Member K → Fl K → Prop)
    (hA : ∀ b u, b.cost.isFinite = true → ((acceptProb o s T m b).lt u = false ↔ A b u)) :
    ∃ k g0, sampleMutation (conditionWeights o m cur d.x.rows o.weights) g = some (k, g0) ∧
      Verdict o d cur ops N T ev c m A k g0 r g' := by
  unfold nextGeneration at h
  obtain ⟨k, g0, h1, h2⟩ := Rand.bind_inv h
  exact ⟨k, g0, h1, (generationWith_verdict hF hls S m hm T s ev hev c k g0 g' r h2).congr fun b u _ => hA b u⟩

/-! ### The acceptance test -/

theorem sizeFreq_exact (hR : E.R = Rounding.exact K) (o : SOptions K) {s : Stats K} {ps : List K}
    (hs : s.normalized = ps.map .fin) (size : Nat) : sizeFreq o s size = .fin (sizeWeight ps o.maxsize size) := by
  unfold sizeFreq sizeWeight
  rw [hR]
  by_cases h : 0 < size ∧ size ≤ o.maxsize
  · have h' : 1 ≤ size ∧ size ≤ o.maxsize := h
    rw [if_pos h, if_pos h', Stats.freq, if_neg (by omega), hs, List.getElem?_map]
    have hpos : (0 : K) < 1 / 1000000 := by norm_num
    cases hp : ps[size - 1]? with
    | none =>
      simp only [Option.map_none, List.getD_eq_getElem?_getD, hp, Option.getD_none]
      rw [max_eq_right hpos.le]; rfl
    | some x =>
      simp only [Option.map_some, List.getD_eq_getElem?_getD, hp, Option.getD_some]
      show Fl.max (.fin x) (.fin (1 / 1000000)) = _
      by_cases hx : x < 1 / 1000000
      · rw [max_eq_right hx.le]; simp only [Fl.max, Fl.isNan, Fl.lt, hx]; rfl
      · rw [max_eq_left (not_lt.mp hx)]; simp only [Fl.max, Fl.isNan, Fl.lt, hx]; rfl
  · have h' : ¬ (1 ≤ size ∧ size ≤ o.maxsize) := h
    rw [if_neg h, if_neg h']; rfl

theorem sizeWeight_pos (ps : List K) (maxsize size : Nat) : 0 < sizeWeight ps maxsize size := by
  have hpos : (0 : K) < 1 / 1000000 := by norm_num
  unfold sizeWeight
  split
  · exact lt_max_of_lt_right hpos
  · exact hpos

/-- The acceptance probability in exact arithmetic, at positive temperature. -/
theorem acceptProb_exact (hR : E.R = Rounding.exact K) {e : K → K} (he : ExpLike E.libm e) {s : Stats K} {ps : List K}
    (hs : s.normalized = ps.map .fin) {m b : Member K} {t al cm cb : K} (hal : o.alpha = .fin al) (ht : t * al ≠ 0)
    (hcm : m.cost = .fin cm) (hcb : b.cost = .fin cb) :
    acceptProb o s (.fin t) m b = .fin (metropolis e o.annealing o.useFrequency t al (cb - cm)
      (sizeWeight ps o.maxsize m.complexity) (sizeWeight ps o.maxsize b.complexity)) := by
  have hann : (if o.annealing then
      E.R.mul (.fin 1) (E.libm.exp (E.R.div (E.R.sub b.cost m.cost).neg (E.R.mul (.fin t) o.alpha)))
      else .fin 1) = Fl.fin (if o.annealing then e (-(cb - cm) / (t * al)) else 1) := by
    cases o.annealing with
    | false => rfl
    | true =>
      simp only [if_true]
      rw [hR, hal, hcm, hcb]
      simp only [Rounding.sub, Fl.neg, Rounding.add, Rounding.exact, Rounding.mul, Rounding.div, if_neg ht, he.fin,
        one_mul, ← sub_eq_add_neg]
  unfold acceptProb metropolis
  simp only
  rw [hann]
  cases o.useFrequency with
  | false => simp
  | true =>
    simp only [if_true]
    rw [sizeFreq_exact hR o hs, sizeFreq_exact hR o hs, hR, exact_div _ _ (sizeWeight_pos ps _ _).ne']
    rfl

/-- C72: the Metropolis rule.  In exact arithmetic, at positive temperature, from a parent of finite cost: a generation
either runs out of tries, or is a simplification, or finds a candidate without finite scores, or decides by one uniform
number `u`: the candidate is accepted exactly if `u` is not above the textbook probability. -/
theorem C72_metropolis (hF : Env.Formats K) (hls : LsOk o) (S : EvolSetting o d cur ops N)
    (hR : E.R = Rounding.exact K) (e : K → K) (he : ExpLike E.libm e) (s : Stats K) (ps : List K)
    (hs : s.normalized = ps.map .fin) (m : Member K) (hm : m.Good d ops N) (t al cm : K) (hal : o.alpha = .fin al)
    (ht : 0 < t * al) (hcm : m.cost = .fin cm) (ev : Evaluator K) (hev : ev.Ready d) (c : Counters)
    (g g' : Rng (Fl K)) (r : GenOut K) (h : nextGeneration o d cur (.fin t) s ev c m g = some (r, g')) :
    ∃ k g0, sampleMutation (conditionWeights o m cur d.x.rows o.weights) g = some (k, g0) ∧
      Verdict o d cur ops N (.fin t) ev c m (fun b u => ∃ cb, b.cost = .fin cb ∧
        (Fl.fin (metropolis e o.annealing o.useFrequency t al (cb - cm) (sizeWeight ps o.maxsize m.complexity)
          (sizeWeight ps o.maxsize b.complexity))).lt u = false) k g0 r g' := by
  refine nextGeneration_verdict hF hls S hm hev h _ fun b u hb => ?_
  cases hcb : b.cost with
  | fin cb =>
    rw [acceptProb_exact hR he hs hal ht.ne' hcm hcb]
    simp
  | _ => rw [hcb] at hb; cases hb

/-- C72: what the rule means.  Without annealing and frequencies everything is accepted (probability 1); a candidate
that is not worse, of a complexity that is not more frequent, is accepted with certainty; a worse one without
frequencies with a probability strictly between 0 and 1; the probability falls with the cost difference and, for a worse
candidate, rises with the temperature. -/
theorem C72_laws {l : Libm K} {e : K → K} (he : ExpLike l e) (T al delta wp wc : K) (hT : 0 < T) (ha : 0 < al)
    (hp : 0 < wp) (hc : 0 < wc) :
    metropolis e false false T al delta wp wc = 1 ∧
    (∀ an fr, delta ≤ 0 → wc ≤ wp → 1 ≤ metropolis e an fr T al delta wp wc) ∧
    (0 < delta → 0 < metropolis e true false T al delta wp wc ∧ metropolis e true false T al delta wp wc < 1) ∧
    (∀ delta' fr, delta < delta' → metropolis e true fr T al delta' wp wc < metropolis e true fr T al delta wp wc) ∧
    (∀ T' fr, 0 < delta → T < T' → metropolis e true fr T al delta wp wc < metropolis e true fr T' al delta wp wc) ∧
    (∀ an wc', wc < wc' → metropolis e an true T al delta wp wc' < metropolis e an true T al delta wp wc) := by
  have hTa : 0 < T * al := mul_pos hT ha
  have hfr : ∀ fr : Bool, (0 : K) < if fr then wp / wc else 1 := by
    intro fr; cases fr
    · exact one_pos
    · exact div_pos hp hc
  have han : ∀ an : Bool, (0 : K) < if an then e (-delta / (T * al)) else 1 := by
    intro an; cases an
    · exact one_pos
    · exact he.pos _
  refine ⟨by simp [metropolis], fun an fr hd hw => ?_, fun hd => ?_, fun d' fr hd => ?_, fun T' fr hd hTT => ?_,
    fun an wc' hw => ?_⟩
  · have h1 : (1 : K) ≤ if an then e (-delta / (T * al)) else 1 := by
      cases an
      · exact le_refl _
      · simp only [if_true]
        rw [← he.zero]
        exact he.mono.monotone (div_nonneg (by linarith) hTa.le)
    have h2 : (1 : K) ≤ if fr then wp / wc else 1 := by
      cases fr
      · exact le_refl _
      · simp only [if_true]
        rwa [one_le_div hc]
    exact one_le_mul_of_one_le_of_one_le h1 h2
  · simp only [metropolis, if_true, Bool.false_eq_true, if_false, mul_one]
    refine ⟨he.pos _, ?_⟩
    rw [← he.zero]
    exact he.mono (div_neg_of_neg_of_pos (by linarith) hTa)
  · refine mul_lt_mul_of_pos_right ?_ (hfr fr)
    simp only [if_true]
    exact he.mono (div_lt_div_of_pos_right (by linarith) hTa)
  · refine mul_lt_mul_of_pos_right ?_ (hfr fr)
    simp only [if_true]
    refine he.mono ?_
    rw [neg_div, neg_div, neg_lt_neg_iff]
    exact div_lt_div_of_pos_left hd hTa (mul_lt_mul_of_pos_right hTT ha)
  · refine mul_lt_mul_of_pos_left ?_ (han an)
    simp only [if_true]
    exact div_lt_div_of_pos_left hp hc hw

/-- C72: at temperature zero (the last cycle of an annealed iteration) a candidate is accepted exactly if it is not
worse, whatever the frequencies say (the quotient 0/0 makes the probability NaN for equal costs, which is accepted). -/
theorem C72_cold (hF : Env.Formats K) (hls : LsOk o) (S : EvolSetting o d cur ops N)
    (hR : E.R = Rounding.exact K) (e : K → K) (he : ExpLike E.libm e) (s : Stats K) (ps : List K)
    (hs : s.normalized = ps.map .fin) (m : Member K) (hm : m.Good d ops N) (al cm : K) (hal : o.alpha = .fin al)
    (han : o.annealing = true) (hcm : m.cost = .fin cm) (ev : Evaluator K) (hev : ev.Ready d) (c : Counters)
    (g g' : Rng (Fl K)) (r : GenOut K) (h : nextGeneration o d cur (.fin 0) s ev c m g = some (r, g')) :
    ∃ k g0, sampleMutation (conditionWeights o m cur d.x.rows o.weights) g = some (k, g0) ∧
      Verdict o d cur ops N (.fin 0) ev c m (fun b u => b.cost.le m.cost = true ∨ (Fl.fin 0).lt u = false ) k g0 r g' := by
  refine nextGeneration_verdict hF hls S hm hev h _ fun b u hb => ?_
  cases hcb : b.cost with
  | fin cb =>
    have hw := (sizeWeight_pos ps o.maxsize b.complexity)
    have hw' := (sizeWeight_pos ps o.maxsize m.complexity)
    have hq : E.R.div (sizeFreq o s m.complexity) (sizeFreq o s b.complexity)
        = .fin (sizeWeight ps o.maxsize m.complexity / sizeWeight ps o.maxsize b.complexity) := by
      rw [sizeFreq_exact hR o hs, sizeFreq_exact hR o hs, hR, exact_div _ _ hw.ne']
    have hqp := div_pos hw' hw
    have hex : E.R.div (E.R.sub b.cost m.cost).neg (E.R.mul (.fin 0) o.alpha)
        = Rounding.signInf (cm - cb) := by
      rw [hR, hal, hcm, hcb]
      simp only [Rounding.sub, Fl.neg, Rounding.add, Rounding.exact, Rounding.mul, Rounding.div, zero_mul, if_true]
      congr 1; ring
    unfold acceptProb
    simp only [han, if_true]
    rw [hex, hq, hcm]
    generalize sizeWeight ps o.maxsize m.complexity / sizeWeight ps o.maxsize b.complexity = q at hqp
    simp only [Fl.le, decide_eq_true_eq]
    rcases lt_trichotomy cb cm with hlt | heq | hgt
    · have : Rounding.signInf (cm - cb) = Fl.pinf := by rw [Rounding.signInf, if_pos (by linarith)]
      rw [this, he.pinf, hR]
      have h1 : (Rounding.exact K).mul (.fin 1) .pinf = .pinf := by
        simp [Rounding.mul, Rounding.signInf]
      have h2 : (Rounding.exact K).mul .pinf (.fin q) = .pinf := by
        simp [Rounding.mul, Rounding.signInf, hqp]
      rw [h1, h2]
      cases o.useFrequency <;> cases u <;> simp [Fl.lt, hlt.le]
    · have : Rounding.signInf (cm - cb) = Fl.nan := by
        rw [Rounding.signInf, if_neg (by linarith), if_neg (by linarith)]
      rw [this, he.nan, hR]
      cases o.useFrequency <;> cases u <;> simp [Fl.lt, heq, Rounding.mul]
    · have : Rounding.signInf (cm - cb) = Fl.ninf := by
        rw [Rounding.signInf, if_neg (by linarith), if_pos (by linarith)]
      rw [this, he.ninf, hR]
      have h1 : (Rounding.exact K).mul (.fin 1) (.fin 0) = .fin 0 := by simp [Rounding.mul, Rounding.exact]
      have h2 : (Rounding.exact K).mul (.fin 0) (.fin q) = .fin 0 := by simp [Rounding.mul, Rounding.exact]
      rw [h1, h2]
      have : ¬ cb ≤ cm := by linarith
      cases o.useFrequency <;> simp [this]
  | _ => rw [hcb] at hb; cases hb

/-- C72: in every arithmetic, without annealing and without frequencies every candidate with finite scores is accepted
(the uniform number is never above 1). -/
theorem C72_free (hF : Env.Formats K) (hls : LsOk o) (S : EvolSetting o d cur ops N) (han : o.annealing = false)
    (hfr : o.useFrequency = false) (m : Member K) (hm : m.Good d ops N) (T : Fl K) (s : Stats K) (ev : Evaluator K)
    (hev : ev.Ready d) (c : Counters) (g g' : Rng (Fl K)) (r : GenOut K)
    (h : nextGeneration o d cur T s ev c m g = some (r, g')) :
    ∃ k g0, sampleMutation (conditionWeights o m cur d.x.rows o.weights) g = some (k, g0) ∧
      Verdict o d cur ops N T ev c m (fun _ u => (Fl.fin 1).lt u = false) k g0 r g' := by
  refine nextGeneration_verdict hF hls S hm hev h _ fun b u hb => ?_
  unfold acceptProb
  simp only [han, hfr, Bool.false_eq_true, if_false]

/-- C72: a child with finite scores of a parent of infinite cost is always accepted when annealing, at any temperature
(exact arithmetic). -/
theorem C72_infinite_parent (hF : Env.Formats K) (hls : LsOk o) (S : EvolSetting o d cur ops N)
    (hR : E.R = Rounding.exact K) (e : K → K) (he : ExpLike E.libm e) (s : Stats K) (ps : List K)
    (hs : s.normalized = ps.map .fin) (m : Member K) (hm : m.Good d ops N) (t al : K) (hal : o.alpha = .fin al)
    (ht : 0 ≤ t * al) (han : o.annealing = true) (hcm : m.cost = .pinf) (ev : Evaluator K) (hev : ev.Ready d)
    (c : Counters) (g g' : Rng (Fl K)) (r : GenOut K)
    (h : nextGeneration o d cur (.fin t) s ev c m g = some (r, g')) :
    ∃ k g0, sampleMutation (conditionWeights o m cur d.x.rows o.weights) g = some (k, g0) ∧
      Verdict o d cur ops N (.fin t) ev c m (fun _ _ => True) k g0 r g' := by
  refine nextGeneration_verdict hF hls S hm hev h _ fun b u hb => ?_
  cases hcb : b.cost with
  | fin cb =>
    have hw := (sizeWeight_pos ps o.maxsize b.complexity)
    have hw' := (sizeWeight_pos ps o.maxsize m.complexity)
    have hq : E.R.div (sizeFreq o s m.complexity) (sizeFreq o s b.complexity)
        = .fin (sizeWeight ps o.maxsize m.complexity / sizeWeight ps o.maxsize b.complexity) := by
      rw [sizeFreq_exact hR o hs, sizeFreq_exact hR o hs, hR, exact_div _ _ hw.ne']
    have hqp := div_pos hw' hw
    have hex : E.R.div (E.R.sub b.cost m.cost).neg (E.R.mul (.fin t) o.alpha) = .pinf := by
      rw [hR, hal, hcm, hcb]
      simp only [Rounding.sub, Fl.neg, Rounding.add, Rounding.exact, Rounding.mul, Rounding.div, if_neg ht.not_gt]
    unfold acceptProb
    simp only [han, if_true]
    rw [hex, hq, he.pinf, hR]
    generalize sizeWeight ps o.maxsize m.complexity / sizeWeight ps o.maxsize b.complexity = q at hqp
    have h1 : (Rounding.exact K).mul (.fin 1) .pinf = .pinf := by simp [Rounding.mul, Rounding.signInf]
    have h2 : (Rounding.exact K).mul .pinf (.fin q) = .pinf := by simp [Rounding.mul, Rounding.signInf, hqp]
    rw [h1, h2]
    cases o.useFrequency <;> cases u <;> simp [Fl.lt]
  | _ => rw [hcb] at hb; cases hb

/-! ### The temperature schedule -/

theorem srLoop_cycles (s : Stats K) (n : Nat) : ∀ (k : Nat) (st : EvolState K) (hh : Hall K)
    (g g' : Rng (Fl K)) (x : EvolState K × Hall K), k ≤ n → srLoop o d cur s n k st hh g = some (x, g') →
    Cycles o d cur s (temperatureAt o n) (n - k) k (st, hh) g x g'
  | 0, st, hh, g, g', x, _, h => by
    obtain ⟨rfl, rfl⟩ := Rand.pure_inv h
    exact .nil _ _ _
  | k + 1, st, hh, g, g', x, hk, h => by
    unfold srLoop at h
    obtain ⟨st1, g1, h1, h⟩ := Rand.bind_inv h
    obtain ⟨b, g2, h2, h3⟩ := Rand.bind_inv h
    obtain ⟨h4, rfl⟩ := Rand.lift_inv h2
    have := srLoop_cycles s n k st1 b g2 g' x (by omega) h3
    rw [show n - k = n - (k + 1) + 1 by omega] at this
    exact .cons h1 h4 this

omit [IsStrictOrderedRing K] in
theorem Cycles.congr {s : Stats K} {T T' : Nat → Fl K} {i n : Nat} {x y : EvolState K × Hall K} {g g' : Rng (Fl K)}
    (h : Cycles o d cur s T i n x g y g') : (∀ j, i ≤ j → j < i + n → T j = T' j) →
    Cycles o d cur s T' i n x g y g' := by
  induction h with
  | nil => exact fun _ => .nil _ _ _
  | @cons i n st st1 h h1 y g g1 g2 a b c ih =>
    intro hT
    refine .cons ?_ b (ih fun j h1 h2 => hT j (by omega) (by omega))
    rw [← hT i (le_refl _) (by omega)]; exact a

/-- C72: one iteration runs `max(ncycles, 1)` cycles of regularised evolution, each followed by an update of the hall of
fame with the whole population; cycle `i` of `n` runs at temperature `1 - i/(n-1)` when annealing (1 if there is only
one cycle) and at temperature 1 otherwise (exact arithmetic). -/
theorem C72_schedule (hR : E.R = Rounding.exact K) (s : Stats K) (st : EvolState K) (g g' : Rng (Fl K))
    (x : EvolState K × Hall K) (h : srCycle o d cur s st g = some (x, g')) :
    ∃ h0, (Hall.new o.maxsize).update o.cx cur st.pop = some h0 ∧
      Cycles o d cur s (fun i => .fin (if o.annealing = true ∧ 1 < o.ncyclesPerIteration
        then 1 - (i : K) / ((o.ncyclesPerIteration - 1 : Nat) : K) else 1))
        0 (max o.ncyclesPerIteration 1) (st, h0) g x g' := by
  unfold srCycle at h
  obtain ⟨h0, g1, e1, h'⟩ := Rand.bind_inv h
  obtain ⟨e2, rfl⟩ := Rand.lift_inv e1
  refine ⟨h0, e2, ?_⟩
  have := srLoop_cycles s _ _ _ _ _ _ _ (Nat.le_refl _) h'
  rw [Nat.sub_self] at this
  refine this.congr fun j _ hj => ?_
  unfold temperatureAt
  simp only
  by_cases hn : 1 < o.ncyclesPerIteration
  · rw [if_neg (by omega), show max o.ncyclesPerIteration 1 = o.ncyclesPerIteration by omega]
    have h0 : ((o.ncyclesPerIteration - 1 : Nat) : K) ≠ 0 := by
      have : o.ncyclesPerIteration - 1 ≠ 0 := by omega
      exact_mod_cast this
    rw [hR]
    simp only [Rounding.ofNat, Rounding.exact, Rounding.div, if_neg h0]
    cases o.annealing
    · simp [Rounding.sub, Fl.neg, Rounding.add, Rounding.mul]
    · simp [Rounding.sub, Fl.neg, Rounding.add, Rounding.mul, hn]; ring
  · rw [if_pos (by omega), if_neg (fun h => hn h.2)]

/-- C72: in every float format that represents -1 and the cycle numbers exactly, an annealed iteration of more than one
cycle starts at temperature 1, ends at 0, and never heats up in between; without annealing the temperature is
constantly 1. -/
theorem C72_cooling (hR : E.R.Lawful) (hneg : E.R.rnd (-1) = .fin (-1)) (n : Nat) (hn : 1 < n)
    (hrep : ∀ i, i < n → E.R.ofNat i = .fin (i : K)) :
    (o.annealing = true → temperatureAt o n 0 = .fin 1 ∧ temperatureAt o n (n - 1) = .fin 0 ∧
      ∀ i j, i ≤ j → j < n → ∃ x y : K, temperatureAt o n i = .fin x ∧ temperatureAt o n j = .fin y ∧
        0 ≤ y ∧ y ≤ x ∧ x ≤ 1) ∧
    (o.annealing = false → ∀ i, i < n → temperatureAt o n i = .fin 1) := by
  have hp : (0 : K) < ((n - 1 : Nat) : K) := by
    have : 0 < n - 1 := by omega
    exact_mod_cast this
  have key : ∀ i, i < n → ∃ q, E.R.rnd ((i : K) / ((n - 1 : Nat) : K)) = .fin q ∧ 0 ≤ q ∧ q ≤ 1 ∧ E.R.rnd q = .fin q := by
    intro i hi
    have h1 : (0 : K) ≤ (i : K) / ((n - 1 : Nat) : K) := div_nonneg (Nat.cast_nonneg _) hp.le
    have h2 : (i : K) / ((n - 1 : Nat) : K) ≤ 1 := by
      rw [div_le_one hp]
      have : i ≤ n - 1 := by omega
      exact_mod_cast this
    obtain ⟨q, e1, e2, e3, -⟩ := rnd_between hR hR.zero hR.one h1 h2
    exact ⟨q, e1, e2, e3, hR.idem e1⟩
  have hdiv : ∀ i, i < n → E.R.div (E.R.ofNat i) (E.R.ofNat (n - 1)) = E.R.rnd ((i : K) / ((n - 1 : Nat) : K)) := by
    intro i hi
    rw [hrep i hi, hrep (n - 1) (by omega)]
    simp only [Rounding.div, if_neg hp.ne']
  constructor
  · intro ha
    have hsub : E.R.sub (.fin 0) (.fin 1) = .fin (-1) := by
      simp only [Rounding.sub, Fl.neg, Rounding.add, zero_add, hneg]
    have form : ∀ i, i < n → ∀ q, E.R.rnd ((i : K) / ((n - 1 : Nat) : K)) = .fin q → 0 ≤ q → q ≤ 1 →
        ∃ z x, E.R.rnd (-q) = .fin z ∧ E.R.rnd (1 + z) = .fin x ∧ temperatureAt o n i = .fin x ∧ -1 ≤ z ∧ z ≤ 0 ∧
          0 ≤ x ∧ x ≤ 1 := by
      intro i hi q hq h0 h1
      obtain ⟨z, z1, z2, z3, -⟩ := rnd_between hR hneg hR.zero (show -1 ≤ -q by linarith) (show -q ≤ 0 by linarith)
      obtain ⟨x, x1, x2, x3, -⟩ := rnd_between hR hR.zero hR.one (show 0 ≤ 1 + z by linarith) (show 1 + z ≤ 1 by linarith)
      refine ⟨z, x, z1, x1, ?_, z2, z3, x2, x3⟩
      unfold temperatureAt
      simp only [ha, if_true]
      rw [if_neg (by omega), hsub, hdiv i hi, hq]
      simp only [Rounding.mul, mul_neg, mul_one]
      rw [z1]
      simp only [Rounding.add]
      exact x1
    refine ⟨?_, ?_, fun i j hij hj => ?_⟩
    · obtain ⟨z, x, h1, h2, h3, -⟩ := form 0 (by omega) 0 (by simp [hR.zero]) (le_refl _) zero_le_one
      rw [neg_zero, hR.zero] at h1
      obtain rfl := Fl.fin.inj h1
      rw [add_zero, hR.one] at h2
      rw [h3, h2]
    · obtain ⟨z, x, h1, h2, h3, -⟩ := form (n - 1) (by omega) 1 (by rw [div_self hp.ne', hR.one]) zero_le_one (le_refl _)
      rw [hneg] at h1
      obtain rfl := Fl.fin.inj h1
      rw [add_neg_cancel, hR.zero] at h2
      rw [h3, h2]
    · obtain ⟨q, a1, a2, a3, -⟩ := key i (by omega)
      obtain ⟨q', b1, b2, b3, -⟩ := key j hj
      obtain ⟨z, x, c1, c2, c3, c4, c5, c6, c7⟩ := form i (by omega) q a1 a2 a3
      obtain ⟨z', x', d1, d2, d3, d4, d5, d6, d7⟩ := form j hj q' b1 b2 b3
      refine ⟨x, x', c3, d3, d6, ?_, c7⟩
      have m1 : q ≤ q' := by
        have : (i : K) / ((n - 1 : Nat) : K) ≤ (j : K) / ((n - 1 : Nat) : K) :=
          div_le_div_of_nonneg_right (by exact_mod_cast hij) hp.le
        have := hR.mono this
        rw [a1, b1] at this; simpa [Fl.le] using this
      have m2 : z' ≤ z := by
        have := hR.mono (neg_le_neg m1)
        rw [c1, d1] at this; simpa [Fl.le] using this
      have := hR.mono (add_le_add_right m2 1)
      rw [c2, d2] at this; simpa [Fl.le] using this
  · intro ha i hi
    obtain ⟨q, a1, a2, a3, -⟩ := key i hi
    unfold temperatureAt
    simp only [ha, Bool.false_eq_true, if_false]
    rw [if_neg (by omega), hdiv i hi, a1]
    simp [Rounding.sub, Fl.neg, Rounding.add, Rounding.mul, hR.zero, hR.one]

end SR

namespace SR.Demo

/-- A rational stand-in for the exponential. -/
def ratExp (x : ℚ) : ℚ := if 0 ≤ x then 1 + x else 1 / (1 - x)

/-- The demonstration environment with it. -/
@[reducible] def annealEnv : Env ℚ :=
  { env with libm := { env.libm with exp := fun
      | .fin x => .fin (ratExp x) | .pinf => .pinf | .ninf => .fin 0 | .nan => .nan } }

local instance instAccept : Env ℚ := annealEnv

/-- Annealing and frequencies switched on. -/
def annealOpts : SOptions ℚ := { opts with annealing := true, useFrequency := true }

theorem ratExpLike : ExpLike annealEnv.libm ratExp where
  fin _ := rfl
  pinf := rfl
  ninf := rfl
  nan := rfl
  pos x := by
    unfold ratExp
    split
    · linarith
    · exact div_pos one_pos (by linarith)
  zero := by norm_num [ratExp]
  mono := by
    intro x y h
    unfold ratExp
    split <;> split
    · linarith
    · linarith
    · next h1 h2 =>
      have : 1 / (1 - x) < 1 := by rw [div_lt_one (by linarith)]; linarith
      linarith
    · exact one_div_lt_one_div_of_lt (by linarith) (by linarith)

theorem annealSetting : EvolSetting annealOpts data 7 opIds 7 := 
  { operators := by decide
    ops_ok := by decide
    cxD := rfl
    cx := cx_wf
    data := data_wf
    rows := by decide
    nf_pos := by decide
    nf_le := by decide
    cur_lt := by decide
    maxsize_le := by decide
    size := fun t _ h => by
      have h1 := h.size
      have h2 := weights_default (o := opts.cx) (by decide) t
      exact h2 ▸ h1
    room := by decide
    two := by decide }

end SR.Demo

namespace SR.Demo

local instance instAccept2 : Env ℚ := annealEnv

/-- The member `1 + x`, as if it were perfect. -/
def annealParent : Option (Member ℚ) :=
  (Member.fromExpr 5 none 7 expr 1).map fun m => { m with complexity := 3, loss := .fin 0, cost := .fin 0 }

/-- One generation of it at temperature `t` with stream `k`: whether the candidate was accepted, and the evaluations. -/
def annealTry (k : Nat) (t : ℚ) : Option (Bool × Nat) :=
  annealParent.bind fun m => (nextGeneration annealOpts data 7 (.fin t) (Stats.new (Rounding.exact ℚ) 7 100)
    (Evaluator.new 2) ⟨10, 10⟩ m (gen k)).map fun r => (r.1.accepted, r.1.evals)

/-- The hypotheses of the acceptance theorems hold for a concrete parent, and the temperature matters: with the same
random stream a candidate is rejected at temperature 1/2 and one is accepted at temperature 1000. -/
example : EvolSetting annealOpts data 7 opIds 7 ∧ ExpLike annealEnv.libm ratExp ∧
    (∃ m, annealParent = some m ∧ m.Good data opIds 7 ∧ m.cost = .fin 0) ∧
    (Stats.new (Rounding.exact ℚ) 7 100).normalized = (List.replicate 7 (1 / 7 : ℚ)).map .fin ∧
    annealTry 3 (1 / 2) = some (false, 1) ∧ annealTry 3 1000 = some (true, 1) := by
  refine ⟨annealSetting, ratExpLike, ?_, by decide +kernel, by decide +kernel, by decide +kernel⟩
  have hset : ExprSetting data expr tree := 
    { nodes := rfl
      wf := by
        simp only [tree, Tree.WF, expr, data, Tree.all_op, List.length_cons, List.length_nil]
        exact ⟨⟨by decide, by decide, rfl⟩, by simp⟩
      lim := by simp [InLimits, tree, expr, data, u16Max, Tree.numOps]
      data := data_wf
      rows := by decide }
  obtain ⟨m, h1, h2, h3, -⟩ := C55_from_expr data expr tree hset 5 7 none
  refine ⟨{ m with complexity := 3, loss := .fin 0, cost := .fin 0 }, ?_, ⟨⟨tree, ?_, ?_, by decide, ?_⟩, h2⟩, rfl⟩
  · unfold annealParent
    have : Member.fromExpr 5 none 7 expr 1 = some m := h1
    rw [this]; rfl
  · show m.expr.nodes = _
    rw [h3]; rfl
  · show tree.Uses opIds data.x.rows m.expr.consts.length
    rw [h3]
    simp only [tree, Tree.Uses, expr, data, Tree.all_op, List.length_cons, List.length_nil]
    exact ⟨by decide, by simp⟩
  · show m.expr.consts.length ≤ 7
    rw [h3]; decide

end SR.Demo
