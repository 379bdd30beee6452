import Verif.Proofs.Sound
import Verif.Spec.Schedule
import Verif.Props.Loss
/-
Initialisation of a search: total, sound, and what it returns.
-/
namespace SR
variable {K : Type} [Field K] [LinearOrder K] [E : Env K]
variable {o : SOptions K} {d : Dataset K} {cur : Nat} {ops : List OpId} {N : Nat}

omit [Field K] [LinearOrder K] E in
theorem Evaluator.new_ready [Field K] [LinearOrder K] [Env K] (d : Dataset K) :
    (Evaluator.new d.x.cols : Evaluator K).Ready d := ⟨by simp [Evaluator.new], by simp [Evaluator.new, Buf.WF, Buf.zeros]⟩

/-- A population as it is initialised. -/
structure PopState.Initial (o : SOptions K) (d : Dataset K) (ops : List OpId) (N i : Nat) (ps : PopState K) : Prop where
  sound : ps.Sound o d ops N
  scored : ∀ m ∈ ps.pop, m.Scored o d
  ids : ps.pop.map (·.id) = (List.range o.populationSize).map (i * 2 ^ 32 % 2 ^ 64 + ·)
  births : ps.pop.map (·.birth) = List.range o.populationSize
  nextId : ps.counters.nextId = i * 2 ^ 32 % 2 ^ 64 + o.populationSize
  nextBirth : ps.counters.nextBirth = o.populationSize
  batch : ps.batch = none
  ctx : ps.ctx = DContext.new d.x.cols

theorem initPop_sound (S : EvolSetting o d o.maxsize ops N) (hN : max o.maxsize 1 ≤ N) (i : Nat) (rng : Rng (Fl K))
    {hall : Hall K} (hh : hall.Sound o d ops N) :
    ∃ ps hall', initPop o d i rng hall = some (ps, hall') ∧ ps.Initial o d ops N i ∧ hall'.Sound o d ops N := by
  obtain ⟨st, g, h1, s, c1, c2, ms, e, i1, b1, l1⟩ := initMembers_sound S hN o.populationSize
    ⟨[], Evaluator.new d.x.cols, ⟨i * 2 ^ 32 % 2 ^ 64, 0⟩, hall⟩ ⟨by simp, Evaluator.new_ready d, hh⟩ rng
  simp only [List.nil_append] at e
  rw [← e] at i1 b1 l1
  refine ⟨_, _, by rw [initPop, h1]; rfl, ⟨⟨l1, fun m hm => (s.members m hm).1, s.ev⟩,
    fun m hm => (s.members m hm).2, i1, ?_, c1, by rw [c2]; simp, rfl, rfl⟩, s.hall⟩
  rw [b1]; simp

theorem initPops_sound (S : EvolSetting o d o.maxsize ops N) (hN : max o.maxsize 1 ≤ N) (seeds : Nat → Rng (Fl K)) :
    ∀ (k i : Nat) {hall : Hall K}, hall.Sound o d ops N →
    ∃ pops hall', initPops o d seeds k i hall = some (pops, hall') ∧ pops.length = k ∧
      (∀ (j : Nat) (ps : PopState K), pops[j]? = some ps → ps.Initial o d ops N (i + j)) ∧ hall'.Sound o d ops N
  | 0, i, hall, hh => ⟨[], hall, rfl, rfl, by simp, hh⟩
  | k + 1, i, hall, hh => by
    obtain ⟨ps, h1, e1, p1, s1⟩ := initPop_sound S hN i (seeds i) hh
    obtain ⟨pops, h2, e2, l2, p2, s2⟩ := initPops_sound S hN seeds k (i + 1) s1
    refine ⟨ps :: pops, h2, by rw [initPops, e1]; simp only [Option.bind_eq_bind, Option.bind_some]; rw [e2]; rfl,
      by simp [l2], ?_, s2⟩
    intro j q hq
    cases j with
    | zero => simp only [List.getElem?_cons_zero, Option.some.injEq] at hq; subst hq; exact p1
    | succ j =>
      rw [List.getElem?_cons_succ] at hq
      have := p2 j q hq
      rwa [show i + 1 + j = i + (j + 1) by omega] at this

/-- A sound member's loss is a number or `+∞`. -/
theorem Member.Sound.loss_not_nan {m : Member K} (h : m.Sound o d ops N) : m.loss.isNan = false := by
  obtain ⟨e0, t0, -, -, hl⟩ := h.loss
  rw [hl]
  cases he : exprLoss o d t0 e0.consts with
  | none => rfl
  | some v =>
    unfold exprLoss at he
    split at he
    · rw [Option.filter_eq_some_iff] at he
      have := he.2
      cases v <;> simp [Fl.isFinite] at this ⊢
      rfl
    · cases he

theorem checkConstraints_feasible (S : EvolSetting o d o.maxsize ops N) (hcur : cur ≤ o.maxsize) {m : Member K}
    (hm : m.Good d ops N) : ∃ ok, checkConstraints o.cx cur m.expr.nodes = some ok ∧
      (ok = true ↔ FeasibleExpr o.cx cur m.expr) := by
  obtain ⟨t, hn, hu, -⟩ := hm.expr
  obtain ⟨ok, h1, h2⟩ := C23_accepts_iff o.cx S.cx cur (S.down hcur).cur_lt t (S.proper hu) (S.arityLe hu)
  refine ⟨ok, by rw [hn]; exact h1, ?_⟩
  rw [h2]
  constructor
  · exact fun h => ⟨t, hn, h⟩
  · rintro ⟨t', hn', ha⟩
    rw [toPostfix_injective (hn.symm.trans hn')]; exact ha

/-- The least feasible member. -/
theorem initBestLoop_spec (S : EvolSetting o d o.maxsize ops N) : ∀ (ms : List (Member K)) (best : Option (Member K)),
    (∀ m ∈ ms, m.Sound o d ops N) → (∀ b, best = some b → b.loss.isNan = false) →
    ∃ r, initBestLoop o ms best = some r ∧
      (r = none ↔ best = none ∧ ∀ m ∈ ms, ¬ FeasibleExpr o.cx o.maxsize m.expr) ∧
      (∀ b, r = some b → (best = some b ∨ b ∈ ms ∧ FeasibleExpr o.cx o.maxsize b.expr)) ∧
      (∀ b0, best = some b0 → ∃ b, r = some b ∧ b.loss.le b0.loss = true) ∧
      (∀ b, r = some b → ∀ m ∈ ms, FeasibleExpr o.cx o.maxsize m.expr → b.loss.le m.loss = true)
  | [], best, _, hb => ⟨best, rfl, by simp, fun b h => .inl h, fun b0 h => ⟨b0, h, Fl.le_refl (hb b0 h)⟩, by simp⟩
  | m :: ms, best, hg, hb => by
    obtain ⟨ok, h1, hfeas⟩ := checkConstraints_feasible S (Nat.le_refl _) (hg m (by simp)).good
    have hnan := (hg m (by simp)).loss_not_nan
    have ih := fun b => initBestLoop_spec S ms b fun x hx => hg x (by simp [hx])
    unfold initBestLoop
    rw [h1]
    simp only [Option.bind_eq_bind, Option.bind_some]
    cases ok with
    | false =>
      have hnf : ¬ FeasibleExpr o.cx o.maxsize m.expr := fun h => by simpa using hfeas.mpr h
      obtain ⟨r, e, p, q, w, z⟩ := ih best hb
      refine ⟨r, by simpa using e, ?_, ?_, w, ?_⟩
      · rw [p]; simp [hnf]
      · intro b hb
        rcases q b hb with h | h
        · exact .inl h
        · exact .inr ⟨by simp [h.1], h.2⟩
      · intro b hr x hx hxf
        rcases List.mem_cons.mp hx with rfl | hx
        · exact absurd hxf hnf
        · exact z b hr x hx hxf
    | true =>
      have hf : FeasibleExpr o.cx o.maxsize m.expr := hfeas.mp rfl
      cases best with
      | none =>
        obtain ⟨r, e, p, q, w, z⟩ := ih (some m) (by rintro b ⟨⟩; exact hnan)
        refine ⟨r, by simpa using e, ?_, ?_, by simp, ?_⟩
        · rw [p]; simp [hf]
        · intro b hb
          rcases q b hb with h | h
          · simp only [Option.some.injEq] at h; subst h; exact .inr ⟨by simp, hf⟩
          · exact .inr ⟨by simp [h.1], h.2⟩
        · intro b hr x hx hxf
          rcases List.mem_cons.mp hx with rfl | hx
          · obtain ⟨b', h3, h4⟩ := w _ rfl
            rw [hr] at h3; cases h3; exact h4
          · exact z b hr x hx hxf
      | some b0 =>
        have hn0 := hb b0 rfl
        have hmin : (if m.loss.lt b0.loss then m else b0).loss.le m.loss = true ∧
            (if m.loss.lt b0.loss then m else b0).loss.le b0.loss = true := by
          split
          · next h => exact ⟨Fl.le_refl hnan, Fl.le_of_lt h⟩
          · next h => exact ⟨(Fl.le_iff hn0 hnan).mpr (by simpa using h), Fl.le_refl hn0⟩
        obtain ⟨r, e, p, q, w, z⟩ := ih (some (if m.loss.lt b0.loss then m else b0)) (by
          rintro b ⟨⟩; split <;> assumption)
        refine ⟨r, by simpa using e, ?_, ?_, ?_, ?_⟩
        · rw [p]; simp
        · intro b hb
          rcases q b hb with h | h
          · simp only [Option.some.injEq] at h
            split at h
            · subst h; exact .inr ⟨by simp, hf⟩
            · subst h; exact .inl rfl
          · exact .inr ⟨by simp [h.1], h.2⟩
        · intro b1 hb1
          simp only [Option.some.injEq] at hb1
          subst hb1
          obtain ⟨b, h3, h4⟩ := w _ rfl
          exact ⟨b, h3, Fl.le_trans h4 hmin.2⟩
        · intro b hr x hx hxf
          rcases List.mem_cons.mp hx with rfl | hx
          · obtain ⟨b', h3, h4⟩ := w _ rfl
            rw [hr] at h3; cases h3; exact Fl.le_trans h4 hmin.1
          · exact z b hr x hx hxf

/-- The initial best member. -/
theorem initBest_spec (S : EvolSetting o d o.maxsize ops N) (hs : 1 ≤ o.populationSize) {pops : List (PopState K)}
    (hne : pops ≠ []) (hp : ∀ ps ∈ pops, ps.Sound o d ops N) :
    ∃ b, initBest o pops = some b ∧ (∃ ps ∈ pops, b ∈ ps.pop) ∧
      (FeasibleExpr o.cx o.maxsize b.expr ∨
        (pops.head?.bind (·.pop.head?) = some b ∧ ∀ ps ∈ pops, ∀ m ∈ ps.pop, ¬ FeasibleExpr o.cx o.maxsize m.expr)) ∧
      ∀ ps ∈ pops, ∀ m ∈ ps.pop, FeasibleExpr o.cx o.maxsize m.expr → b.loss.le m.loss = true := by
  obtain ⟨r, e, p, q, -, z⟩ := initBestLoop_spec S (pops.flatMap (·.pop)) none (by
    intro m hm
    obtain ⟨ps, h1, h2⟩ := List.mem_flatMap.mp hm
    exact (hp ps h1).pop m h2) (by simp)
  unfold initBest
  rw [e]
  cases r with
  | some b =>
    refine ⟨b, rfl, ?_⟩
    rcases q b rfl with h | ⟨h, hf⟩
    · cases h
    · obtain ⟨ps, h1, h2⟩ := List.mem_flatMap.mp h
      exact ⟨⟨ps, h1, h2⟩, .inl hf, fun ps hps m hm => z b rfl m (List.mem_flatMap.mpr ⟨ps, hps, hm⟩)⟩
  | none =>
    have hnf := (p.mp rfl).2
    obtain ⟨ps, rest, rfl⟩ := List.exists_cons_of_ne_nil hne
    have hsz := (hp ps (by simp)).size
    obtain ⟨m, ms, hm⟩ := List.exists_cons_of_ne_nil (l := ps.pop) (by intro h; rw [h] at hsz; simp at hsz; omega)
    have hnf' : ∀ ps' ∈ ps :: rest, ∀ m ∈ ps'.pop, ¬ FeasibleExpr o.cx o.maxsize m.expr := fun ps' hps m hm =>
      hnf m (List.mem_flatMap.mpr ⟨ps', hps, hm⟩)
    refine ⟨m, by simp [hm], ⟨ps, by simp, by simp [hm]⟩, .inr ⟨by simp [hm], hnf'⟩, ?_⟩
    exact fun ps' hps x hx hf => absurd hf (hnf' ps' hps x hx)

theorem usizeMax_big : 65535 ≤ usizeMax := by unfold usizeMax; omega

theorem Member.Sound.complexity_le (S : EvolSetting o d o.maxsize ops N) {m : Member K} (h : m.Sound o d ops N) :
    m.complexity ≤ usizeMax := by
  obtain ⟨t, hn, hu, hs, -⟩ := h.good.expr
  have hc := h.complexity
  rw [hn] at hc
  by_cases hd : o.cx.usesDefault = true
  · rw [computeComplexity, if_pos hd] at hc
    simp only [Option.some.injEq] at hc
    rw [← hc, length_toPostfix]
    have := S.room
    have := usizeMax_big
    omega
  · rw [C24_complexity o.cx S.cx t (S.arityLe hu), if_neg hd] at hc
    simp only [Option.some.injEq] at hc
    rw [← hc]; exact Nat.min_le_right _ _

section
variable [IsStrictOrderedRing K]

theorem Member.Sound.cost_not_nan (S : EvolSetting o d o.maxsize ops N) (C : CostsOk o) {m : Member K}
    (h : m.Sound o d ops N) : m.cost.isNan = false := by
  rcases h.cost with h1 | ⟨-, h1⟩
  · obtain ⟨f, hf, hpos⟩ := C.floor
    have := C41_monotone_loss C.lawful f hf hpos m.loss m.loss (Fl.le_refl h.loss_not_nan) m.complexity o.parsimony
      (C.penalty _ (h.complexity_le S)) o.useBaseline d.baseline
    rw [h1]; exact (Fl.le_not_nan this).1
  · rw [h1]; rfl

theorem optMapM_forall₂ {α β : Type} {f : α → Option β} : ∀ {l : List α}, (∀ a ∈ l, ∃ b, f a = some b) →
    ∃ bs, l.mapM f = some bs ∧ List.Forall₂ (fun a b => f a = some b) l bs
  | [], _ => ⟨[], rfl, .nil⟩
  | a :: l, h => by
    obtain ⟨b, hb⟩ := h a (by simp)
    obtain ⟨bs, h1, h2⟩ := optMapM_forall₂ (l := l) fun x hx => h x (by simp [hx])
    exact ⟨b :: bs, by simp [List.mapM_cons, hb, h1], .cons hb h2⟩

/-- The initialisation of a search never panics; the state it returns is fresh and sound, and its best member is the
best feasible one. -/
theorem init_total (S : EvolSetting o d o.maxsize ops N) (hN : max o.maxsize 1 ≤ N) (C : CostsOk o)
    (hp : 1 ≤ o.populations) (hs : 1 ≤ o.populationSize) (seeds : Nat → Rng (Fl K)) :
    ∃ s, Shared.init o d seeds = some s ∧ s.Sound o d ops N ∧ s.Fresh o o.populations ∧
      (∀ (i : Nat) (ps : PopState K), s.pops[i]? = some (some ps) → ps.Initial o d ops N i) ∧
      s.totalEvals = o.populations * o.populationSize ∧ (∃ ps, some ps ∈ s.pops ∧ s.best ∈ ps.pop) ∧
      (FeasibleExpr o.cx o.maxsize s.best.expr ∨
        ∀ ps, some ps ∈ s.pops → ∀ m ∈ ps.pop, ¬ FeasibleExpr o.cx o.maxsize m.expr) ∧
      (∀ ps, some ps ∈ s.pops → ∀ m ∈ ps.pop, FeasibleExpr o.cx o.maxsize m.expr → s.best.loss.le m.loss = true) := by
  obtain ⟨pops, hall, e1, l1, p1, s1⟩ := initPops_sound S hN seeds o.populations 0
    (Hall.Sound.new (o := o) (d := d) (ops := ops) (N := N))
  have hini : ∀ ps ∈ pops, ∃ i, ps.Initial o d ops N i := by
    intro ps hps
    obtain ⟨i, hi, he⟩ := List.mem_iff_getElem.mp hps
    exact ⟨_, p1 i ps (by rw [List.getElem?_eq_getElem hi, he])⟩
  have hsnd : ∀ ps ∈ pops, ps.Sound o d ops N := fun ps hps => (hini ps hps).choose_spec.sound
  obtain ⟨b, e2, ⟨ps0, h01, h02⟩, hbf, hbl⟩ := initBest_spec S hs (pops := pops)
    (by intro h; rw [h] at l1; simp at l1; omega) hsnd
  obtain ⟨bs, e3, hbs⟩ := optMapM_forall₂ (f := fun ps : PopState K => bestSubPop E.sort ps.pop o.topn) (l := pops) (by
    intro ps hps
    obtain ⟨best, rest, h, -⟩ := C30_best_sub_pop E.sort ps.pop o.topn
      fun m hm => ((hsnd ps hps).pop m hm).cost_not_nan S C
    exact ⟨best, h⟩)
  have hmem : ∀ ps, some ps ∈ pops.map some → ps ∈ pops := by simp
  refine ⟨_, by rw [Shared.init, e1]; simp only [Option.bind_eq_bind, Option.bind_some]; rw [e2]
                simp only [Option.bind_some]; rw [e3]; rfl,
    ⟨s1, fun ps h => hsnd ps (hmem ps h), ?_, (hsnd ps0 h01).pop b h02, (hini ps0 h01).choose_spec.scored b h02, rfl⟩,
    ⟨by simp [l1], ?_, by rw [← hbs.length_eq, l1], rfl, rfl, rfl⟩, ?_, rfl, ⟨ps0, by simpa using h01, h02⟩, ?_, ?_⟩
  · intro l hl m hm
    obtain ⟨i, hi, he⟩ := List.mem_iff_getElem.mp hl
    have hi' : i < pops.length := hbs.length_eq ▸ hi
    have := (List.forall₂_iff_get.mp hbs).2 i hi' hi
    simp only [List.get_eq_getElem] at this
    rw [he] at this
    exact (hsnd _ (List.getElem_mem hi')).pop m (bestSubPop_sub this m hm)
  · intro i hi
    rw [← l1] at hi
    exact ⟨pops[i], by simp [hi]⟩
  · intro i ps h
    have : pops[i]? = some ps := by simpa using h
    simpa using p1 i ps this
  · rcases hbf with h | ⟨-, h⟩
    · exact .inl h
    · exact .inr fun ps hps => h ps (hmem ps hps)
  · exact fun ps hps => hbl ps (hmem ps hps)

end

end SR
