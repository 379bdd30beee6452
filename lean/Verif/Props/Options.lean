import Verif.Spec.Options
import Verif.Props.NoPanic
import Verif.Props.Stream
import Verif.Props.MutChoice
import Mathlib.Tactic.IntervalCases
/-
C75: with sensible options, the defaults among them, every search returns.
-/
namespace SR

theorem rnd64_pow (k : Nat) (h : k ≤ 1000) : binary64.rnd ((2 : ℚ) ^ k) = .fin ((2 : ℚ) ^ k) := by
  have hp : 1 ≤ fmt64.p := by decide
  have e : fmt64.nearest ((2 : ℚ) ^ k) = (2 : ℚ) ^ k := by
    refine nearest_representable (f := fmt64) hp 1 k ?_ (by decide) (by show (-1022 : Int) - (53 - 1) ≤ k; omega)
    rw [pow2_nat]; simp
  show fmt64.rnd _ = _
  have h1 : (0 : ℚ) < (2 : ℚ) ^ k := by positivity
  have h2 : ((2 : ℚ) ^ k) < pow2 fmt64.emax := by
    rw [← pow2_nat]; exact pow2_lt.mpr (by show (k : Int) < 1024; omega)
  have h3 := pow2_pos fmt64.emax
  rw [rnd_eq', e, if_neg (by linarith), if_neg (by linarith)]

/-- The running total of weights of the format in `[0, 2 ^ b]` is a number, at least each of them. -/
theorem weightedTotal_bounded {b : Nat} : ∀ (ws : List (Fl ℚ)) (t : ℚ) (c : Nat), b ≤ c → c + ws.length ≤ 1000 →
    (∀ w ∈ ws, InF64 0 (2 ^ b) w) → binary64.rnd t = .fin t → 0 ≤ t → t ≤ 2 ^ c →
    ∃ s : ℚ, weightedTotal binary64 ws (.fin t) = some (.fin s) ∧ t ≤ s ∧ ∀ w ∈ ws, w.le (.fin s) = true := by
  intro ws
  induction ws with
  | nil => intro t c _ _ _ _ _ _; exact ⟨t, rfl, le_refl _, by simp⟩
  | cons w ws ih =>
    intro t c hb hc hw ht h0 h1
    obtain ⟨x, rfl, hx, x0, x1⟩ := hw w (by simp)
    simp only [List.length_cons] at hc
    have hle : t + x ≤ 2 ^ (c + 1) := by
      have : (2 : ℚ) ^ b ≤ 2 ^ c := pow_le_pow_right₀ (by norm_num) hb
      rw [pow_succ]; linarith
    have hm : 0 ≤ t + x := by linarith
    obtain ⟨y, ey, y0, y1, hy⟩ := rnd_between binary64_lawful binary64_lawful.zero (rnd64_pow (c + 1) (by omega)) hm hle
    have ty : t ≤ y := by
      have := binary64_lawful.mono (show t ≤ t + x by linarith)
      rw [ht, ey] at this
      simpa [Fl.le] using this
    have xy : x ≤ y := by
      have := binary64_lawful.mono (show x ≤ t + x by linarith)
      rw [hx, ey] at this
      simpa [Fl.le] using this
    obtain ⟨s, es, h2, h3⟩ := ih y (c + 1) (by omega) (by omega) (fun w hw' => hw w (by simp [hw'])) hy y0 y1
    refine ⟨s, ?_, le_trans ty h2, ?_⟩
    · have : (!(Fl.fin x : Fl ℚ).isFinite || (Fl.fin x).lt (.fin 0)) = false := by
        simp [Fl.isFinite, Fl.lt, x0]
      rw [weightedTotal, this]
      have e2 : binary64.add (.fin t) (.fin x) = .fin y := ey
      rw [e2, es]; rfl
    · intro w hw'
      rcases List.mem_cons.mp hw' with rfl | hw'
      · simp only [Fl.le, decide_eq_true_eq]; linarith
      · exact h3 w hw'

/-- Weights of the format in `[0, 2 ^ b]`, one of them positive, can be drawn from. -/
theorem samplable_bounded {b : Nat} {ws : List (Fl ℚ)} (hl : b + ws.length ≤ 1000) (hw : ∀ w ∈ ws, InF64 0 (2 ^ b) w)
    (hpos : ∃ w ∈ ws, Fl.lt (.fin 0) w = true) : Samplable binary64 ws := by
  obtain ⟨s, h1, -, h3⟩ := weightedTotal_bounded ws 0 b (le_refl _) hl hw binary64_lawful.zero (le_refl _) (by positivity)
  refine ⟨.fin s, h1, rfl, ?_⟩
  obtain ⟨w, hm, hp⟩ := hpos
  have := Fl.lt_of_lt_of_le hp (h3 w hm)
  simp only [Fl.lt, Fl.le, decide_eq_true_eq, decide_eq_false_iff_not, not_le] at this ⊢
  exact this

/-- The truncated geometric weights are numbers in `[0, 1]`. -/
theorem geomWeights_unit {q : Fl ℚ} (hq : InF64 0 1 q) : ∀ (n : Nat) (cur : Fl ℚ), InF64 0 1 cur →
    ∀ w ∈ geomWeights binary64 q n cur, InF64 0 1 w := by
  intro n
  induction n with
  | zero => intro cur _ w hw; simp [geomWeights] at hw
  | succ n ih =>
    intro cur hc w hw
    rcases List.mem_cons.mp hw with rfl | hw
    · exact hc
    · refine ih _ ?_ w hw
      obtain ⟨x, rfl, -, x0, x1⟩ := hc
      obtain ⟨y, rfl, -, y0, y1⟩ := hq
      obtain ⟨z, ez, z0, z1, hz⟩ := rnd_between binary64_lawful binary64_lawful.zero binary64_lawful.one
        (mul_nonneg x0 y0) (by nlinarith : x * y ≤ 1)
      exact ⟨z, ez, hz, z0, z1⟩

theorem geomWeights_length {R : Rounding ℚ} {q : Fl ℚ} (n : Nat) : ∀ cur, (geomWeights R q n cur).length = n := by
  induction n with
  | zero => intro _; rfl
  | succ n ih => intro cur; simp [geomWeights, ih]

theorem total_ge_size {W : Weights} (h : ∀ x, 1 ≤ W.node x) (t : Tree) : t.size ≤ W.total t := by
  rw [Weights.total, ← length_toPostfix]
  generalize t.toPostfix = l
  induction l with
  | nil => simp
  | cons x l ih => simp only [List.length_cons, List.map_cons, List.sum_cons]; have := h x; omega

theorem rnd_small {R : Rounding ℚ} (hR : R = binary64 ∨ R = binary32) {x : ℚ} (h : |x| ≤ pow2 126) :
    ∃ y : ℚ, R.rnd x = .fin y := by
  have key : ∀ R : Rounding ℚ, R.Lawful → R.rnd (pow2 126) = .fin (pow2 126) → R.rnd (-pow2 126) = .fin (-pow2 126) →
      ∃ y : ℚ, R.rnd x = .fin y := by
    intro R hl h1 h2
    obtain ⟨h3, h4⟩ := abs_le.mp h
    obtain ⟨y, e, -⟩ := rnd_between hl h2 h1 h3 h4
    exact ⟨y, e⟩
  rcases hR with rfl | rfl
  · exact key _ binary64_lawful (by decide +kernel) (by decide +kernel)
  · exact key _ binary32_lawful (by decide +kernel) (by decide +kernel)

section
variable [E : Env ℚ] {o : SOptions ℚ} {d : Dataset ℚ} {ops : List OpId}

theorem RustEnv.warmup (hE : RustEnv E) : WarmupEnv E := ⟨hE.f32, hE.floor⟩

theorem RustEnv.lawfulT (hE : RustEnv E) : E.RT.Lawful := by
  rcases hE.data with h | h <;> rw [h]
  · exact binary64_lawful
  · exact binary32_lawful

theorem RustEnv.formats (hE : RustEnv E) : Env.Formats ℚ where
  lawful := by rw [hE.f64]; exact binary64_lawful
  lawfulT := hE.lawfulT
  embed v hv := by
    rw [hE.f64]
    rcases hE.data with h | h <;> rw [h] at hv
    · exact hv
    · exact binary32_rep_binary64 v hv
  sqrt := hE.sqrt

theorem RustEnv.costs (hE : RustEnv E) (hp : ∃ x : ℚ, o.parsimony = .fin x ∧ |x| ≤ 2 ^ 60) : CostsOk o where
  lawful := hE.lawfulT
  floor := by
    rcases hE.data with h | h <;> rw [h]
    · obtain ⟨f, hf⟩ : ∃ f, binary64.rnd (1 / 100) = .fin f := rnd_small (.inl rfl) (by decide +kernel)
      refine ⟨f, hf, ?_⟩
      have h2 : Fl.lt (.fin 0) (binary64.rnd (1 / 100)) = true := by decide +kernel
      rw [hf] at h2; simpa [Fl.lt] using h2
    · obtain ⟨f, hf⟩ : ∃ f, binary32.rnd (1 / 100) = .fin f := rnd_small (.inr rfl) (by decide +kernel)
      refine ⟨f, hf, ?_⟩
      have h2 : Fl.lt (.fin 0) (binary32.rnd (1 / 100)) = true := by decide +kernel
      rw [hf] at h2; simpa [Fl.lt] using h2
  penalty c hc := by
    obtain ⟨x, hx, hx'⟩ := hp
    have h64 : E.RT.rnd (2 ^ 64) = .fin (2 ^ 64) := by
      rcases hE.data with h | h <;> rw [h] <;> decide +kernel
    have hc1 : ((c : Nat) : ℚ) ≤ 2 ^ 64 := by
      have : c ≤ 2 ^ 64 := le_trans hc (by decide)
      exact_mod_cast this
    obtain ⟨y, ey, y0, y1, -⟩ := rnd_between hE.lawfulT hE.lawfulT.zero h64 (Nat.cast_nonneg c) hc1
    have hprod : |x * y| ≤ pow2 126 := by
      rw [abs_mul, abs_of_nonneg y0]
      calc |x| * y ≤ 2 ^ 60 * 2 ^ 64 := mul_le_mul hx' y1 y0 (by positivity)
        _ ≤ pow2 126 := by decide +kernel
    obtain ⟨z, ez⟩ := rnd_small hE.data hprod
    have e1 : E.RT.ofNat c = .fin y := ey
    have e2 : E.RT.mul o.parsimony (E.RT.ofNat c) = .fin z := by rw [hx, e1]; exact ez
    rw [e2]; rfl

/-- C75: in a Rust program, sensible options (over operators of the set, on a data set that is well formed, not
empty and has between 1 and 65535 features) are a configuration to which C59 and C64 apply: nothing the search ever
holds is unsound, and it cannot panic. -/
theorem C75_setting (hE : RustEnv E) (S : Sensible o) (hops : o.operators = Operators.of E.D ops)
    (hknown : ∀ op ∈ ops, 1 ≤ op.arity ∧ op.arity ≤ E.D ∧ E.ops.known op.arity op.id = true)
    (hd : d.WF) (hrows : 0 < d.x.cols) (hf : 1 ≤ d.x.rows) (hf' : d.x.rows ≤ 65535) :
    RunSetting o d ops o.maxsize where
  search :=
    { evol :=
        { operators := hops
          ops_ok := hknown
          cxD := S.dim
          cx := S.cx
          data := hd
          rows := hrows
          nf_pos := hf
          nf_le := hf'
          cur_lt := by have := S.maxsize'; have : (65535 : Nat) < usizeMax := by decide
                       omega
          maxsize_le := by have := S.maxsize'; omega
          size := fun t _ ha => le_trans (total_ge_size S.nodes t) ha.size
          room := S.room
          two := S.maxsize' }
      formats := hE.formats
      ls := by
        obtain ⟨sq, fm, h⟩ := S.lineSearch
        exact ⟨by rw [h]; rfl, by rw [h]; show Fl.le (.fin 0) (binary64.rnd (1 / 10000)) = true; decide +kernel⟩
      costs := hE.costs S.parsimony
      batching := S.batching
      populations := S.populations
      populationSize := le_trans (by decide) S.populationSize
      init := by have := S.maxsize; omega
      warmup := by
        intro remaining c hc
        have hn : o.niterations * o.populations ≤ 2 ^ 64 := by
          have h1 := S.counts
          have h2 := S.populationSize
          have h3 : o.niterations * o.populations * 1 ≤ o.niterations * o.populations * o.populationSize :=
            Nat.mul_le_mul_left _ (by omega)
          have h4 : (2 : Nat) ^ 53 ≤ 2 ^ 64 := by decide
          omega
        by_cases hw : Fl.lt (.fin 0) o.warmupMaxsizeBy = true
        · obtain ⟨c', e, -, h⟩ := C43_bounds (o := o) hE.warmup (o.niterations * o.populations) remaining hn (S.warmup hw)
            (by have := S.maxsize'; omega)
          rw [hc, Option.some.injEq] at e
          omega
        · have := (C43_ends (o := o) hE.warmup (o.niterations * o.populations) remaining hn).2.1 (by simpa using hw)
          rw [hc, Option.some.injEq] at this
          omega }
  two := S.populationSize
  tour :=
    { entrants := S.entrants
      draw := by
        rcases S.draw with h | h
        · by_cases h2 : o.populationSize ≤ o.tour.n
          · exact .inr h2
          · left; rw [Nat.min_eq_left (by omega)]; exact h
        · exact .inr h
      place := by
        obtain ⟨p, hp, hr, p0, p1⟩ := S.place
        have hpos := S.place'
        right; right
        rw [hE.f64, hp] at *
        simp only [Fl.lt, decide_eq_true_eq] at hpos
        refine ⟨by simp [Fl.le, hpos], .inr ?_⟩
        obtain ⟨q, eq, q0, q1, hq⟩ := rnd_between binary64_lawful binary64_lawful.zero binary64_lawful.one
          (by linarith : 0 ≤ 1 - p) (by linarith : 1 - p ≤ 1)
        have e : binary64.sub (.fin 1) (.fin p) = .fin q := by
          rw [← eq, sub_eq_add_neg]; rfl
        rw [e]
        have hn := S.entrants'
        have h1 : 1 ≤ min o.tour.n o.populationSize := by
          have := S.entrants; have := S.populationSize; omega
        refine samplable_bounded (b := 0) (by rw [geomWeights_length]; omega) ?_ ?_
        · rw [pow_zero]
          exact geomWeights_unit ⟨q, rfl, hq, q0, q1⟩ _ _ ⟨p, rfl, hr, p0, p1⟩
        · obtain ⟨m, hm⟩ : ∃ m, min o.tour.n o.populationSize = m + 1 := ⟨min o.tour.n o.populationSize - 1, by omega⟩
          rw [hm]
          exact ⟨.fin p, by simp [geomWeights], by simpa [Fl.lt] using hpos⟩
      maxsize := le_of_eq S.tourMaxsize
      scale := fun _ => .inr ⟨hE.sort, S.entrants'⟩ }
  weights :=
    { numbers := by
        intro w hw
        rw [hE.f64]
        obtain ⟨c, hc, rfl⟩ := List.mem_map.mp hw
        obtain ⟨i, hi⟩ := List.mem_iff_getElem?.mp hc
        rw [(choices_of o.weights hi).1]
        obtain ⟨x, h1, h2, -⟩ := S.weights c.1
        exact ⟨x, h1, h2⟩
      drawable := by
        rw [hE.f64]
        refine samplable_bounded (b := 40) (by simp [MutWeights.choices]) ?_ ?_
        · intro w hw
          obtain ⟨c, hc, rfl⟩ := List.mem_map.mp hw
          obtain ⟨i, hi⟩ := List.mem_iff_getElem?.mp hc
          rw [(choices_of o.weights hi).1]
          exact S.weights c.1
        · rcases S.always with h | h | h
          · exact ⟨_, by simp [MutWeights.choices], h⟩
          · exact ⟨o.weights.randomize, by simp [MutWeights.choices], h⟩
          · exact ⟨o.weights.doNothing, by simp [MutWeights.choices], h⟩
      always := S.always
      eight := by rw [hE.f64]; decide +kernel }
  warmup := S.warmup
  counts := by
    rw [hE.f64]
    have := S.counts
    exact ⟨fun n hn => binary64_counts.nat n (by omega), fun x h1 h2 h3 => binary64_counts.pred x h1 h2
      (le_trans h3 (by exact_mod_cast (by omega : 1 + o.niterations * o.populations * o.populationSize ≤ 2 ^ 53)))⟩

/-- The sampler of a migration that replaces fewer than 30 members on average returns. -/
theorem sampler_returns (hE : RustEnv E) {frac : Fl ℚ} {g : Rng (Fl ℚ)}
    (h : (binary64.mul (binary64.ofNat o.populationSize) frac).lt (.fin 30) = true) (hg : UnitStream g) :
    ¬ SamplerStuck o frac g := by
  unfold SamplerStuck poissonSample
  rw [hE.f64]
  generalize binary64.mul (binary64.ofNat o.populationSize) frac = mean at *
  have h30 : binary64.ofNat 30 = .fin 30 := by decide +kernel
  rw [h30, h]
  intro hn
  split at hn
  · cases hn
  · next hc =>
    simp only [if_true] at hn
    cases mean with
    | nan => simp [Fl.lt] at h
    | pinf => simp [Fl.lt] at h
    | ninf => simp [Fl.isFinite] at hc
    | fin x =>
      simp only [Fl.isFinite, Fl.le, Fl.lt, decide_eq_true_eq, Bool.not_true, Bool.false_or, not_le] at hc h
      obtain ⟨y, hy, hy'⟩ := hE.exp (-x) (by linarith) (by linarith)
      obtain ⟨r, hr⟩ := knuth_returns hy' hE.fuel g hg
      have e : E.libm.exp (Fl.neg (.fin x)) = .fin y := hy
      rw [e, hr] at hn
      cases hn

theorem apply_not_stuck (hE : RustEnv E) (hm : FewMigrants o) {s : Shared ℚ} {r : TaskResult ℚ} (hg : UnitStream r.ps.rng) :
    ¬ ApplyStuck o s r := by
  rintro (⟨-, h⟩ | ⟨-, p, g, h1, h2⟩)
  · exact sampler_returns hE hm.1 hg h
  · refine sampler_returns hE hm.2 (fun k => ?_) h2
    have : r.ps.rng.RestOf g := by
      split at h1
      · exact Rand.Consumes.restOf h1
      · exact Rand.Consumes.restOf h1
    exact this.floats hg k

/-- A sensible search problem: the assumptions of the theorems below. -/
structure SensibleSearch (o : SOptions ℚ) (d : Dataset ℚ) (ops : List OpId) : Prop where
  env : RustEnv E
  options : Sensible o
  migrants : FewMigrants o
  operators : o.operators = Operators.of E.D ops
  known : ∀ op ∈ ops, 1 ≤ op.arity ∧ op.arity ≤ E.D ∧ E.ops.known op.arity op.id = true
  data : d.WF
  rows : 0 < d.x.cols
  features : 1 ≤ d.x.rows
  features' : d.x.rows ≤ 65535

theorem SensibleSearch.setting (S : SensibleSearch o d ops) : RunSetting o d ops o.maxsize :=
  C75_setting S.env S.options S.operators S.known S.data S.rows S.features S.features'

/-- C75: the step-wise driver starts, and returns from any number of steps. -/
theorem C75_stepwise (S : SensibleSearch o d ops) {seeds : Nat → Rng (Fl ℚ)} (hs : ∀ i, UnitStream (seeds i))
    (orderRng : Rng (Fl ℚ)) :
    ∃ e, Engine.new o d seeds orderRng = some e ∧ ∀ n, (e.step o d n).isSome = true := by
  obtain ⟨e, h1, h2⟩ := C64_stepwise S.setting seeds orderRng
  refine ⟨e, h1, fun n => ?_⟩
  rcases h2 n with h | ⟨k, j, e', s, t, i, res, -, h3, h4, h5, h6⟩
  · exact h
  · have hown := C74_stepwise h1 h3
    have ht := (dispatch_stream hown h4).2
    exact absurd h6 (apply_not_stuck S.env S.migrants fun k => (ht.trans (run_stream h5)).floats (hs _) k)

/-- C75: the multi-worker driver: in every state it reaches, under every schedule, every pending task returns, and the
driver neither panics nor waits forever. -/
theorem C75_parallel (S : SensibleSearch o d ops) {seeds : Nat → Rng (Fl ℚ)} (hs : ∀ i, UnitStream (seeds i))
    {orderRng : Rng (Fl ℚ)} {nw : Nat} {p q : Par ℚ} {tr : List ParEvent} (hnew : Par.new o d seeds orderRng = some p)
    (hrun : ParRun o d nw p tr q) :
    (∀ t ∈ q.pending, (t.run o d).isSome = true) ∧ ¬ q.Hangs o d nw ∧ ¬ q.Crash o d nw := by
  obtain ⟨h1, h2, h3⟩ := C64_parallel S.setting hnew hrun
  refine ⟨h1, h2, fun hc => ?_⟩
  obtain ⟨t, ht, res, hr, hst⟩ := h3 hc
  have := (C74_parallel hnew hrun).2.1 t ht
  exact apply_not_stuck S.env S.migrants (fun k => (this.trans (run_stream hr)).floats (hs _) k) hst

/-- C75: on a pool of at least two threads the search starts; no execution is longer than a bound known in advance;
no task ever panics; and an execution that cannot go on has returned. -/
theorem C75_pool (S : SensibleSearch o d ops) {seeds : Nat → Rng (Fl ℚ)} (hs : ∀ i, UnitStream (seeds i))
    (orderRng : Rng (Fl ℚ)) {threads : Nat} (ht : 2 ≤ threads) (inPool : Bool) :
    ∃ nw p, Pool.new o d seeds orderRng threads inPool = some (nw, p) ∧ ∀ tr q, PoolRun o d threads nw p tr q →
      tr.length ≤ 3 * (o.niterations * (3 * o.populations + 2)) ∧ (∀ i, .die i ∉ tr) ∧
      (q.Stuck o d threads nw → q.Final o) := by
  obtain ⟨nw, p, hnew, hf, -⟩ := (C63_start S.setting.search seeds orderRng threads inPool (by omega)).2 (fun _ => ht)
  refine ⟨nw, p, hnew, fun tr q hrun => ?_⟩
  obtain ⟨h1, h2⟩ := C64_pool S.setting ht hnew hrun
  refine ⟨C63_terminates hf hrun, h1, fun hstuck => ?_⟩
  rcases h2 hstuck with h | ⟨res, hr, h⟩
  · exact h
  · have := (C74_pool hnew hrun).2.2.1 res hr
    exact absurd h (apply_not_stuck S.env S.migrants fun k => this.floats (hs _) k)

theorem inF64_lit {x lo hi : ℚ} (h : (match binary64.rnd x with | .fin y => decide (lo ≤ y ∧ y ≤ hi) | _ => false) = true) :
    InF64 lo hi (lit64 x) := by
  cases e : binary64.rnd x with
  | fin y =>
    rw [e] at h
    simp only [decide_eq_true_eq] at h
    exact ⟨y, e, binary64_lawful.idem e, h.1, h.2⟩
  | nan => rw [e] at h; cases h
  | pinf => rw [e] at h; cases h
  | ninf => rw [e] at h; cases h

/-- C75: the default options are sensible (for every operator set), and replace fewer than 30 members on average. -/
theorem C75_default (hD : E.D ≤ 65505) (sqrt : Fl ℚ → Fl ℚ) (finiteMax : Nat) (operators : Operators) :
    Sensible { SOptions.default E.D sqrt finiteMax with operators := operators } ∧
    FewMigrants { SOptions.default E.D sqrt finiteMax with operators := operators } := by
  refine ⟨?_, ?_, ?_⟩
  rotate_left
  · show (binary64.mul (binary64.ofNat 27) (lit64 (36 / 100000))).lt (.fin 30) = true
    decide +kernel
  · show (binary64.mul (binary64.ofNat 27) (lit64 (614 / 10000))).lt (.fin 30) = true
    decide +kernel
  exact
    { dim := rfl
      cx := ⟨by show 1 ≤ 65535; decide, by show 1 ≤ 65535; decide, (fun _ h => by cases h), (fun _ h => by cases h), (fun _ h => by cases h), (fun _ h => by cases h)⟩
      nodes := fun x => by cases x <;> exact Nat.le_refl 1
      maxsize := by show 1 ≤ 30; decide
      maxsize' := by show 2 * 30 ≤ 65535; decide
      room := by show 30 + E.D ≤ 65535; omega
      warmup := fun _ => by show 3 ≤ 30; decide
      parsimony := ⟨0, by show lit64 0 = _; decide +kernel, by rw [abs_zero]; positivity⟩
      populations := by show 1 ≤ 31; decide
      populationSize := by show 2 ≤ 27; decide
      counts := by show 100 * 31 * 27 < 2 ^ 53; decide
      entrants := by show 1 ≤ 15; decide
      entrants' := by show min 15 27 ≤ 20; decide
      draw := .inl (by show 27 < 15 * 15; decide)
      place := by
        show InF64 0 1 (lit32 (982 / 1000))
        obtain ⟨y, e⟩ : ∃ y, binary32.rnd (982 / 1000) = .fin y := rnd_small (.inr rfl) (by decide +kernel)
        have h1 : Fl.le (.fin 0) (binary32.rnd (982 / 1000)) = true := by decide +kernel
        have h2 : (binary32.rnd (982 / 1000)).le (.fin 1) = true := by decide +kernel
        rw [e] at h1 h2
        simp only [Fl.le, decide_eq_true_eq] at h1 h2
        exact ⟨y, e, binary32_rep_binary64 (.fin y) (fun x hx => by
          rw [← Fl.fin.inj hx]; exact binary32_lawful.idem e) y rfl, h1, h2⟩
      place' := by show Fl.lt (.fin 0) (lit32 (982 / 1000)) = true; decide +kernel
      tourMaxsize := rfl
      weights := fun k => by
        cases k <;> first | exact inF64_lit (x := 0) (by decide +kernel) | (show InF64 0 (2 ^ 40) (lit64 _); refine inF64_lit ?_; decide +kernel)
      always := .inl (by show Fl.lt (.fin 0) (lit64 (426 / 100)) = true; decide +kernel)
      batching := rfl
      lineSearch := ⟨sqrt, finiteMax, rfl⟩ }

end
end SR

namespace SR
section
variable [E : Env ℚ]

/-- C75: a search with the default options (and any operators of the set) on any such data set returns: the
step-wise driver from any number of steps, the driver on two or more threads under every schedule. -/
theorem C75_default_search (hE : RustEnv E) (hD : E.D ≤ 65505) (sqrt : Fl ℚ → Fl ℚ) (finiteMax : Nat) {ops : List OpId}
    (hknown : ∀ op ∈ ops, 1 ≤ op.arity ∧ op.arity ≤ E.D ∧ E.ops.known op.arity op.id = true)
    {d : Dataset ℚ} (hd : d.WF) (hrows : 0 < d.x.cols) (hf : 1 ≤ d.x.rows) (hf' : d.x.rows ≤ 65535)
    {o : SOptions ℚ} (ho : o = { SOptions.default E.D sqrt finiteMax with operators := Operators.of E.D ops })
    {seeds : Nat → Rng (Fl ℚ)} (hs : ∀ i, UnitStream (seeds i)) (orderRng : Rng (Fl ℚ)) :
    (∃ e, Engine.new o d seeds orderRng = some e ∧ ∀ n, (e.step o d n).isSome = true) ∧
    ∀ threads inPool, 2 ≤ threads → ∃ nw p, Pool.new o d seeds orderRng threads inPool = some (nw, p) ∧
      ∀ tr q, PoolRun o d threads nw p tr q → tr.length ≤ 3 * (100 * (3 * 31 + 2)) ∧ (∀ i, .die i ∉ tr) ∧
        (q.Stuck o d threads nw → q.Final o) := by
  obtain ⟨h1, h2⟩ := C75_default hD sqrt finiteMax (Operators.of E.D ops)
  subst ho
  have S : SensibleSearch _ d ops := ⟨hE, h1, h2, rfl, hknown, hd, hrows, hf, hf'⟩
  exact ⟨C75_stepwise S hs orderRng, fun threads inPool ht => C75_pool S hs orderRng ht inPool⟩

end

namespace Demo

/-- An environment as Rust has it. -/
@[reducible] def rustEnv : Env ℚ :=
  { env64 with lossLib := ⟨id, fun _ => .fin 0, id, fun x _ => x, fun _ => .fin 0⟩, fuel := 2 ^ 150 }

theorem smallSort_small : SmallSorts smallSort := by
  intro α c l _
  match l with
  | [] => exact ⟨_, rfl⟩
  | [a] => exact ⟨_, rfl⟩
  | [a, b] => exact ⟨_, rfl⟩
  | a :: b :: d :: l => exact ⟨_, rfl⟩

/-- Such an environment exists. -/
theorem rustEnv_ok : RustEnv rustEnv where
  f64 := rfl
  f32 := rfl
  data := .inl rfl
  floor _ _ := rfl
  sqrt _ x hx := by
    rw [← Fl.fin.inj hx]; exact binary64_lawful.zero
  sort := smallSort_small
  exp _ _ _ := ⟨1, rfl, by decide +kernel⟩
  fuel := Nat.le_refl _

/-- A stream of draws. -/
def unitGen (k : Nat) : Rng (Fl ℚ) := ⟨fun i => i * i + k, fun i => .fin (if (i + k) % 3 = 0 then 1 / 4 else 7 / 8)⟩

local instance instOptions : Env ℚ := rustEnv

/-- The default options with `-x`, `+`, `*` and `-` on three rows: every search returns. -/
example : ∃ e, Engine.new { SOptions.default 2 id 52 with operators := Operators.of 2 opIds } data unitGen (unitGen 7) = some e ∧
    ∀ n, (e.step { SOptions.default 2 id 52 with operators := Operators.of 2 opIds } data n).isSome = true :=
  (C75_default_search rustEnv_ok (by decide) id 52 (ops := opIds) (by decide) data_wf (by decide) (by decide) (by decide) rfl
    (seeds := unitGen) (fun k i => by
      show UnitDraw (.fin (if (i + k) % 3 = 0 then 1 / 4 else 7 / 8))
      split
      · exact ⟨1 / 4, rfl, by decide +kernel, by norm_num, by norm_num⟩
      · exact ⟨7 / 8, rfl, by decide +kernel, by norm_num, by norm_num⟩) (unitGen 7)).1

end Demo
end SR
