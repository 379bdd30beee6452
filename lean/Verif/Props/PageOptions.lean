import Verif.Spec.PageOptions
import Verif.Props.WebSession
import Verif.Props.WebSplit
import Verif.Props.Options
import Verif.Props.PageData
/-
C86: the options on the web page are those of the search.
-/
namespace SR

/-! ### Reading values -/

theorem natField_eq {max n : Nat} {v : JsOpt} : natField max v = some n ↔ v = .num (.fin n) ∧ n ≤ max := by
  constructor
  · intro h
    match v, h with
    | .num (.fin x), h =>
      simp only [natField] at h
      split at h
      · next hx =>
        obtain ⟨h1, h2, h3⟩ := hx
        cases h
        have hnum : 0 ≤ x.num := Rat.num_nonneg.mpr h2
        have hx' : x = ((x.num.toNat : Nat) : ℚ) := by
          have h4 : x = (x.num : ℚ) := (Rat.den_eq_one_iff x).mp h1 |>.symm
          have h5 : ((x.num.toNat : ℤ) : ℚ) = (x.num : ℚ) := by rw [Int.toNat_of_nonneg hnum]
          rw [← Int.cast_natCast, h5]
          exact h4
        refine ⟨by rw [← hx'], ?_⟩
        rw [hx'] at h3
        exact_mod_cast h3
      · cases h
  · rintro ⟨rfl, h⟩
    simp only [natField]
    rw [if_pos ⟨Rat.den_natCast n, by exact_mod_cast Nat.zero_le n, by exact_mod_cast h⟩]
    simp

theorem natField_isSome {max : Nat} {v : JsOpt} : (natField max v).isSome = true ↔ ∃ n : Nat, v = .num (.fin n) ∧ n ≤ max := by
  rw [Option.isSome_iff_exists]
  exact exists_congr fun n => natField_eq

theorem mapM_natField {max : Nat} {l : List JsOpt} {ns : List Nat} :
    l.mapM (natField max) = some ns ↔ l = ns.map (fun n : Nat => .num (.fin (n : ℚ))) ∧ ∀ n ∈ ns, n ≤ max := by
  induction l generalizing ns with
  | nil =>
    rw [List.mapM_nil]
    constructor
    · intro h; cases h; simp
    · rintro ⟨h, -⟩
      cases ns with
      | nil => rfl
      | cons a t => simp at h
  | cons v l ih =>
    rw [List.mapM_cons]
    simp only [Option.bind_eq_bind, Option.bind_eq_some_iff, Option.pure_def, Option.some.injEq]
    constructor
    · rintro ⟨n, hn, t, ht, rfl⟩
      obtain ⟨rfl, h1⟩ := natField_eq.mp hn
      obtain ⟨rfl, h2⟩ := ih.mp ht
      refine ⟨rfl, fun k hk => ?_⟩
      rcases List.mem_cons.mp hk with rfl | hk
      · exact h1
      · exact h2 k hk
    · rintro ⟨h1, h2⟩
      cases ns with
      | nil => cases h1
      | cons n t =>
        rw [List.map_cons, List.cons.injEq] at h1
        exact ⟨n, natField_eq.mpr ⟨h1.1, h2 n (by simp)⟩, t, ih.mpr ⟨h1.2, fun k hk => h2 k (by simp [hk])⟩, rfl⟩

theorem accepts_iff (ty : FieldTy) (v : JsOpt) : ty.accepts v = true ↔ Suits ty v := by
  cases ty with
  | count =>
    rw [FieldTy.accepts, natField_isSome]
    exact ⟨fun ⟨n, h, hn⟩ => h ▸ .count (by unfold wasmUsizeMax at hn; omega), fun h => by
      cases h with | count h => exact ⟨_, rfl, by unfold wasmUsizeMax; omega⟩⟩
  | seed =>
    rw [FieldTy.accepts, natField_isSome]
    exact ⟨fun ⟨n, h, hn⟩ => h ▸ .seed (by unfold maxSafeInteger at hn; omega), fun h => by
      cases h with | seed h => exact ⟨_, rfl, by unfold maxSafeInteger; omega⟩⟩
  | small =>
    rw [FieldTy.accepts, natField_isSome]
    exact ⟨fun ⟨n, h, hn⟩ => h ▸ .small (by omega), fun h => by
      cases h with | small h => exact ⟨_, rfl, by omega⟩⟩
  | real =>
    rw [FieldTy.accepts]
    exact ⟨fun h => (by cases v <;> first | exact .real _ | cases h), fun h => (by cases h; rfl)⟩
  | single =>
    rw [FieldTy.accepts]
    exact ⟨fun h => (by cases v <;> first | exact .single _ | cases h), fun h => (by cases h; rfl)⟩
  | flag =>
    rw [FieldTy.accepts]
    exact ⟨fun h => (by cases v <;> first | exact .flag _ | cases h), fun h => (by cases h; rfl)⟩
  | text =>
    rw [FieldTy.accepts]
    exact ⟨fun h => (by cases v <;> first | exact .text _ | cases h), fun h => (by cases h; rfl)⟩
  | column =>
    rw [FieldTy.accepts]
    constructor
    · intro h
      by_cases hv : v = .null
      · exact hv ▸ .noColumn
      · have : (natField wasmUsizeMax v).isSome = true := by
          cases v <;> first | exact absurd rfl hv | simpa [optField] using h
        obtain ⟨n, h, hn⟩ := natField_isSome.mp this
        exact h ▸ .column (by unfold wasmUsizeMax at hn; omega)
    · intro h
      cases h with
      | noColumn => rfl
      | @column n h =>
        have := natField_isSome.mpr ⟨n, rfl, show n ≤ wasmUsizeMax by unfold wasmUsizeMax; omega⟩
        simpa [optField] using this
  | columns =>
    rw [FieldTy.accepts]
    constructor
    · intro h
      cases v with
      | null => exact .noColumns
      | arr l =>
        simp only [optField, listField, Option.isSome_map] at h
        obtain ⟨ns, h⟩ := Option.isSome_iff_exists.mp h
        obtain ⟨rfl, h2⟩ := mapM_natField.mp h
        exact .columns fun n hn => by have := h2 n hn; unfold wasmUsizeMax at this; omega
      | _ => simp [optField, listField] at h
    · intro h
      cases h with
      | noColumns => rfl
      | columns h =>
        simp only [optField, listField, Option.isSome_map]
        rw [mapM_natField.mpr ⟨rfl, fun n hn => by have := h n hn; unfold wasmUsizeMax; omega⟩]
        rfl
  | weights =>
    rw [FieldTy.accepts]
    constructor
    · intro h
      cases v with
      | obj l =>
        simp only [weightsField] at h
        split at h
        · next ha =>
          refine .weights fun name hn x hx => ?_
          have := List.all_eq_true.mp ha name hn
          rw [hx] at this
          cases x <;> first | exact ⟨_, rfl⟩ | cases this
        · cases h
      | _ => simp [weightsField] at h
    · intro h
      cases h with
      | weights h =>
        simp only [weightsField]
        rw [if_pos, Option.isSome_some]
        rw [List.all_eq_true]
        intro name hn
        cases hl : List.lookup name _ with
        | none => rfl
        | some v => obtain ⟨x, rfl⟩ := h name hn v hl; rfl

/-- C86: the options can be read exactly if every value suits its field. -/
theorem C86_readable (o : JsObj) : readable o = true ↔ AllSuit o := by
  unfold readable AllSuit
  rw [List.all_eq_true]
  constructor
  · intro h name ty hm v hv
    have := h (name, ty) hm
    rw [hv] at this
    exact (accepts_iff ty v).mp this
  · rintro h ⟨name, ty⟩ hm
    cases hl : List.lookup name o with
    | none => rfl
    | some v => exact (accepts_iff ty v).mpr (h name ty hm v hl)

/-! ### Fields -/

section
variable {o : JsObj} (ho : AllSuit o)
include ho

theorem shows_nat {ty : FieldTy} {max : Nat} (hty : ∀ v, Suits ty v → ∃ n : Nat, v = .num (.fin n) ∧ n ≤ max) {name : String}
    (hm : (name, ty) ∈ webFields) (d : Nat) : ShowsCount o name d (o.read (natField max) name d) := by
  unfold JsObj.read
  refine ⟨fun h => by rw [h], fun v h => ?_⟩
  obtain ⟨n, hn, hle⟩ := hty _ (ho name ty hm _ h)
  rw [h]
  simp only
  rw [natField_eq.mpr ⟨hn, hle⟩, Option.getD_some]
  cases hn; rfl

theorem shows_count {name : String} (hm : (name, FieldTy.count) ∈ webFields) (d : Nat) : ShowsCount o name d (o.count name d) :=
  shows_nat ho (fun v hv => by cases hv; exact ⟨_, rfl, by unfold wasmUsizeMax; omega⟩) hm d

theorem shows_small {name : String} (hm : (name, FieldTy.small) ∈ webFields) (d : Nat) :
    ShowsCount o name d (o.read (natField 65535) name d) :=
  shows_nat ho (fun v hv => by cases hv; exact ⟨_, rfl, by omega⟩) hm d

theorem shows_seed {name : String} (hm : (name, FieldTy.seed) ∈ webFields) (d : Nat) :
    ShowsCount o name d (o.read (natField maxSafeInteger) name d) :=
  shows_nat ho (fun v hv => by cases hv; exact ⟨_, rfl, by unfold maxSafeInteger; omega⟩) hm d

omit ho in
theorem shows_real (o : JsObj) (name : String) (d : Fl ℚ) : ShowsReal o name d (o.real name d) := by
  unfold JsObj.real JsObj.read
  exact ⟨fun h => by rw [h], fun x h => by rw [h]; rfl⟩

omit ho in
theorem shows_flag (o : JsObj) (name : String) (d : Bool) : ShowsFlag o name d (o.flag name d) := by
  unfold JsObj.flag JsObj.read
  exact ⟨fun h => by rw [h], fun x h => by rw [h]; rfl⟩

omit ho in
theorem shows_single (o : JsObj) (name : String) (d : Fl ℚ) : ShowsSingle o name d (o.read singleField name d) := by
  unfold JsObj.read
  refine ⟨fun h => by rw [h], fun x h => by rw [h]; rfl, fun x hx h => ?_⟩
  rw [h]
  cases x <;> first | rfl | cases hx

theorem shows_column {name : String} (hm : (name, FieldTy.column) ∈ webFields) :
    ShowsColumn o name (o.read (optField (natField wasmUsizeMax)) name none) := by
  unfold JsObj.read
  refine ⟨fun h => by rcases h with h | h <;> rw [h] <;> rfl, fun v h => ?_⟩
  have hs := ho name _ hm _ h
  rw [h]
  cases hs with
  | column hn =>
    refine ⟨_, ?_, rfl⟩
    simp only [optField]
    rw [natField_eq.mpr ⟨rfl, by unfold wasmUsizeMax; omega⟩]
    rfl

theorem shows_columns : ShowsColumns o o.columns where
  hasHeaders := shows_flag o _ _
  target := shows_column ho (by simp [webFields])
  weights := shows_column ho (by simp [webFields])
  features := by
    unfold JsObj.columns JsObj.read
    refine ⟨fun h => by rcases h with h | h <;> simp only [h] <;> rfl, fun l h => ?_⟩
    have hs := ho "x_columns" .columns (by simp [webFields]) _ h
    generalize hg : JsOpt.arr l = v at hs
    cases hs with
    | noColumns => cases hg
    | @columns ns hn =>
      cases hg
      refine ⟨ns, ?_, rfl⟩
      simp only [h, optField, listField]
      rw [mapM_natField.mpr ⟨rfl, fun n hm => by have := hn n hm; unfold wasmUsizeMax; omega⟩]
      rfl

omit ho in
theorem shows_loss (o : JsObj) : ShowsLoss o o.loss where
  kind := by
    unfold JsObj.loss JsObj.read
    exact ⟨fun h => by simp only [h], fun s h => by simp only [h]; rfl⟩
  delta := shows_real o _ _
  p := shows_real o _ _
  tau := shows_real o _ _
  eps := shows_real o _ _

theorem shows_weight (name : String) (d : Fl ℚ) :
    ShowsWeight o name d ((o.read weightsField "mutation_weights" []).real name d) := by
  refine ⟨fun h => ?_, fun l h => ?_⟩
  · unfold JsObj.read
    rw [h]
    rfl
  · have hs := (accepts_iff .weights _).mpr (ho "mutation_weights" .weights (by simp [webFields]) _ h)
    have : o.read weightsField "mutation_weights" [] = l := by
      unfold JsObj.read
      rw [h]
      rw [FieldTy.accepts] at hs
      simp only [weightsField] at hs ⊢
      split at hs
      · next hc => rw [if_pos hc]; rfl
      · cases hs
    rw [this]
    exact shows_real l name d

theorem shows_core (D : Nat) (sqrt : Fl ℚ → Fl ℚ) (finiteMax : Nat) : ShowsCore o (o.core (SOptions.default D sqrt finiteMax)) := by
  constructor
  all_goals first
    | exact shows_count ho (by simp [webFields]) _
    | exact shows_small ho (by simp [webFields]) _
    | exact shows_real o _ _
    | exact shows_single o _ _
    | exact shows_flag o _ _
    | exact shows_weight ho _ _

end

/-! ### Sessions -/

section
variable [Env ℚ] {S : OpTable} {ws : Char → Bool} {streams : Nat → Streams} {m : InitMsg}

/-- C86: a session that was opened for options all of whose values suit their fields has exactly these options: header switch, columns,
validation fraction, loss, seed, and all numbers and flags of the search, each with the documented default where the page has none; and
the operators named. -/
theorem C86_session (hws : ∀ c, ws c = true → c.isAlpha = false ∧ c ≠ '-' ∧ c ≠ '_') (D : Nat) (sqrt : Fl ℚ → Fl ℚ) (finiteMax : Nat)
    (ho : AllSuit m.options) {s : Session ℚ} (h : wasmNew S ws (SOptions.default D sqrt finiteMax) streams m = some (some s)) :
    ShowsCore m.options s.opts ∧
    (∃ l, ShowsLoss m.options l ∧ l.Selects ws s.opts.loss) ∧
    (∃ seed, ShowsCount m.options "seed" 0 seed ∧
      Engine.new s.opts s.train (streams seed).seeds (streams seed).order = some s.engine) ∧
    (∃ c fraction headers rows train, ShowsColumns m.options c ∧ ShowsReal m.options "validation_fraction" (lit64 0) fraction ∧
      sessionRead c.hasHeaders m.text = some (headers, rows) ∧ IsSplit headers rows c fraction s.names s.split train s.val ∧
      s.train.x = train.x ∧ s.train.y = train.y ∧ s.train.weights = train.weights) ∧
    ∃ ops : List OpId, List.Forall₂ (fun (n : List Char × Nat) op => S.lookupWithArity ws n.1 n.2 = .ok op)
      (m.unary.map (·, 1) ++ m.binary.map (·, 2) ++ m.ternary.map (·, 3)) ops ∧ s.opts.operators = Operators.of 3 ops := by
  have he : effective m.options = m.options := by unfold effective; rw [if_pos ((C86_readable _).mpr ho)]
  unfold wasmNew at h
  simp only [he] at h
  split at h
  · cases h
  · next headers rows hr =>
    obtain ⟨ops, h0⟩ := C73_opened _ _ _ _ _ _ _ h
    obtain ⟨train, h1, h2⟩ := h0.data
    obtain ⟨t1, t2, t3⟩ := tagged_fields h2
    have hcore := shows_core ho D sqrt finiteMax
    have e1 := h0.options.core
    have e2 := h0.options.cx
    refine ⟨?_, ⟨_, shows_loss _, (C73_loss ws hws _ _).mp h0.options.loss⟩,
      ⟨_, shows_seed ho (by simp [webFields]) 0, h0.engine⟩,
      ⟨_, _, headers, rows, train, shows_columns ho, shows_real _ _ _, hr, h1, t1, t2, t3⟩,
      ops, h0.operators.2.1, h0.options.operators⟩
    rw [e1, e2]
    exact ⟨hcore.niterations, hcore.populations, hcore.populationSize, hcore.ncycles, hcore.batchSize, hcore.ofConstants,
      hcore.ofVariables, hcore.maxsize, hcore.maxsizeStats, hcore.maxdepth, hcore.warmup, hcore.parsimony, hcore.scaling,
      hcore.crossover, hcore.perturbation, hcore.negate, hcore.entrants, hcore.place, hcore.alpha, hcore.nrestarts,
      hcore.optProbability, hcore.optIterations, hcore.optCalls, hcore.replaced, hcore.replacedHof, hcore.topn, hcore.useFrequency,
      hcore.useFrequencyTour, hcore.skip, hcore.annealing, hcore.optimize, hcore.migration, hcore.hofMigration, hcore.baseline,
      hcore.simplify, hcore.batching, hcore.wConstant, hcore.wOperator, hcore.wFeature, hcore.wSwap, hcore.wRotate, hcore.wAdd,
      hcore.wInsert, hcore.wDelete, hcore.wSimplify, hcore.wRandomize, hcore.wNothing, hcore.wOptimize⟩

/-- C86, the exception: if a single value does not suit its field, the session (or the error) is the one for an empty options object:
every option on the page is ignored, the columns and the loss included, and nobody is told. -/
theorem C86_unsuitable (d : SOptions ℚ) (ho : ¬ AllSuit m.options) :
    wasmNew S ws d streams m = wasmNew S ws d streams { m with options := [] } := by
  have h1 : effective m.options = [] := by
    unfold effective
    rw [if_neg (by rw [C86_readable]; exact ho)]
  have h2 : effective [] = [] := by unfold effective; split <;> rfl
  unfold wasmNew
  simp only [h1, h2, webRequestOf]

/-- C86: an input on the page changes the options it is about and no other. -/
theorem C86_patch (name : String) (v : JsOpt) (o : JsObj) :
    (patchOptions [(name, v)] o).lookup name = some v ∧
    ∀ other, other ≠ name → (patchOptions [(name, v)] o).lookup other = o.lookup other := by
  unfold patchOptions
  refine ⟨by simp, fun other h => ?_⟩
  rw [List.singleton_append, List.lookup_cons, beq_false_of_ne h]

end

/-! ### Requests that can be searched -/

/-- A request with sensible numbers and flags (C75), of tables that are not too wide, and of which training rows are left. -/
structure WebRequest.Feasible [E : Env ℚ] (q : WebRequest ℚ) : Prop where
  sensible : Sensible q.core
  migrants : FewMigrants q.core
  constants' : 1 ≤ q.core.cx.complexityOfConstants
  variables' : 1 ≤ q.core.cx.complexityOfVariables
  width : ∀ row ∈ q.rows, row.length ≤ 65536
  training : nVal q.rows.length q.validationFraction < q.rows.length

/-- The operators of the table are those the arithmetic knows. -/
structure OpTable.KnownTo (S : OpTable) (E : Env ℚ) : Prop where
  nodup : ∀ a, (S.opsWithArity a).Nodup
  known : ∀ a id, 1 ≤ a → a ≤ 3 → id ∈ S.opsWithArity a → E.ops.known a id = true

section
variable [E : Env ℚ] {S : OpTable} {ws : Char → Bool} {q : WebRequest ℚ}

theorem feasible_search (hE : RustEnv E) (hD : E.D = 3) (hS : S.KnownTo E) (hq : q.Feasible) {ops : List OpId} {o : SOptions ℚ}
    {names : List String} {split : Split} {train d : Dataset ℚ} {val : Option (Dataset ℚ)}
    (h1 : q.Operators S ws ops) (h2 : q.Configures ws ops o)
    (h3 : IsSplit q.headers q.rows q.columns q.validationFraction names split train val)
    (e1 : d.x = train.x) (e2 : d.y = train.y) (e3 : d.weights = train.weights) : SensibleSearch o d ops := by
  obtain ⟨hp, hs, nCols, yCol, f, cols, hv, ht, -, hr, -⟩ := h3
  have hl := hp.length_eq
  rw [List.length_append, List.length_range, hs] at hl
  have htr := hq.training
  have hrows : 0 < train.x.cols := by rw [hr.rows]; omega
  have hw : nCols ≤ 65536 := by
    obtain ⟨row, hrow⟩ := List.exists_mem_of_ne_nil _ hv.nonempty
    rw [← hv.width row hrow]; exact hq.width row hrow
  have hcl : ∀ c ∈ cols, c < nCols ∧ c ≠ yCol := by
    intro c hc
    have := (ht.wanted c).mp hc
    unfold WantsColumn at this
    split at this
    · next v hv' => exact ⟨((hv.features v hv').2 c this).1, ((hv.features v hv').2 c this).2.1⟩
    · exact ⟨this.1, this.2.1⟩
  have hnd : cols.Nodup := ht.ascending.imp (fun h => Nat.ne_of_lt h)
  have hlen : cols.length + 1 ≤ nCols := by
    have hsub : (yCol :: cols) ⊆ List.range nCols := by
      intro c hc
      rw [List.mem_range]
      rcases List.mem_cons.mp hc with rfl | hc
      · exact hv.targetLt
      · exact (hcl c hc).1
    have hnd' : (yCol :: cols).Nodup := List.nodup_cons.mpr ⟨fun h => (hcl _ h).2 rfl, hnd⟩
    have := (hnd'.subperm hsub).length_le
    simpa using this
  have hpos : 1 ≤ cols.length := by
    have : ∃ c, c ∈ cols := by
      cases hx : q.columns.xColumns with
      | some v =>
        obtain ⟨c, hc⟩ := List.exists_mem_of_ne_nil _ (hv.features v hx).1
        exact ⟨c, (ht.wanted c).mpr (by unfold WantsColumn; rw [hx]; exact hc)⟩
      | none =>
        obtain ⟨c, hc⟩ := hv.left hx
        exact ⟨c, (ht.wanted c).mpr (by unfold WantsColumn; rw [hx]; exact hc)⟩
    obtain ⟨c, hc⟩ := this
    exact List.length_pos_of_mem hc
  have hfeat : d.x.rows = cols.length := by rw [e1, hr.shape.features]; exact ht.nFeatures
  obtain ⟨c1, c2, c3, c4⟩ := h2
  have g := hq.sensible
  have gD := g.dim
  refine ⟨hE, ?_, ?_, by rw [c3, hD], ?_, ⟨by rw [e1, e2]; exact hr.shape.y, by rw [e1, e3]; exact hr.shape.weights⟩,
    by rw [e1]; exact hrows, by rw [hfeat]; exact hpos, by rw [hfeat]; omega⟩
  · rw [c1, c2]
    have hk : 1 ≤ q.core.cx.complexityOfConstants := hq.constants'
    have hk' : 1 ≤ q.core.cx.complexityOfVariables := hq.variables'
    exact
      { dim := hD.symm
        cx := ⟨g.cx.const_le, g.cx.var_le, (fun _ h => by cases h), (fun _ h => by cases h), (fun _ h => by cases h),
          (fun _ h => by cases h)⟩
        nodes := fun x => by
          cases x with
          | const _ => exact hk
          | var _ => exact hk'
          | op _ _ => exact Nat.le_refl 1
        maxsize := g.maxsize
        maxsize' := g.maxsize'
        room := g.room
        warmup := g.warmup
        parsimony := g.parsimony
        populations := g.populations
        populationSize := g.populationSize
        counts := g.counts
        entrants := g.entrants
        entrants' := g.entrants'
        draw := g.draw
        place := g.place
        place' := g.place'
        tourMaxsize := g.tourMaxsize
        weights := g.weights
        always := g.always
        batching := g.batching
        lineSearch := g.lineSearch }
  · rw [c1]; exact hq.migrants
  · intro op hop
    obtain ⟨-, hf, hle, -⟩ := h1
    have key : ∀ (l : List (List Char × Nat)) (ops : List OpId),
        List.Forall₂ (fun (n : List Char × Nat) op => S.lookupWithArity ws n.1 n.2 = .ok op) l ops →
        (∀ n ∈ l, 1 ≤ n.2 ∧ n.2 ≤ 3) → ∀ op ∈ ops, 1 ≤ op.arity ∧ op.arity ≤ E.D ∧ E.ops.known op.arity op.id = true := by
      intro l ops hf
      induction hf with
      | nil => intro _ op h; cases h
      | @cons n op' l ops hn _ ih =>
        intro hall op hop
        rcases List.mem_cons.mp hop with rfl | hop
        · obtain ⟨⟨ha, hid⟩, -⟩ := (((C18_lookup_with_arity S ws n.1 n.2 (hS.nodup n.2)).1 op).mp hn)
          obtain ⟨n1, n2⟩ := hall n (by simp)
          rw [ha, hD]
          exact ⟨n1, n2, hS.known _ _ n1 n2 hid⟩
        · exact ih (fun n hn => hall n (by simp [hn])) op hop
    refine key _ _ hf ?_ op hop
    intro n hn
    simp only [List.mem_append, List.mem_map] at hn
    rcases hn with (⟨a, -, rfl⟩ | ⟨a, -, rfl⟩) | ⟨a, -, rfl⟩ <;> simp

/-- C86: a session is refused only with an error of the request (C73): if the options are sensible, it opens. -/
theorem C86_opens (hE : RustEnv E) (hD : E.D = 3) (hS : S.KnownTo E) (hq : q.Feasible) (splitRng : Rng (Fl ℚ))
    (seeds : Nat → Rng (Fl ℚ)) (orderRng : Rng (Fl ℚ)) (hops : ∃ ops, q.Operators S ws ops)
    (hv : ∃ nCols yCol, ValidRequest q.rows q.columns nCols yCol) (hl : q.loss.parse ws ≠ none) :
    ∃ s, Session.open S ws q splitRng seeds orderRng = some (some s) := by
  refine C73_opens S ws q splitRng seeds orderRng ?_ ?_
  · intro h
    rcases (C73_refused _ _ _ _ _ _).mp h with h | h | h
    · obtain ⟨ops, ho⟩ := hops; exact h ops ho
    · obtain ⟨n, y, hv⟩ := hv; exact h n y hv
    · exact hl h
  · intro ops o names split train val d h1 h2 h3 e1 e2 e3
    exact ⟨_, (feasible_search hE hD hS hq h1 h2 h3 e1 e2 e3).setting⟩

/-- C86: the defaults are sensible. -/
theorem default_feasible (hD : E.D = 3) (sqrt : Fl ℚ → Fl ℚ) (finiteMax : Nat) (hcore : q.core = SOptions.default 3 sqrt finiteMax)
    (hw : ∀ row ∈ q.rows, row.length ≤ 65536) (ht : nVal q.rows.length q.validationFraction < q.rows.length) : q.Feasible := by
  obtain ⟨h1, h2⟩ := C75_default (E := E) (by omega) sqrt finiteMax (Operators.new 3)
  rw [hD] at h1 h2
  refine ⟨by rw [hcore]; exact h1, by rw [hcore]; exact h2, ?_, ?_, hw, ht⟩ <;> rw [hcore] <;> exact Nat.le_refl 1

end
end SR

/-! ### Concrete cases -/

namespace SR
namespace OptDemo
open Demo PageDemo

/-- An environment as Rust has it, for operators of up to three arguments. -/
@[reducible] def optEnv : Env ℚ := { rustEnv with D := 3 }

theorem optEnv_ok : RustEnv optEnv where
  f64 := rfl
  f32 := rfl
  data := .inl rfl
  floor := rustEnv_ok.floor
  sqrt := rustEnv_ok.sqrt
  sort := rustEnv_ok.sort
  exp := rustEnv_ok.exp
  fuel := rustEnv_ok.fuel

local instance instOptDemo : Env ℚ := optEnv

theorem table_known : webTable.KnownTo optEnv where
  nodup := fun a => by
    match a with
    | 1 => decide
    | 2 => decide
    | 0 => exact List.nodup_nil
    | (n + 3) => exact List.nodup_nil
  known := fun a id h1 h3 h => by
    have : a = 1 ∨ a = 2 ∨ a = 3 := by omega
    rcases this with rfl | rfl | rfl
    · revert h; change id ∈ [0] → _; simp only [List.mem_singleton]; rintro rfl; rfl
    · change id ∈ [0, 1, 2] at h
      simp only [List.mem_cons, List.not_mem_nil, or_false] at h
      rcases h with rfl | rfl | rfl <;> rfl
    · cases h

/-- The message of the page: a heading and the line `5,7`, the operators `neg` and `+`, and the options. -/
def msg (o : JsObj) : InitMsg := ⟨[[name "a", name "b"], [cell 5, cell 7]], o, ["neg".toList], ["+".toList], []⟩

theorem msg_operators (d : SOptions ℚ) (o o' : JsObj) (h : List String) (rows : List (List (Fl ℚ))) :
    (webRequestOf d o (msg o') h rows).Operators webTable Char.isWhitespace [⟨1, 0⟩, ⟨2, 0⟩] := by
  refine ⟨by simp [webRequestOf, msg], ?_, by decide, by decide⟩
  show List.Forall₂ _ [("neg".toList, 1), ("+".toList, 2)] _
  exact .cons (by decide +kernel) (.cons (by decide +kernel) .nil)

theorem mse_parse : (JsObj.loss []).parse Char.isWhitespace ≠ none := by
  have h : trimWs Char.isWhitespace "mse".toList = "mse".toList := by decide +kernel
  show WebLoss.named _ ((trimWs Char.isWhitespace "mse".toList).map Char.toLower) ≠ none
  rw [h]
  exact fun h => by cases h

theorem empty_core (sqrt : Fl ℚ → Fl ℚ) (finiteMax : Nat) :
    JsObj.core [] (SOptions.default 3 sqrt finiteMax) = SOptions.default 3 sqrt finiteMax := rfl

theorem white_ok : ∀ c, Char.isWhitespace c = true → c.isAlpha = false ∧ c ≠ '-' ∧ c ≠ '_' := by
  intro c h
  simp only [Char.isWhitespace, Bool.or_eq_true, decide_eq_true_eq] at h
  rcases h with ((rfl | rfl) | rfl) | rfl <;> decide

/-- Whatever the streams, a session opens for the table when the options that count are none. -/
theorem opens (o : JsObj) (ho : effective o = []) (sqrt : Fl ℚ → Fl ℚ) (finiteMax : Nat) (streams : Nat → Streams) :
    ∃ s, wasmNew webTable Char.isWhitespace (SOptions.default 3 sqrt finiteMax) streams (msg o) = some (some s) := by
  unfold wasmNew
  simp only [show (msg o).options = o from rfl, ho]
  have hr : sessionRead (JsObj.columns []).hasHeaders (msg o).text = some (["a", "b"], [[.fin 5, .fin 7]]) := by
    show sessionRead true [[name "a", name "b"], [cell 5, cell 7]] = _
    decide +kernel
  rw [hr]
  refine C86_opens (E := optEnv) optEnv_ok rfl table_known (default_feasible (E := optEnv) rfl sqrt finiteMax (empty_core sqrt finiteMax) ?_ ?_)
    _ _ _ ⟨_, msg_operators _ _ _ _ _⟩ ⟨2, 1, ?_⟩ mse_parse
  · intro row hrow
    cases List.mem_singleton.mp hrow
    show 2 ≤ 65536
    decide
  · show nVal 1 (lit64 0) < 1
    decide +kernel
  · exact
    { nonempty := by simp [webRequestOf]
      width := fun row hrow => by cases List.mem_singleton.mp hrow; rfl
      two := Nat.le_refl 2
      target := rfl
      targetLt := by decide
      weights := fun wc h => by cases h
      features := fun v h => by cases h
      left := fun _ => ⟨0, by decide, by decide, by simp [webRequestOf, JsObj.columns, JsObj.read]⟩ }

/-- The targets of the session for the table, when the options that count are none. -/
theorem targets (o : JsObj) (ho : effective o = []) (d : SOptions ℚ) (streams : Nat → Streams) {s : Session ℚ}
    (h : wasmNew webTable Char.isWhitespace d streams (msg o) = some (some s)) : s.train.y = [.fin 7] := by
  unfold wasmNew at h
  simp only [show (msg o).options = o from rfl, ho] at h
  have hr : sessionRead (JsObj.columns []).hasHeaders (msg o).text = some (["a", "b"], [[.fin 5, .fin 7]]) := by
    show sessionRead true [[name "a", name "b"], [cell 5, cell 7]] = _
    decide +kernel
  rw [hr] at h
  obtain ⟨ops, h0⟩ := C73_opened _ _ _ _ _ _ _ h
  obtain ⟨train, h1, h2⟩ := h0.data
  obtain ⟨t1, t2, t3⟩ := tagged_fields h2
  obtain ⟨hp, hs, nCols, yCol, f, cols, hv, ht, -, hr, -⟩ := h1
  have hn : nCols = 2 := (hv.width [.fin 5, .fin 7] (by simp [webRequestOf])).symm
  have hy : yCol = 1 := by rw [hv.target, hn]; rfl
  have hval : s.split.val = [] := List.length_eq_zero_iff.mp (hs.trans (by show nVal 1 (lit64 0) = 0; decide +kernel))
  rw [hval, List.append_nil] at hp
  have htr : s.split.train = [0] := List.perm_singleton.mp hp
  have hfy := ht.y 0 [.fin 5, .fin 7] rfl
  rw [hy] at hfy
  have hlen := ht.yLen
  have hfy' : f.y = [.fin 7] := by
    match f.y, hlen, hfy with
    | [v], _, h => simpa using h
  rw [t2]
  have hb : train.y.length = 1 := by rw [hr.shape.y, hr.rows, htr]; rfl
  have hrow := (hr.row 0 0 (by rw [htr]; rfl)).y
  match hty : train.y, hb with
  | [v], _ =>
    rw [hty] at hrow
    simpa [hfy'] using hrow

/-- C86, the exception is real: the page says column 0 and a size of at most two and a half: the session opens, whatever the
streams, and the target is not the column 0 (which is 5) but the last column (which is 7). -/
theorem _root_.SR.C86_lost (sqrt : Fl ℚ → Fl ℚ) (finiteMax : Nat) (streams : Nat → Streams) :
    ∃ s, wasmNew webTable Char.isWhitespace (SOptions.default 3 sqrt finiteMax) streams
        (msg [("maxsize", .num (.fin (5 / 2))), ("y_column", .num (.fin 0))]) = some (some s) ∧
      s.train.y = [.fin 7] ∧ s.opts.maxsize = 30 := by
  have ho : effective [("maxsize", .num (.fin (5 / 2))), ("y_column", .num (.fin 0))] = [] := by
    unfold effective
    rw [if_neg]
    rw [C86_readable]
    intro h
    have := h "maxsize" .count (by simp [webFields]) (.num (.fin (5 / 2))) rfl
    rw [← accepts_iff] at this
    revert this
    decide +kernel
  obtain ⟨s, hs⟩ := opens _ ho sqrt finiteMax streams
  refine ⟨s, hs, targets _ ho _ streams hs, ?_⟩
  rw [C86_unsuitable _ (fun h => by
    unfold effective at ho
    rw [if_pos (show readable [("maxsize", .num (.fin (5 / 2))), ("y_column", .num (.fin 0))] = true from (C86_readable _).mpr h)] at ho
    cases ho)] at hs
  exact (C86_session white_ok 3 sqrt finiteMax (fun name ty _ v h => by cases h) hs).1.maxsize.1 rfl

/-- C86, the header switch: where the options have none, the page takes the first line as data and the session takes it as heading:
of the table with the lines `1,2` and `3,4` the page shows two rows and the session has one. -/
theorem _root_.SR.C86_headers :
    JsObj.pageHasHeaders [] = false ∧ (JsObj.columns (effective [])).hasHeaders = true ∧
    (pageParse (JsObj.pageHasHeaders []) [[cell 1, cell 2], [cell 3, cell 4]]).map Parsed.rows = some [[.fin 1, .fin 2], [.fin 3, .fin 4]] ∧
    (sessionRead (JsObj.columns (effective [])).hasHeaders [[cell 1, cell 2], [cell 3, cell 4]]).map Prod.snd = some [[.fin 3, .fin 4]] := by
  refine ⟨rfl, by decide +kernel, by decide +kernel, by decide +kernel⟩

/-- The options of the next example. -/
def chosen : JsObj := [("y_column", .num (.fin 0)), ("niterations", .num (.fin 7))]

theorem chosen_suit : AllSuit chosen := (C86_readable _).mp (by decide +kernel)

theorem chosen_core (d : SOptions ℚ) (h : d.tour.maxsize = d.maxsize) : chosen.core d = { d with niterations := 7 } := by
  have h7 : natField wasmUsizeMax (.num (.fin 7)) = some 7 := by decide +kernel
  obtain ⟨⟩ := d
  simp only at h
  subst h
  simp [JsObj.core, chosen, JsObj.count, JsObj.real, JsObj.flag, JsObj.read, JsObj.weights, List.lookup, h7]

theorem chosen_effective : effective chosen = chosen := by unfold effective; rw [if_pos ((C86_readable _).mpr chosen_suit)]

theorem chosen_read : sessionRead chosen.columns.hasHeaders (msg chosen).text = some (["a", "b"], [[.fin 5, .fin 7]]) := by
  decide +kernel

theorem chosen_feasible (sqrt : Fl ℚ → Fl ℚ) (finiteMax : Nat) :
    (webRequestOf (SOptions.default 3 sqrt finiteMax) chosen (msg chosen) ["a", "b"] [[.fin 5, .fin 7]]).Feasible := by
  obtain ⟨h1, h2⟩ := C75_default (E := optEnv) (by decide) sqrt finiteMax (Operators.new 3)
  have hc : (webRequestOf (SOptions.default 3 sqrt finiteMax) chosen (msg chosen) ["a", "b"] [[.fin 5, .fin 7]]).core =
      { SOptions.default 3 sqrt finiteMax with niterations := 7 } := chosen_core _ rfl
  refine ⟨?_, ?_, ?_, ?_, ?_, ?_⟩
  · rw [hc]
    exact { h1 with counts := by show 7 * 31 * 27 < 2 ^ 53; decide }
  · rw [hc]; exact h2
  · rw [hc]; exact Nat.le_refl 1
  · rw [hc]; exact Nat.le_refl 1
  · intro row hrow
    cases List.mem_singleton.mp hrow
    show 2 ≤ 65536
    decide
  · show nVal 1 (chosen.real "validation_fraction" (lit64 0)) < 1
    decide +kernel

theorem chosen_valid : ValidRequest (K := ℚ) [[.fin 5, .fin 7]] chosen.columns 2 0 := by
  have hy : chosen.columns.yColumn = some 0 := by decide +kernel
  have hx : chosen.columns.xColumns = none := by decide +kernel
  have hw : chosen.columns.weightsColumn = none := by decide +kernel
  exact
    { nonempty := by simp
      width := fun row hrow => by cases List.mem_singleton.mp hrow; rfl
      two := Nat.le_refl 2
      target := by rw [hy]; rfl
      targetLt := by decide
      weights := fun wc h => by rw [hw] at h; cases h
      features := fun v h => by rw [hx] at h; cases h
      left := fun _ => ⟨1, by decide, by decide, by rw [hw]; simp⟩ }

/-- Such sessions exist: the page says column 0 and seven iterations, the session opens, whatever the streams, and has these. -/
theorem chosen_opens (sqrt : Fl ℚ → Fl ℚ) (finiteMax : Nat) (streams : Nat → Streams) :
    ∃ s, wasmNew webTable Char.isWhitespace (SOptions.default 3 sqrt finiteMax) streams (msg chosen) = some (some s) ∧
      s.opts.niterations = 7 ∧ s.opts.populations = 31 := by
  have hopen : ∃ s, wasmNew webTable Char.isWhitespace (SOptions.default 3 sqrt finiteMax) streams (msg chosen) = some (some s) := by
    unfold wasmNew
    simp only [show (msg chosen).options = chosen from rfl, chosen_effective]
    rw [chosen_read]
    exact C86_opens (E := optEnv) optEnv_ok rfl table_known (chosen_feasible sqrt finiteMax) _ _ _ ⟨_, msg_operators _ _ _ _ _⟩
      ⟨2, 0, chosen_valid⟩ mse_parse
  obtain ⟨s, hs⟩ := hopen
  have hc := (C86_session white_ok 3 sqrt finiteMax chosen_suit hs).1
  refine ⟨s, hs, ?_, hc.populations.1 rfl⟩
  have h := hc.niterations.2 (.fin 7) rfl
  simp only [Fl.fin.injEq] at h
  exact_mod_cast h.symm

end OptDemo
end SR
