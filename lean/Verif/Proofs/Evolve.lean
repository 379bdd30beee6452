import Verif.Spec.Evolve
import Verif.Props.Member
import Verif.Props.Simplify
import Verif.Props.Random
/-
Proofs about mutation, generations and evolution (Model/Evolve.lean).
-/
namespace SR
variable {K : Type} [Field K] [LinearOrder K] [E : Env K]

theorem Rand.Total.and_post {F α : Type} {m : Rand F α} {P Q : α → Prop} (h : Rand.Total m P) (h' : Rand.Post m Q) :
    Rand.Total m (fun a => P a ∧ Q a) := by
  intro g
  obtain ⟨a, g', e, hp⟩ := h g
  exact ⟨a, g', e, hp, h' g a g' e⟩

theorem Tree.constIdxs_length_le (u : Tree) : u.constIdxs.length ≤ u.size := by
  induction u using Tree.ind with
  | hv f => simp
  | hc c => simp
  | ho o ts ih =>
    rw [Tree.constIdxs_op, Tree.size_op, List.length_flatten, List.map_map]
    have : (ts.map (List.length ∘ Tree.constIdxs)).sum ≤ (ts.map Tree.size).sum := by
      clear * - ih
      induction ts with
      | nil => simp
      | cons u us ih2 =>
        have h1 := ih u (by simp)
        have h2 := ih2 fun v hv => ih v (by simp [hv])
        simp only [List.map_cons, List.sum_cons, Function.comp_apply]
        omega
    omega

theorem Tree.numOps_le_size (u : Tree) : u.numOps ≤ u.size := by
  induction u using Tree.ind with
  | hv f => simp [Tree.numOps]
  | hc c => simp [Tree.numOps]
  | ho o ts ih =>
    rw [show (Tree.op o ts).numOps = 1 + (ts.map Tree.numOps).sum by simp [Tree.numOps], Tree.size_op]
    have : (ts.map Tree.numOps).sum ≤ (ts.map Tree.size).sum := by
      clear * - ih
      induction ts with
      | nil => simp
      | cons u us ih2 =>
        have h1 := ih u (by simp)
        have h2 := ih2 fun v hv => ih v (by simp [hv])
        simp only [List.map_cons, List.sum_cons]
        omega
    omega

/-- Compression of a well-formed expression of at most 65535 nodes. -/
theorem compress_good {ops : List OpId} {nf : Nat} {e : PostfixExpr (Fl K)} {t : Tree} (hn : e.nodes = t.toPostfix)
    (hu : t.Uses ops nf e.consts.length) (hs : t.size ≤ 65535) :
    ∃ e' ch, compressConstants e = some (e', ch) ∧ ∃ t' : Tree, e'.nodes = t'.toPostfix ∧
      t'.Uses ops nf e'.consts.length ∧ t'.size = t.size ∧ e'.consts.length ≤ t.size := by
  obtain ⟨nodes, consts⟩ := e
  cases hn
  have ha := Tree.all_iff.mp hu
  obtain ⟨ρ, cs', ch, h1, -, h3⟩ := C12_compress_correct t consts ha.2.1
    ⟨t.constIdxs, by have := t.constIdxs_length_le; unfold u16Max; omega, fun _ h => h⟩
  have hr := (numberedFrom_iff _ 0 cs'.length).mp h3
  have hr' : firstUses (t.mapConst ρ).constIdxs = List.range cs'.length := by simpa [firstUses] using hr
  refine ⟨_, ch, h1, t.mapConst ρ, rfl, ?_, Tree.size_mapConst .., ?_⟩
  · rw [Tree.Uses, Tree.all_iff, Tree.features_mapConst, Tree.opNodes_mapConst]
    refine ⟨ha.1, fun c hc => ?_, ha.2.2⟩
    have : c ∈ firstUses (t.mapConst ρ).constIdxs := (mem_firstUses _ _).mpr hc
    rw [hr'] at this; simpa using this
  · have h4 := firstUses_length_le (t.mapConst ρ).constIdxs
    rw [hr', List.length_range] at h4
    have h5 := (t.mapConst ρ).constIdxs_length_le
    rw [Tree.size_mapConst] at h5
    show cs'.length ≤ _
    omega

omit [LinearOrder K] [Field K] E in
/-- Compression creates at most one constant per node. -/
theorem compressConstants_small {T : Type} {e e' : PostfixExpr T} {ch : Bool}
    (h : compressConstants e = some (e', ch)) : e'.consts.length ≤ e'.nodes.length := by
  have key : ∀ (l : List PNode) (st st' : CompressState T), l.foldlM (compressStep e.consts) st = some st' →
      st.newConsts.length ≤ st.nodes.length → st'.newConsts.length ≤ st'.nodes.length := by
    intro l
    induction l with
    | nil => intro st st' h hs; cases h; exact hs
    | cons n ns ih =>
      intro st st' h hs
      rw [List.foldlM_cons, Option.bind_eq_bind, Option.bind_eq_some_iff] at h
      obtain ⟨st1, h1, h2⟩ := h
      refine ih st1 st' h2 ?_
      clear * - h1 hs
      unfold compressStep at h1
      cases n with
      | const idx =>
        simp only at h1
        split at h1
        · cases h1
        · split at h1
          · split at h1
            · cases h1
            · split at h1
              · cases h1
              · cases h1; simp; omega
          · cases h1; simp; omega
      | _ => simp only at h1; cases h1; simp; omega
  unfold compressConstants at h
  rw [Option.map_eq_some_iff] at h
  obtain ⟨st, h1, h2⟩ := h
  have := key _ _ _ h1 (by simp)
  cases h2
  exact this

omit [LinearOrder K] [Field K] E in
theorem crossoverTrees_small {F T : Type} [Scalar T] {ops : List OpId} {nf : Nat} (ta tb : Tree) (csA csB : List T)
    (ha : ta.Uses ops nf csA.length) (hb : tb.Uses ops nf csB.length) (hlim : csA.length + csB.length ≤ 65535) :
    Rand.Total (crossoverTrees ⟨ta.toPostfix, csA⟩ ⟨tb.toPostfix, csB⟩ : Rand F (PostfixExpr T × PostfixExpr T))
      fun r => ∀ e, e = r.1 ∨ e = r.2 →
        ∃ t : Tree, e.nodes = t.toPostfix ∧ t.Uses ops nf e.consts.length ∧ e.consts.length ≤ t.size := by
  have child : ∀ (a b e : PostfixExpr T) i j s, crossChild a b i j s = some e → e.consts.length ≤ e.nodes.length := by
    intro a b e i j s h
    unfold crossChild at h
    simp only [Option.bind_eq_bind, Option.bind_eq_some_iff] at h
    obtain ⟨⟨cs, re⟩, -, h⟩ := h
    simp only [Option.bind_eq_some_iff] at h
    obtain ⟨⟨e1, ch⟩, h1, h2⟩ := h
    cases h2
    exact compressConstants_small h1
  have hp : ∀ a b : PostfixExpr T, Rand.Post (crossoverTrees a b : Rand F (PostfixExpr T × PostfixExpr T))
      fun r => r.1.consts.length ≤ r.1.nodes.length ∧ r.2.consts.length ≤ r.2.nodes.length := by
    intro a b
    unfold crossoverTrees
    refine Rand.Post.bind Rand.Post.true fun _ _ => ?_
    refine Rand.Post.bind Rand.Post.true fun _ _ => ?_
    refine Rand.Post.bind Rand.Post.true fun _ _ => ?_
    refine Rand.Post.bind Rand.Post.true fun _ _ => ?_
    refine Rand.Post.bind Rand.Post.true fun _ _ => ?_
    refine Rand.Post.bind Rand.Post.true fun _ _ => ?_
    refine Rand.Post.bind Rand.Post.true fun _ _ => ?_
    refine Rand.Post.bind Rand.Post.true fun _ _ => ?_
    refine Rand.Post.bind (Rand.Post.lift (fun _ h => child _ _ _ _ _ _ h)) fun _ h1 => ?_
    refine Rand.Post.bind (Rand.Post.lift (fun _ h => child _ _ _ _ _ _ h)) fun _ h2 => ?_
    exact Rand.Post.pure ⟨h1, h2⟩
  refine ((C22_crossover ta tb csA csB ha hb hlim).and_post (hp _ _)).mono ?_
  rintro r ⟨⟨_, _, _, _, _, _, _, _, ⟨t1, h1, h1'⟩, ⟨t2, h2, h2'⟩, _⟩, s1, s2⟩ e (rfl | rfl)
  · exact ⟨t1, h1, h1', by rw [h1, length_toPostfix] at s1; exact s1⟩
  · exact ⟨t2, h2, h2', by rw [h2, length_toPostfix] at s2; exact s2⟩

section
variable {o : SOptions K} {d : Dataset K} {cur : Nat} {ops : List OpId} {N : Nat}

omit [LinearOrder K] [Field K] E in
theorem Tree.Uses.arityLe {D : Nat} {nf nc : Nat} {t : Tree} (hops : ∀ op ∈ ops, op.arity ≤ D)
    (h : t.Uses ops nf nc) : t.ArityLe D :=
  Tree.All.mono (fun _ _ => trivial) (fun _ _ => trivial) (fun _ _ hm => hops _ hm) h

theorem EvolSetting.proper (S : EvolSetting o d cur ops N) {nf nc : Nat} {t : Tree} (h : t.Uses ops nf nc) : t.Proper :=
  Tree.All.mono (fun _ _ => trivial) (fun _ _ => trivial) (fun _ _ hm => (S.ops_ok _ hm).1) h

theorem EvolSetting.arityLe (S : EvolSetting o d cur ops N) {nf nc : Nat} {t : Tree} (h : t.Uses ops nf nc) :
    t.ArityLe o.cx.D := by
  rw [S.cxD]; exact h.arityLe fun op ho => (S.ops_ok op ho).2.1

theorem EvolSetting.exprSetting (S : EvolSetting o d cur ops N) {e : PostfixExpr (Fl K)} {t : Tree}
    (hn : e.nodes = t.toPostfix) (hu : t.Uses ops d.x.rows e.consts.length) (hs : t.size ≤ N)
    (hc : e.consts.length ≤ N) : ExprSetting d e t where
  nodes := hn
  wf := Tree.All.mono (fun _ h => h) (fun _ h => h) (fun _ _ hm => S.ops_ok _ hm) hu
  lim := by
    have h1 := S.nf_le
    have h2 := S.room
    have h3 := t.numOps_le_size
    refine ⟨?_, ?_, ?_⟩ <;> unfold u16Max <;> omega
  data := S.data
  rows := S.rows

theorem EvolSetting.mutSetting (S : EvolSetting o d cur ops N) {cs : List (Fl K)} {t : Tree}
    (hu : t.Uses ops d.x.rows cs.length) (hc : cs.length ≤ N) : MutSetting E.D ops d.x.rows t cs where
  ops_ok op h := ⟨(S.ops_ok op h).1, (S.ops_ok op h).2.1⟩
  nf_pos := S.nf_pos
  nf_le := by have := S.nf_le; omega
  consts_le := by have := S.room; omega
  uses := hu

/-- What every mutation returns. -/
def OutcomeOk (o : SOptions K) (d : Dataset K) (ops : List OpId) (m : Member K) (r : MutOutcome K) : Prop :=
  r.ev.Ready d ∧ (∃ t : Tree, r.expr.nodes = t.toPostfix ∧ t.Uses ops d.x.rows r.expr.consts.length ∧
    t.size ≤ 65535) ∧
  (r.immediate = true → ∃ ch, simplifyInPlace E.ops E.cfg E.D strictOpts m.expr = some (r.expr, ch))

theorem plain_ok {m : Member K} {ev : Evaluator K} (hev : ev.Ready d)
    {x : Rand (Fl K) (PostfixExpr (Fl K) × Bool)} {B : Nat} (hB : B ≤ 65535)
    (h : Rand.Total x (fun r => ExprOk ops d.x.rows r.1)) (h' : Rand.Post x (fun r => r.1.nodes.length ≤ B)) :
    Rand.Total (x >>= fun r => pure (MutOutcome.plain ev r)) (OutcomeOk o d ops m) := by
  refine Rand.Total.bind (h.and_post h') ?_
  rintro ⟨e, b⟩ ⟨⟨t, h1, h2⟩, h3⟩
  refine Rand.Total.pure ⟨hev, ⟨t, h1, h2, ?_⟩, ?_⟩
  · have h4 : e.nodes.length = t.size := by rw [h1, length_toPostfix]
    have h5 : e.nodes.length ≤ B := h3
    omega
  · intro h; cases h

variable [IsStrictOrderedRing K]

theorem apply_spec (hF : Env.Formats K) (hls : LsOk o) (S : EvolSetting o d cur ops N) (m : Member K)
    (hm : m.Good d ops N) (temperature : Fl K) (ev : Evaluator K) (hev : ev.Ready d) (c : Mutation) :
    Rand.Total (c.apply o d cur temperature m ev) (OutcomeOk o d ops m) := by
  obtain ⟨t, hn, hu, hs, hc⟩ := hm.expr
  have he : m.expr = ⟨t.toPostfix, m.expr.consts⟩ := by rw [← hn]
  have hms := S.mutSetting hu hc
  obtain ⟨a1, a2, a3, a4, a5, a6, -, -, a9, a10⟩ := C19_mutations_preserve (F := Fl K) normalT E.arith toT E.RT.mul
    o.perturbationFactor temperature o.probNegate hms
  obtain ⟨b1, -, -, b4, b5, b6, b7, b8, b9⟩ := C20_sizes (F := Fl K) normalT hms
  have hroom := S.room
  have hadds : ∀ r : PostfixExpr (Fl K) × Bool, ((r.2 = false ∧ r.1 = ⟨t.toPostfix, m.expr.consts⟩) ∨
      ∃ op ∈ ops, r.1.nodes.length = t.size + op.arity) → r.1.nodes.length ≤ N + E.D := by
    rintro r (⟨-, h⟩ | ⟨op, ho, h⟩)
    · rw [h]; simp only [length_toPostfix]; omega
    · have := (S.ops_ok op ho).2.1; omega
  cases c with
  | mutateConstant =>
    unfold Mutation.apply
    rw [he]
    refine plain_ok (B := N) hev (by omega) (a1.mono fun _ h => h.1) ?_
    refine (mutateConstant_total E.arith toT E.RT.mul o.perturbationFactor temperature o.probNegate t m.expr.consts
      hms.consts).post.mono ?_
    rintro r (⟨-, h, -⟩ | ⟨-, ci, v, x, u, b, -, -, h⟩) <;> rw [h] <;> simpa [length_toPostfix] using hs
  | mutateOperator =>
    unfold Mutation.apply
    rw [he, S.operators]
    exact plain_ok (B := N) hev (by omega) (a2.mono fun _ h => h.1) (b6.post.mono fun r h => by rw [h]; exact hs)
  | mutateFeature =>
    unfold Mutation.apply
    rw [he]
    exact plain_ok (B := N) hev (by omega) (a3.mono fun _ h => h.1) (b7.post.mono fun r h => by rw [h]; exact hs)
  | swapOperands =>
    unfold Mutation.apply
    rw [he]
    exact plain_ok (B := N) hev (by omega) (a4.mono fun _ h => h.1) (b8.post.mono fun r h => by rw [h]; exact hs)
  | rotateTree =>
    unfold Mutation.apply
    rw [he]
    exact plain_ok (B := N) hev (by omega) (a5.mono fun _ h => h.1) (b9.post.mono fun r h => by rw [h]; exact hs)
  | addNode =>
    unfold Mutation.apply
    rw [he, S.operators]
    exact plain_ok hev hroom (a9.mono fun _ h => h.1) (b4.post.mono hadds)
  | insertNode =>
    unfold Mutation.apply
    rw [he, S.operators]
    exact plain_ok hev hroom (a6.mono fun _ h => h.1) (b1.post.mono hadds)
  | deleteNode =>
    unfold Mutation.apply
    rw [he]
    refine plain_ok (B := N) hev (by omega) (a10.mono fun _ h => h.1) (b5.post.mono ?_)
    rintro r (⟨-, h⟩ | h)
    · rw [h]; simpa [length_toPostfix] using hs
    · omega
  | simplify =>
    unfold Mutation.apply
    have hset := S.exprSetting hn hu hs hc
    obtain ⟨t', cs', ch, h1, h2, h3, -, h5, h6, -⟩ := C15_simplify_shape E.ops E.cfg E.D d.x.rows strictOpts t
      m.expr.consts hset.wf (by unfold u16Max; omega)
    refine Rand.Total.bind (Rand.Total.lift (P := fun r => r = _) ⟨_, by rw [he]; exact h1, rfl⟩) ?_
    rintro _ rfl
    refine Rand.Total.pure ⟨hev, ⟨t', rfl, ?_, by omega⟩, fun _ => ⟨ch, by rw [he]; exact h1⟩⟩
    have hu' := Tree.all_iff.mp hu
    exact Tree.all_iff.mpr ⟨(Tree.all_iff.mp h2).1, (Tree.all_iff.mp h2).2.1, fun p hp => hu'.2.2 p (h6 p hp)⟩
  | randomize =>
    unfold Mutation.apply
    rw [S.operators]
    have hmx := S.maxsize_le
    have hrange : Rand.Total (usizeRangeInclusive 1 (min (max cur 1) (max o.maxsize 1)) : Rand (Fl K) Nat)
        (fun n => 1 ≤ n ∧ n ≤ 65535) := by
      unfold usizeRangeInclusive
      refine Rand.Total.ite (fun _ => Rand.Total.pure ⟨le_rfl, by omega⟩) fun h => ?_
      refine Rand.Total.bind (Rand.Total.below (by omega)) fun k hk => Rand.Total.pure ?_
      omega
    refine Rand.Total.bind hrange ?_
    rintro target ⟨h1, h2⟩
    refine Rand.Total.bind (C20_random_expr normalT (fun op h => ⟨(S.ops_ok op h).1, (S.ops_ok op h).2.1⟩) S.nf_pos
      (by have := S.nf_le; omega) target h1 (by omega)) ?_
    rintro e ⟨⟨u, k1, k2⟩, h4, -⟩
    rw [k1, length_toPostfix] at h4
    exact Rand.Total.pure ⟨hev, ⟨u, k1, k2, by omega⟩, by intro h; cases h⟩
  | doNothing =>
    unfold Mutation.apply
    exact Rand.Total.pure ⟨hev, ⟨t, hn, hu, by show t.size ≤ _; omega⟩, by intro h; cases h⟩
  | optimize =>
    unfold Mutation.apply
    have hset := S.exprSetting hn hu hs hc
    obtain ⟨fr, h1, h2, h3, -⟩ := C55_from_expr d m.expr t hset 0 0 none
    refine Rand.Total.bind (Rand.Total.lift (P := fun r => r = _) ⟨_, h1, rfl⟩) ?_
    rintro fr rfl
    have he' : (optimizeTmp m fr).expr = m.expr := h3
    have hctx : CtxReady d m.expr (DContext.new d.x.cols) :=
      ⟨rfl, by simp [DContext.ScratchWF, DContext.new, Buf.zeros, Buf.WF],
      .inl (by unfold DContext.needsRecompile; split <;> rfl)⟩
    refine Rand.Total.bind (C37_optimize hF o hls d (optimizeTmp m fr) t (he' ▸ hset) (he' ▸ hm.plan) ev hev
      (DContext.new d.x.cols) (he' ▸ hctx) S.cx (S.arityLe hu) 0) ?_
    rintro r ⟨k1, -, k3, k4, -⟩
    rw [he'] at k3 k4
    exact Rand.Total.pure ⟨k1, ⟨t, k3.trans hn, by show Tree.Uses _ _ r.member.expr.consts.length _; rw [k4]; exact hu, by omega⟩, by intro h; cases h⟩


/-- An expression that passed the constraint check. -/
theorem checked_good (S : EvolSetting o d cur ops N) {e : PostfixExpr (Fl K)} {t : Tree} (hn : e.nodes = t.toPostfix)
    (hu : t.Uses ops d.x.rows e.consts.length) (hc : e.consts.length ≤ t.size) :
    ∃ b, checkConstraints o.cx cur e.nodes = some b ∧
      (b = true → GoodExpr ops d.x.rows N e ∧ FeasibleExpr o.cx cur e) := by
  obtain ⟨b, h1, h2⟩ := C23_accepts_iff o.cx S.cx cur S.cur_lt t (S.proper hu) (S.arityLe hu)
  refine ⟨b, by rw [hn]; exact h1, fun hb => ?_⟩
  have ha := h2.mp hb
  have hs := S.size t (S.proper hu) ha
  exact ⟨⟨t, hn, hu, hs, by omega⟩, t, hn, ha⟩

theorem attemptLoop_spec (hF : Env.Formats K) (hls : LsOk o) (S : EvolSetting o d cur ops N) (m : Member K)
    (hm : m.Good d ops N) (temperature : Fl K) (c : Mutation) : ∀ (k evals : Nat) (ev : Evaluator K), ev.Ready d →
    Rand.Total (attemptLoop o d cur temperature m c k evals ev) (fun a => a.ev.Ready d ∧
      ∀ e imm, a.found = some (e, imm) → GoodExpr ops d.x.rows N e ∧ FeasibleExpr o.cx cur e ∧
        (imm = true → ∃ e0 ch ch', simplifyInPlace E.ops E.cfg E.D strictOpts m.expr = some (e0, ch) ∧
          compressConstants e0 = some (e, ch')))
  | 0, evals, ev, hev => Rand.Total.pure ⟨hev, by simp⟩
  | k + 1, evals, ev, hev => by
    unfold attemptLoop
    refine Rand.Total.bind (apply_spec hF hls S m hm temperature ev hev c) ?_
    rintro r ⟨h1, ⟨t, h2, h3, h4⟩, h5⟩
    refine Rand.Total.ite (fun _ => attemptLoop_spec hF hls S m hm temperature c k _ _ h1) fun _ => ?_
    obtain ⟨e', ch, k1, t', k2, k3, k4, k5⟩ := compress_good h2 h3 h4
    refine Rand.Total.bind (Rand.Total.lift (P := fun r => r = _) ⟨_, k1, rfl⟩) ?_
    rintro _ rfl
    obtain ⟨b, l1, l2⟩ := checked_good S k2 k3 (by omega)
    refine Rand.Total.bind (Rand.Total.lift (P := fun r => r = _) ⟨_, l1, rfl⟩) ?_
    rintro _ rfl
    refine Rand.Total.ite (fun hb => ?_) fun _ => attemptLoop_spec hF hls S m hm temperature c k _ _ h1
    refine Rand.Total.pure ⟨h1, ?_⟩
    intro e imm h
    simp only [Option.some.injEq, Prod.mk.injEq] at h
    obtain ⟨rfl, rfl⟩ := h
    obtain ⟨m1, m2⟩ := l2 hb
    refine ⟨m1, m2, fun hi => ?_⟩
    obtain ⟨ch0, q⟩ := h5 hi
    exact ⟨_, ch0, ch, q, k1⟩

omit [IsStrictOrderedRing K] in
theorem sampleMutation_total {w : MutWeights K} (h : Samplable E.R (w.choices.map Prod.snd)) :
    Rand.Total (sampleMutation w) (fun _ => True) := by
  obtain ⟨total, h1, h2, h3⟩ := h
  unfold sampleMutation
  have hw : Rand.Total (weightedIndex E.R (w.choices.map Prod.snd)) (fun i => i < 12) := by
    refine (Rand.Total.and_post (P := fun _ => True) ?_ (C32_range E.R (w.choices.map Prod.snd))).mono ?_
    · unfold weightedIndex
      rw [if_neg (by simp [MutWeights.choices]), h1]
      simp only [h2, h3, Bool.not_true, Bool.or_false, Bool.false_eq_true, if_false]
      exact Rand.Total.bind (P := fun _ => True) (Rand.Total.float fun _ => trivial) fun _ _ => Rand.Total.pure trivial
    · rintro i ⟨-, h⟩
      simpa [MutWeights.choices] using h.1
  refine Rand.Total.bind hw fun i hi => ?_
  have hl : i < w.choices.length := hi
  refine Rand.Total.bind (Rand.Total.lift (P := fun _ => True) ⟨_, List.getElem?_eq_getElem hl, trivial⟩) fun _ _ =>
    Rand.Total.pure trivial

omit [IsStrictOrderedRing K] in
theorem parentCopy_spec (S : EvolSetting o d cur ops N) (m : Member K) (hm : m.Good d ops N) (c : Counters) :
    ∃ b, parentCopy d c m = some b ∧ b.id = c.nextId ∧ b.parent = some m.id ∧ b.birth = c.nextBirth ∧
      b.expr = m.expr ∧ b.complexity = m.complexity ∧ b.loss = m.loss ∧ b.cost = m.cost ∧ b.Good d ops N := by
  obtain ⟨t, hn, hu, hs, hc⟩ := hm.expr
  obtain ⟨b, h1, h2, h3, h4, h5, h6, -⟩ := C55_from_expr d m.expr t (S.exprSetting hn hu hs hc) c.nextId c.nextBirth
    (some m.id)
  refine ⟨{ b with complexity := m.complexity, loss := m.loss, cost := m.cost }, by rw [parentCopy, h1]; rfl, h4, h5,
    h6, h3, rfl, rfl, rfl, ⟨?_, h2⟩⟩
  show GoodExpr ops d.x.rows N b.expr
  rw [h3]; exact hm.expr

omit [IsStrictOrderedRing K] in
/-- Building and evaluating a member from a good expression. -/
theorem born_spec (S : EvolSetting o d cur ops N) {e : PostfixExpr (Fl K)} (he : GoodExpr ops d.x.rows N e)
    (id : Nat) (parent : Option Nat) (birth : Nat) (ev : Evaluator K) (hev : ev.Ready d) :
    ∃ b b' ok ev', Member.fromExpr id parent birth e d.x.rows = some b ∧ b.evaluate o d ev = some (b', ok, ev') ∧
      ev'.Ready d ∧ b'.id = id ∧ b'.parent = parent ∧ b'.birth = birth ∧ b'.expr = e ∧ b'.Good d ops N ∧
      b'.Scored o d ∧ (ok = true ↔ b'.loss.isFinite = true) := by
  obtain ⟨t, hn, hu, hs, hc⟩ := he
  have hset := S.exprSetting hn hu hs hc
  obtain ⟨b, h1, h2, h3, h4, h5, h6, -⟩ := C55_from_expr d e t hset id birth parent
  have hcx := C24_complexity o.cx S.cx t (S.arityLe hu)
  rw [← hn] at hcx
  subst h3
  obtain ⟨ev', k1, k2⟩ := evaluate_spec o (m := b) hset h2 hev hcx
  refine ⟨b, _, _, ev', h1, k1, k2, h4, h5, h6, rfl, ⟨⟨t, hn, hu, hs, hc⟩, h2⟩, ⟨t, hn, hcx, rfl, ?_⟩, ?_⟩
  · simp only
    cases exprLoss o d t b.expr.consts <;> rfl
  · cases h : exprLoss o d t b.expr.consts with
    | none => simp [Fl.isFinite]
    | some v =>
      have : v.isFinite = true := by
        unfold exprLoss at h
        split at h
        · rw [Option.filter_eq_some_iff] at h; exact h.2
        · cases h
      simp [this]

omit [IsStrictOrderedRing K] in
theorem simplifiedChild_spec (S : EvolSetting o d cur ops N) (m : Member K) {e : PostfixExpr (Fl K)}
    (he : GoodExpr ops d.x.rows N e) (c : Counters) :
    ∃ b, simplifiedChild o d c m e = some b ∧ b.id = c.nextId ∧ b.parent = some m.id ∧ b.birth = c.nextBirth ∧
      b.expr = e ∧ computeComplexity o.cx e.nodes = some b.complexity ∧ b.loss = m.loss ∧
      b.cost = lossToCost E.RT m.loss b.complexity o.parsimony o.useBaseline d.baseline ∧ b.Good d ops N := by
  obtain ⟨t, hn, hu, hs, hc⟩ := he
  have hset := S.exprSetting hn hu hs hc
  obtain ⟨b, h1, h2, h3, h4, h5, h6, -⟩ := C55_from_expr d e t hset c.nextId c.nextBirth (some m.id)
  have hcx := C24_complexity o.cx S.cx t (S.arityLe hu)
  rw [← hn] at hcx
  subst h3
  generalize (if o.cx.usesDefault = true then (List.map o.cx.weights.node b.expr.nodes).sum
      else min (List.map o.cx.weights.node b.expr.nodes).sum usizeMax) = cx at hcx
  refine ⟨{ b with
    loss := m.loss
    complexity := cx
    cost := lossToCost E.RT m.loss cx o.parsimony o.useBaseline d.baseline }, ?_, ?_⟩
  · unfold simplifiedChild Member.rebuildPlan
    rw [h1]
    simp only [Option.bind_eq_bind, Option.bind_some]
    rw [show compilePlan E.hash E.D b.expr.nodes d.x.rows b.expr.consts.length = some b.plan from h2]
    simp only [Option.map_some, Option.bind_some]
    rw [hcx]
    rfl
  · exact ⟨h4, h5, h6, rfl, hcx, rfl, rfl, ⟨t, hn, hu, hs, hc⟩, h2⟩

/-- What a generation returns (see `C35_next_generation`). -/
def GenOk (o : SOptions K) (d : Dataset K) (cur : Nat) (ops : List OpId) (N : Nat) (c : Counters) (m : Member K)
    (r : GenOut K) : Prop :=
  r.ev.Ready d ∧ r.counters = c.tick ∧ r.baby.Good d ops N ∧
  (r.baby.id = c.nextId ∧ r.baby.parent = some m.id ∧ r.baby.birth = c.nextBirth) ∧
  (r.accepted = false → r.baby.expr = m.expr ∧ r.baby.complexity = m.complexity ∧ r.baby.loss = m.loss ∧
    r.baby.cost = m.cost) ∧
  (r.accepted = true → FeasibleExpr o.cx cur r.baby.expr ∧
    computeComplexity o.cx r.baby.expr.nodes = some r.baby.complexity ∧
    ((r.baby.Scored o d ∧ r.baby.loss.isFinite = true ∧ r.baby.cost.isFinite = true) ∨
      (∃ e0 ch ch', simplifyInPlace E.ops E.cfg E.D strictOpts m.expr = some (e0, ch) ∧
        compressConstants e0 = some (r.baby.expr, ch')) ∧ r.baby.loss = m.loss ∧
        r.baby.cost = lossToCost E.RT m.loss r.baby.complexity o.parsimony o.useBaseline d.baseline))

omit [IsStrictOrderedRing K] in
theorem parentCopy_gen (S : EvolSetting o d cur ops N) (m : Member K) (hm : m.Good d ops N) (c : Counters)
    (ev : Evaluator K) (hev : ev.Ready d) (n : Nat) :
    Rand.Total (do let baby ← Rand.lift (parentCopy d c m); pure ⟨baby, false, n, ev, c.tick⟩ : Rand (Fl K) (GenOut K))
      (GenOk o d cur ops N c m) := by
  obtain ⟨b, h1, h2, h3, h4, h5, h6, h7, h8, h9⟩ := parentCopy_spec S m hm c
  refine Rand.Total.bind (Rand.Total.lift (P := fun r => r = _) ⟨_, h1, rfl⟩) ?_
  rintro _ rfl
  exact Rand.Total.pure ⟨hev, rfl, h9, ⟨h2, h3, h4⟩, fun _ => ⟨h5, h6, h7, h8⟩, by intro h; cases h⟩

theorem generationWith_spec (hF : Env.Formats K) (hls : LsOk o) (S : EvolSetting o d cur ops N) (m : Member K)
    (hm : m.Good d ops N) (temperature : Fl K) (s : Stats K) (ev : Evaluator K) (hev : ev.Ready d) (c : Counters)
    (choice : Mutation) :
    Rand.Total (generationWith o d cur temperature s ev c m choice) (GenOk o d cur ops N c m) := by
  unfold generationWith
  refine Rand.Total.bind (attemptLoop_spec hF hls S m hm temperature choice 10 0 ev hev) ?_
  rintro ⟨found, evals, ev1⟩ ⟨hev1, hfound⟩
  match found, hfound with
  | none, _ => exact parentCopy_gen S m hm c ev1 hev1 0
  | some (e, true), hfound =>
    obtain ⟨h1, h2, h3⟩ := hfound e true rfl
    obtain ⟨b, k1, k2, k3, k4, k5, k6, k7, k8, k9⟩ := simplifiedChild_spec S m h1 c
    simp only
    refine Rand.Total.bind (Rand.Total.lift (P := fun r => r = _) ⟨_, k1, rfl⟩) ?_
    rintro b rfl
    refine Rand.Total.pure ⟨hev1, rfl, k9, ⟨k2, k3, k4⟩, (by intro h; cases h), fun _ => ⟨?_, ?_, .inr ⟨?_, k7, k8⟩⟩⟩
    · simpa only [k5] using h2
    · simpa only [k5] using k6
    · simpa only [k5] using h3 rfl
  | some (e, false), hfound =>
    obtain ⟨h1, h2, -⟩ := hfound e false rfl
    obtain ⟨b, b', ok, ev2, k1, k2, k3, k4, k5, k6, k7, k8, k9, k10⟩ :=
      born_spec S h1 c.nextId (some m.id) c.nextBirth ev1 hev1
    simp only
    refine Rand.Total.bind (Rand.Total.lift (P := fun r => r = _) ⟨_, k1, rfl⟩) ?_
    rintro b rfl
    refine Rand.Total.bind (Rand.Total.lift (P := fun r => r = _) ⟨_, k2, rfl⟩) ?_
    rintro _ rfl
    simp only
    refine Rand.Total.ite (fun _ => parentCopy_gen S m hm c ev2 k3 0) fun hok => ?_
    simp only [Bool.or_eq_true, Bool.not_eq_true', not_or, Bool.not_eq_false] at hok
    refine Rand.Total.bind (P := fun _ => True) (Rand.Total.float fun _ => trivial) fun u _ => ?_
    refine Rand.Total.ite (fun _ => parentCopy_gen S m hm c ev2 k3 _) fun _ => ?_
    refine Rand.Total.pure ⟨k3, rfl, k8, ⟨k4, k5, k6⟩, (by intro h; cases h), fun _ => ⟨?_, ?_, .inl
      ⟨k9, k10.mp hok.1, hok.2⟩⟩⟩
    · simpa only [k7] using h2
    · exact k9.choose_spec.2.1

/-- What a crossover returns. -/
def CrossOk (o : SOptions K) (d : Dataset K) (cur : Nat) (ops : List OpId) (N : Nat) (c : Counters) (m1 m2 : Member K)
    (r : CrossOut K) : Prop :=
  r.ev.Ready d ∧
  (r.accepted = false → r.baby1 = m1 ∧ r.baby2 = m2 ∧ r.counters = c ∧ r.evals = 0) ∧
  (r.accepted = true → r.counters = c.tick.tick ∧ r.evals = 2 ∧
    (r.baby1.id = c.nextId ∧ r.baby1.parent = some m1.id ∧ r.baby1.birth = c.nextBirth) ∧
    (r.baby2.id = c.nextId + 1 ∧ r.baby2.parent = some m2.id ∧ r.baby2.birth = c.nextBirth + 1) ∧
    ∀ b, b = r.baby1 ∨ b = r.baby2 → b.Good d ops N ∧ FeasibleExpr o.cx cur b.expr ∧ b.Scored o d)

theorem crossLoop_spec (S : EvolSetting o d cur ops N) (m1 m2 : Member K)
    (h1 : m1.Good d ops N) (h2 : m2.Good d ops N) (ev : Evaluator K) (hev : ev.Ready d) (c : Counters) : ∀ k,
    Rand.Total (crossLoop o d cur ev c m1 m2 k) (CrossOk o d cur ops N c m1 m2)
  | 0 => Rand.Total.pure ⟨hev, fun _ => ⟨rfl, rfl, rfl, rfl⟩, by intro h; cases h⟩
  | k + 1 => by
    unfold crossLoop
    obtain ⟨t1, a1, a2, a3, a4⟩ := h1.expr
    obtain ⟨t2, b1, b2, b3, b4⟩ := h2.expr
    have e1 : m1.expr = ⟨t1.toPostfix, m1.expr.consts⟩ := by rw [← a1]
    have e2 : m2.expr = ⟨t2.toPostfix, m2.expr.consts⟩ := by rw [← b1]
    have htwo := S.two
    have hx : Rand.Total (crossoverTrees m1.expr m2.expr : Rand (Fl K) _) (fun r => ∀ e, e = r.1 ∨ e = r.2 →
        ∃ t : Tree, e.nodes = t.toPostfix ∧ t.Uses ops d.x.rows e.consts.length ∧ e.consts.length ≤ t.size) := by
      rw [e1, e2]
      refine (crossoverTrees_small t1 t2 m1.expr.consts m2.expr.consts a2 b2 (by omega)).mono fun r h => h
    refine Rand.Total.bind hx ?_
    rintro ⟨x1, x2⟩ hx
    obtain ⟨u1, p1, p2, p3⟩ := hx x1 (.inl rfl)
    obtain ⟨u2, q1, q2, q3⟩ := hx x2 (.inr rfl)
    obtain ⟨ok1, c1, c2⟩ := checked_good S p1 p2 p3
    obtain ⟨ok2, d1, d2⟩ := checked_good S q1 q2 q3
    simp only
    refine Rand.Total.bind (Rand.Total.lift (P := fun r => r = _) ⟨_, c1, rfl⟩) ?_
    rintro ok1 rfl
    refine Rand.Total.ite (fun k1 => ?_) fun _ => ?_
    · refine Rand.Total.bind (Rand.Total.lift (P := fun r => r = _) ⟨_, d1, rfl⟩) ?_
      rintro ok2 rfl
      refine Rand.Total.ite (fun k2 => ?_) fun _ => crossLoop_spec S m1 m2 h1 h2 ev hev c k
      obtain ⟨g1, f1⟩ := c2 k1
      obtain ⟨g2, f2⟩ := d2 k2
      obtain ⟨b1, b1', o1, ev1, r1, r2, r3, r4, r5, r6, r7, r8, r9, -⟩ :=
        born_spec S g1 c.nextId (some m1.id) c.nextBirth ev hev
      obtain ⟨b2, b2', o2, ev2, s1, s2, s3, s4, s5, s6, s7, s8, s9, -⟩ :=
        born_spec S g2 (c.nextId + 1) (some m2.id) (c.nextBirth + 1) ev1 r3
      apply Rand.Total.lift
      refine ⟨⟨b1', b2', true, 2, ev2, c.tick.tick⟩, ?_, s3, (by intro h; cases h), fun _ => ⟨rfl, rfl, ⟨r4, r5, r6⟩,
        ⟨s4, s5, s6⟩, ?_⟩⟩
      · unfold crossBabies
        simp only [r1, s1, Option.bind_eq_bind, Option.bind_some, r2, s2]
      · rintro b (rfl | rfl)
        · exact ⟨r8, by rw [r7]; exact f1, r9⟩
        · exact ⟨s8, by rw [s7]; exact f2, s9⟩
    · refine Rand.Total.bind (P := fun b => b = false) (Rand.Total.pure rfl) ?_
      rintro _ rfl
      exact crossLoop_spec S m1 m2 h1 h2 ev hev c k

end
end SR
