import Verif.Proofs.CombineRep
import Verif.Proofs.Fold
import Mathlib.Algebra.Ring.Basic
import Mathlib.Tactic.Ring
import Mathlib.Tactic.Abel
/-
Operator combination preserves the value in exact arithmetic.
-/
namespace SR
variable {T : Type}

/-- The scalar operations are those of a commutative ring, and the operators found under `+`, `*`, `-`
compute them. -/
structure Exact [CommRing T] [SubScalar T] (ops : OpSet T) (cfg : CombineCfg) : Prop where
  add : ∀ x y : T, Scalar.add x y = x + y
  mul : ∀ x y : T, Scalar.mul x y = x * y
  sub : ∀ x y : T, SubScalar.sub x y = x - y
  addOp : ∀ o, cfg.add = some o → ∀ x y : T, ops.eval 2 o [x, y] = x + y
  mulOp : ∀ o, cfg.mul = some o → ∀ x y : T, ops.eval 2 o [x, y] = x * y
  subOp : ∀ o, cfg.sub = some o → ∀ x y : T, ops.eval 2 o [x, y] = x - y

/-- Outcome of combining a represented tree. -/
structure ValOK [Scalar T] (ops : OpSet T) (S : List Nat) (A : List ANode) (t : Tree) (cs : List T)
    (ch : Bool) (res : CombRes T) : Prop where
  ex : ∃ (t' : Tree) (S' : List Nat), Rep res.2.1 t' res.1 S' ∧ S'.Nodup ∧ (∀ j ∈ S', j ∈ S) ∧
    (∀ c ∈ t'.constIdxs, c < res.2.2.1.length) ∧
    (∀ feat, t'.eval ops feat (constAt res.2.2.1) = t.eval ops feat (constAt cs)) ∧
    (∀ p ∈ t'.opNodes, p ∈ t.opNodes)
  frame : ∀ j, j ∉ S → res.2.1[j]? = A[j]?
  pre : cs <+: res.2.2.1
  flag : res.2.2.2 = false → res.2.2.1 = cs ∧ ch = false

theorem rep_isConst {A : List ANode} {t : Tree} {id c : Nat} {S : List Nat} (h : Rep A t id S)
    (hc : isConstA A id = some c) : t = .const c ∧ S = [id] := by
  have := isConstA_some hc
  cases t with
  | var f => simp only [Rep] at h; rw [h.1] at this; simp at this
  | const d => simp only [Rep] at h; rw [h.1] at this; simp at this; exact ⟨by rw [this], h.2⟩
  | op o ts => simp only [Rep] at h; obtain ⟨ch, S', h, _⟩ := h; rw [h] at this; simp at this

theorem rep_isOp {A : List ANode} {t : Tree} {id o a : Nat} {S rc : List Nat} (h : Rep A t id S)
    (hc : isOpA A id o = some (a, rc)) : ∃ ts S', t = .op o ts ∧ a = ts.length ∧
      RepL A ts (rc.take a) S' ∧ S = id :: S' := by
  have := isOpA_some hc
  cases t with
  | var f => simp only [Rep] at h; rw [h.1] at this; simp at this
  | const d => simp only [Rep] at h; rw [h.1] at this; simp at this
  | op o' ts =>
    simp only [Rep] at h
    obtain ⟨ch, S', h, hl, hr, hs⟩ := h
    rw [h] at this
    simp only [Option.some.injEq, ANode.op.injEq] at this
    obtain ⟨rfl, rfl, rfl⟩ := this
    exact ⟨ts, S', rfl, rfl, hr, hs⟩

theorem repL_two {A : List ANode} {ts : List Tree} {l r : Nat} {S : List Nat}
    (h : RepL A ts [l, r] S) : ∃ tl tr Sl Sr, ts = [tl, tr] ∧ Rep A tl l Sl ∧ Rep A tr r Sr ∧
      S = Sl ++ Sr := by
  match ts, h with
  | [], h => simp [RepL] at h
  | [t], h =>
    obtain ⟨i, is, S1, S2, e, h1, ⟨rfl, rfl⟩, _⟩ := h
    simp at e
  | [tl, tr], h =>
    obtain ⟨i, is, S1, S2, e, h1, ⟨i2, is2, S3, S4, rfl, h2, ⟨rfl, rfl⟩, rfl⟩, rfl⟩ := h
    simp only [List.cons.injEq, and_true] at e
    obtain ⟨rfl, rfl⟩ := e
    exact ⟨tl, tr, S1, S3, rfl, h1, h2, by simp⟩
  | t1 :: t2 :: t3 :: ts, h =>
    have := repL_length h
    simp at this

theorem repL_two_mk {A : List ANode} {tl tr : Tree} {l r : Nat} {Sl Sr : List Nat}
    (h1 : Rep A tl l Sl) (h2 : Rep A tr r Sr) : RepL A [tl, tr] [l, r] (Sl ++ Sr) :=
  ⟨l, [r], Sl, Sr, rfl, h1, ⟨r, [], Sr, [], rfl, h2, ⟨rfl, rfl⟩, by simp⟩, rfl⟩

theorem rep_op_two {A : List ANode} {tl tr : Tree} {id o l r : Nat} {Sl Sr junk : List Nat}
    (h : A[id]? = some (.op 2 o (l :: r :: junk))) (h1 : Rep A tl l Sl) (h2 : Rep A tr r Sr) :
    Rep A (.op o [tl, tr]) id (id :: (Sl ++ Sr)) :=
  ⟨_, _, h, by simp, repL_two_mk h1 h2, rfl⟩

theorem rep_set {A : List ANode} {t : Tree} {id j : Nat} {S : List Nat} {x : ANode} (h : Rep A t id S)
    (hj : j ∉ S) : Rep (A.set j x) t id S :=
  rep_frame t h fun i hi => List.getElem?_set_ne (by rintro rfl; exact hj hi)

theorem rep_const_set {A : List ANode} {leaf c k : Nat} (h : A[leaf]? = some (.const c)) :
    Rep (A.set leaf (.const k)) (.const k) leaf [leaf] := by
  have := (List.getElem?_eq_some_iff.mp h).1
  exact ⟨by simp [this], rfl⟩

theorem eval_prefix [Scalar T] {ops : OpSet T} {feat : Nat → T} {cs cs' : List T} (h : cs <+: cs')
    {t : Tree} (ht : ∀ c ∈ t.constIdxs, c < cs.length) :
    t.eval ops feat (constAt cs') = t.eval ops feat (constAt cs) := by
  obtain ⟨x, rfl⟩ := h
  exact eval_congr_const fun c hc => constAt_append x (ht c hc)

/-- Context shared by the binary cases: node `id` with children `l`, `r` representing `tl`, `tr`. -/
structure Bin2 (A : List ANode) (cs : List T) (id o l r : Nat) (junk : List Nat) (tl tr : Tree)
    (Sl Sr : List Nat) : Prop where
  node : A[id]? = some (.op 2 o (l :: r :: junk))
  repl : Rep A tl l Sl
  repr : Rep A tr r Sr
  nodup : (id :: (Sl ++ Sr)).Nodup
  cl : ∀ c ∈ tl.constIdxs, c < cs.length
  cr : ∀ c ∈ tr.constIdxs, c < cs.length

section
variable [Scalar T] {ops : OpSet T} {A : List ANode} {cs : List T} {id o l r : Nat} {junk : List Nat}
  {tl tr : Tree} {Sl Sr : List Nat}

theorem Bin2.keep_val (h : Bin2 A cs id o l r junk tl tr Sl Sr) (ch ch' : Bool)
    (hc : ch' = false → ch = false) :
    ValOK ops (id :: (Sl ++ Sr)) A (.op o [tl, tr]) cs ch
      (id, A.set id (.op 2 o (l :: r :: junk)), cs, ch') := by
  have hn := h.nodup
  have hid : id < A.length := (List.getElem?_eq_some_iff.mp h.node).1
  have hl : id ∉ Sl := fun hh => (List.nodup_cons.mp hn).1 (by simp [hh])
  have hr : id ∉ Sr := fun hh => (List.nodup_cons.mp hn).1 (by simp [hh])
  refine ⟨⟨.op o [tl, tr], id :: (Sl ++ Sr), ?_, hn, fun _ h => h, ?_, fun _ => rfl, fun _ h => h⟩,
    ?_, List.prefix_refl _, fun hh => ⟨rfl, hc hh⟩⟩
  · exact rep_op_two (junk := junk) (by simp [hid]) (rep_set h.repl hl) (rep_set h.repr hr)
  · intro c hc
    simp only [Tree.constIdxs_op, List.map_cons, List.map_nil, List.flatten_cons, List.flatten_nil,
      List.append_nil, List.mem_append] at hc
    exact hc.elim (h.cl c) (h.cr c)
  · intro j hj
    show (A.set id _)[j]? = _
    rw [List.getElem?_set_ne (by rintro rfl; simp at hj)]

theorem Bin2.swap_val (h : Bin2 A cs id o l r junk tl tr Sl Sr)
    (hcomm : ∀ x y, ops.eval 2 o [x, y] = ops.eval 2 o [y, x]) (ch : Bool) :
    ValOK ops (id :: (Sl ++ Sr)) A (.op o [tl, tr]) cs ch
      (id, A.set id (.op 2 o (r :: l :: junk)), cs, true) := by
  have hn := h.nodup
  have hid : id < A.length := (List.getElem?_eq_some_iff.mp h.node).1
  have hl : id ∉ Sl := fun hh => (List.nodup_cons.mp hn).1 (by simp [hh])
  have hr : id ∉ Sr := fun hh => (List.nodup_cons.mp hn).1 (by simp [hh])
  refine ⟨⟨.op o [tr, tl], id :: (Sr ++ Sl), ?_, ?_, ?_, ?_, ?_, ?_⟩,
    ?_, List.prefix_refl _, fun hh => by simp at hh⟩
  · exact rep_op_two (junk := junk) (by simp [hid]) (rep_set h.repr hr) (rep_set h.repl hl)
  · exact (List.Perm.cons id List.perm_append_comm).nodup_iff.mp hn
  · intro j hj
    simp only [List.mem_cons, List.mem_append] at hj ⊢
    exact hj.imp_right Or.symm
  · intro c hc
    simp only [Tree.constIdxs_op, List.map_cons, List.map_nil, List.flatten_cons, List.flatten_nil,
      List.append_nil, List.mem_append] at hc
    exact hc.elim (h.cr c) (h.cl c)
  · intro feat
    simp only [Tree.eval_op, List.map_cons, List.map_nil, List.length_cons, List.length_nil]
    exact hcomm _ _
  · intro p hp
    simp only [Tree.opNodes_op, List.map_cons, List.map_nil, List.flatten_cons, List.flatten_nil,
      List.append_nil, List.mem_append, List.length_cons, List.length_nil] at hp ⊢
    exact hp.imp_left Or.symm
  · intro j hj
    show (A.set id _)[j]? = _
    rw [List.getElem?_set_ne (by rintro rfl; simp at hj)]

end

theorem constAt_last [Scalar T] (cs : List T) (v : T) : constAt (cs ++ [v]) cs.length = v := by
  simp [constAt]

theorem combineAddMul_val [Scalar T] {ops : OpSet T} {A : List ANode} {cs : List T}
    {id o l r : Nat} {junk : List Nat} {tl tr : Tree} {Sl Sr : List Nat}
    (h : Bin2 A cs id o l r junk tl tr Sl Sr) (f : T → T → T)
    (hf : ∀ x y, ops.eval 2 o [x, y] = f x y) (hcomm : ∀ x y, f x y = f y x)
    (hassoc : ∀ x y z, f (f x y) z = f x (f y z)) (ch : Bool) (res : CombRes T)
    (hr : combineAddMul f id 2 o (l :: r :: junk) A cs ch = some res) :
    ValOK ops (id :: (Sl ++ Sr)) A (.op o [tl, tr]) cs ch res := by
  have hn := h.nodup
  -- the rewrite, with the constant on the right
  have core : ∀ (l' r' : Nat) (tl' tr' : Tree) (Sl' Sr' : List Nat) (sw : Bool),
      Rep A tl' l' Sl' → Rep A tr' r' Sr' → Sl'.Nodup → (∀ j ∈ Sl', j ∈ id :: (Sl ++ Sr)) →
      (∀ c ∈ tl'.constIdxs, c < cs.length) →
      (∀ feat, f (tl'.eval ops feat (constAt cs)) (tr'.eval ops feat (constAt cs))
        = Tree.eval ops feat (constAt cs) (.op o [tl, tr])) →
      (∀ p ∈ tl'.opNodes, p ∈ (Tree.op o [tl, tr]).opNodes) →
      ValOK ops (id :: (Sl ++ Sr)) A (.op o [tl, tr]) cs ch
        (id, A.set id (.op 2 o (l' :: r' :: junk)), cs, ch || sw) →
      (match isConstA A r' with
        | none => some (id, A.set id (.op 2 o (l' :: r' :: junk)), cs, ch || sw)
        | some topIdx =>
          match cs[topIdx]? with
          | none => none
          | some topV =>
            match isOpA A l' o with
            | none => some (id, A.set id (.op 2 o (l' :: r' :: junk)), cs, ch || sw)
            | some (belowArity, bc) =>
              if belowArity = 2 then
                match bc[0]?, bc[1]? with
                | some b0, some b1 =>
                  let go (leaf cidx : Nat) : Option (CombRes T) :=
                    match cs[cidx]? with
                    | none => none
                    | some belowV =>
                      if !(Scalar.isFinite belowV) || !(Scalar.isFinite topV) then
                        some (id, A.set id (.op 2 o (l' :: r' :: junk)), cs, ch || sw)
                      else
                        match appendConst cs (f belowV topV) with
                        | none => some (id, A.set id (.op 2 o (l' :: r' :: junk)), cs, ch || sw)
                        | some (k, consts') => some (l', A.set leaf (.const k), consts', true)
                  match isConstA A b0 with
                  | some ci => go b0 ci
                  | none =>
                    match isConstA A b1 with
                    | some ci => go b1 ci
                    | none => some (id, A.set id (.op 2 o (l' :: r' :: junk)), cs, ch || sw)
                | _, _ => none
              else some (id, A.set id (.op 2 o (l' :: r' :: junk)), cs, ch || sw)) = some res →
      ValOK ops (id :: (Sl ++ Sr)) A (.op o [tl, tr]) cs ch res := by
    intro l' r' tl' tr' Sl' Sr' sw hrl hrr hnd hsub hcl hval hopn hkeep hrun
    split at hrun
    · simp only [Option.some.injEq] at hrun; subst hrun; exact hkeep
    · next topIdx htop =>
      obtain ⟨rfl, rfl⟩ := rep_isConst hrr htop
      split at hrun
      · simp at hrun
      · next topV hv =>
        split at hrun
        · simp only [Option.some.injEq] at hrun; subst hrun; exact hkeep
        · next ba bc hop =>
          obtain ⟨bts, Sb, rfl, rfl, hrb, rfl⟩ := rep_isOp hrl hop
          split at hrun
          · next hba =>
            match bc, hrun with
            | [], hrun => simp at hrun
            | [_], hrun => simp at hrun
            | b0 :: b1 :: bjunk, hrun =>
              simp only [List.getElem?_cons_zero, List.getElem?_cons_succ] at hrun
              rw [hba] at hrb
              simp only [List.take_succ_cons, List.take_zero] at hrb
              obtain ⟨t0, t1, S0, S1, rfl, hr0, hr1, rfl⟩ := repL_two hrb
              have hl'node := isOpA_some hop
              simp only [List.length_cons, List.length_nil] at hl'node
              have hnd2 := hnd
              rw [List.nodup_cons, List.nodup_append] at hnd
              have htopc : constAt cs topIdx = topV := by simp [constAt, hv]
              have hd01 : ∀ j, j ∈ S0 → j ∈ S1 → False := fun j h0 h1 => hnd.2.2.2 j h0 j h1 rfl
              -- the two choices of constant leaf
              split at hrun
              · next ci hci =>
                obtain ⟨rfl, rfl⟩ := rep_isConst hr0 hci
                have hleaf := isConstA_some hci
                have hci' : ci < cs.length := hcl ci (by simp)
                rw [List.getElem?_eq_getElem hci'] at hrun
                simp only at hrun
                split at hrun
                · simp only [Option.some.injEq] at hrun; subst hrun; exact hkeep
                · split at hrun
                  · simp only [Option.some.injEq] at hrun; subst hrun; exact hkeep
                  · next k cs' hac =>
                    obtain ⟨rfl, rfl, _, _⟩ := appendConst_spec hac
                    simp only [Option.some.injEq] at hrun; subst hrun
                    have hne : b0 ≠ l' := by
                      rintro rfl; exact hnd.1 (by simp)
                    refine ⟨⟨.op o [.const cs.length, t1], l' :: ([b0] ++ S1), ?_, hnd2, hsub, ?_, ?_, ?_⟩,
                      ?_, List.prefix_append _ _, fun hh => by simp at hh⟩
                    · refine rep_op_two (junk := bjunk) ?_ (rep_const_set hleaf)
                        (rep_set hr1 fun hh => hd01 b0 (by simp) hh)
                      show (A.set b0 _)[l']? = _
                      rw [List.getElem?_set_ne hne]; exact hl'node
                    · intro c hc
                      simp only [Tree.constIdxs_op, List.map_cons, List.map_nil, List.flatten_cons,
                        List.flatten_nil, List.append_nil, Tree.constIdxs_const, List.mem_append,
                        List.mem_singleton] at hc
                      show c < (cs ++ _).length
                      rw [List.length_append, List.length_singleton]
                      rcases hc with rfl | hc
                      · omega
                      · have := hcl c (by simp [hc]); omega
                    · intro feat
                      rw [← hval feat]
                      have e1 : t1.eval ops feat (constAt (cs ++ [f cs[ci] topV]))
                          = t1.eval ops feat (constAt cs) :=
                        eval_prefix (List.prefix_append _ _) fun c hc => hcl c (by simp [hc])
                      have e2 : constAt cs ci = cs[ci] := by simp [constAt, List.getElem?_eq_getElem hci']
                      simp only [Tree.eval_op, List.map_cons, List.map_nil, List.length_cons,
                        List.length_nil, Tree.eval_const, e1, constAt_last, htopc, e2, hf]
                      rw [hassoc, hassoc, hcomm topV]
                    · intro p hp
                      apply hopn
                      simpa using hp
                    · intro j hj
                      show (A.set b0 _)[j]? = _
                      rw [List.getElem?_set_ne]
                      rintro rfl
                      exact hj (hsub _ (by simp))
              · split at hrun
                · next ci hci =>
                  obtain ⟨rfl, rfl⟩ := rep_isConst hr1 hci
                  have hleaf := isConstA_some hci
                  have hci' : ci < cs.length := hcl ci (by simp)
                  rw [List.getElem?_eq_getElem hci'] at hrun
                  simp only at hrun
                  split at hrun
                  · simp only [Option.some.injEq] at hrun; subst hrun; exact hkeep
                  · split at hrun
                    · simp only [Option.some.injEq] at hrun; subst hrun; exact hkeep
                    · next k cs' hac =>
                      obtain ⟨rfl, rfl, _, _⟩ := appendConst_spec hac
                      simp only [Option.some.injEq] at hrun; subst hrun
                      have hne : b1 ≠ l' := by
                        rintro rfl; exact hnd.1 (by simp)
                      refine ⟨⟨.op o [t0, .const cs.length], l' :: (S0 ++ [b1]), ?_, hnd2, hsub, ?_, ?_, ?_⟩,
                        ?_, List.prefix_append _ _, fun hh => by simp at hh⟩
                      · refine rep_op_two (junk := bjunk) ?_
                          (rep_set hr0 fun hh => hd01 b1 hh (by simp)) (rep_const_set hleaf)
                        show (A.set b1 _)[l']? = _
                        rw [List.getElem?_set_ne hne]; exact hl'node
                      · intro c hc
                        simp only [Tree.constIdxs_op, List.map_cons, List.map_nil, List.flatten_cons,
                          List.flatten_nil, List.append_nil, Tree.constIdxs_const, List.mem_append,
                          List.mem_singleton] at hc
                        show c < (cs ++ _).length
                        rw [List.length_append, List.length_singleton]
                        rcases hc with hc | rfl
                        · have := hcl c (by simp [hc]); omega
                        · omega
                      · intro feat
                        rw [← hval feat]
                        have e1 : t0.eval ops feat (constAt (cs ++ [f cs[ci] topV]))
                            = t0.eval ops feat (constAt cs) :=
                          eval_prefix (List.prefix_append _ _) fun c hc => hcl c (by simp [hc])
                        have e2 : constAt cs ci = cs[ci] := by
                          simp [constAt, List.getElem?_eq_getElem hci']
                        simp only [Tree.eval_op, List.map_cons, List.map_nil, List.length_cons,
                          List.length_nil, Tree.eval_const, e1, constAt_last, htopc, e2, hf]
                        rw [hassoc]
                      · intro p hp
                        apply hopn
                        simpa using hp
                      · intro j hj
                        show (A.set b1 _)[j]? = _
                        rw [List.getElem?_set_ne]
                        rintro rfl
                        exact hj (hsub _ (by simp))
                · simp only [Option.some.injEq] at hrun; subst hrun; exact hkeep
          · simp only [Option.some.injEq] at hrun; subst hrun; exact hkeep
  have hn' := hn
  rw [List.nodup_cons, List.nodup_append] at hn'
  have hvalEq : ∀ feat, Tree.eval ops feat (constAt cs) (.op o [tl, tr])
      = f (tl.eval ops feat (constAt cs)) (tr.eval ops feat (constAt cs)) := by
    intro feat
    simp only [Tree.eval_op, List.map_cons, List.map_nil, List.length_cons, List.length_nil, hf]
  unfold combineAddMul at hr
  simp only [List.getElem?_cons_zero, List.getElem?_cons_succ, List.set_cons_zero,
    List.set_cons_succ] at hr
  generalize hsw : (isConstA A l).isSome = sw at hr
  cases sw with
  | true =>
    refine core r l tr tl Sr Sl true h.repr h.repl hn'.2.2.1 (fun j hj => by simp [hj]) h.cr ?_ ?_ ?_ hr
    · intro feat; rw [hvalEq, hcomm]
    · intro p hp; simp [hp]
    · have := h.swap_val (ops := ops) (fun x y => by rw [hf, hf, hcomm]) ch
      simpa using this
  | false =>
    refine core l r tl tr Sl Sr false h.repl h.repr hn'.2.1 (fun j hj => by simp [hj]) h.cl ?_ ?_ ?_ hr
    · intro feat; rw [hvalEq]
    · intro p hp; simp [hp]
    · exact h.keep_val ch (ch || false) (by simp)

theorem subRewrite_val [Scalar T] {ops : OpSet T} {A : List ANode} {cs : List T}
    {id o l r : Nat} {junk S : List Nat} {t0 : Tree} {a b v : T} {leaf c c0 c1 : Nat}
    {ta tb : Tree} {Sa Sb : List Nat} (hidlen : id < A.length) (hidS : id ∈ S)
    (hleaf : A[leaf]? = some (.const c)) (hleafS : leaf ∈ S)
    (ha : Rep (A.set leaf (.const cs.length)) ta c0 Sa)
    (hb : Rep (A.set leaf (.const cs.length)) tb c1 Sb)
    (hnd : (id :: (Sa ++ Sb)).Nodup) (hsub : ∀ j ∈ Sa ++ Sb, j ∈ S)
    (hca : ∀ c ∈ ta.constIdxs, c < cs.length + 1) (hcb : ∀ c ∈ tb.constIdxs, c < cs.length + 1)
    (hval : Scalar.isFinite a = true → Scalar.isFinite b = true → ∀ feat,
      ops.eval 2 o [ta.eval ops feat (constAt (cs ++ [v])), tb.eval ops feat (constAt (cs ++ [v]))]
        = t0.eval ops feat (constAt cs))
    (hopa : ∀ p ∈ ta.opNodes, p ∈ t0.opNodes) (hopb : ∀ p ∈ tb.opNodes, p ∈ t0.opNodes)
    (hop0 : (o, 2) ∈ t0.opNodes) (ch : Bool) {res : CombRes T}
    (hr : subRewrite id 2 o (l :: r :: junk) A cs a b v leaf c0 c1 = some res) :
    ValOK ops S A t0 cs ch res := by
  unfold subRewrite at hr
  split at hr
  · next hfin =>
    simp only [Bool.and_eq_true] at hfin
    split at hr
    · simp at hr
    · next k cs' hac =>
      obtain ⟨rfl, rfl, _, _⟩ := appendConst_spec hac
      simp only [Option.some.injEq, List.set_cons_zero, List.set_cons_succ] at hr
      subst hr
      have hn' := List.nodup_cons.mp hnd
      refine ⟨⟨.op o [ta, tb], id :: (Sa ++ Sb), ?_, hnd, ?_, ?_, ?_, ?_⟩, ?_,
        List.prefix_append _ _, fun hh => by simp at hh⟩
      · exact rep_op_two (junk := junk) (by simp [hidlen])
          (rep_set ha fun hh => hn'.1 (by simp [hh])) (rep_set hb fun hh => hn'.1 (by simp [hh]))
      · intro j hj
        rcases List.mem_cons.mp hj with rfl | hj
        · exact hidS
        · exact hsub j hj
      · intro c hc
        show c < (cs ++ [v]).length
        simp only [List.length_append, List.length_singleton]
        simp only [Tree.constIdxs_op, List.map_cons, List.map_nil, List.flatten_cons, List.flatten_nil,
          List.append_nil, List.mem_append] at hc
        exact hc.elim (hca c) (hcb c)
      · intro feat
        rw [← hval hfin.1 hfin.2 feat]
        simp only [Tree.eval_op, List.map_cons, List.map_nil, List.length_cons, List.length_nil]
      · intro p hp
        simp only [Tree.opNodes_op, List.map_cons, List.map_nil, List.flatten_cons, List.flatten_nil,
          List.append_nil, List.mem_append, List.length_cons, List.length_nil,
          List.mem_singleton] at hp
        rcases hp with (hp | hp) | rfl
        · exact hopa p hp
        · exact hopb p hp
        · exact hop0
      · intro j hj
        show ((A.set leaf _).set id _)[j]? = _
        rw [List.getElem?_set_ne (by rintro rfl; exact hj hidS),
          List.getElem?_set_ne (by rintro rfl; exact hj hleafS)]
  · simp at hr

theorem combineSubLeft_val [SubScalar T] [CommRing T] {ops : OpSet T} {A : List ANode} {cs : List T}
    {id o l r : Nat} {junk : List Nat} {tl tr : Tree} {Sl Sr : List Nat}
    (h : Bin2 A cs id o l r junk tl tr Sl Sr)
    (hadd : ∀ x y : T, Scalar.add x y = x + y) (hsub : ∀ x y : T, SubScalar.sub x y = x - y)
    (hop : ∀ x y : T, ops.eval 2 o [x, y] = x - y)
    (har : ∀ p ∈ tr.opNodes, p.1 = o → p.2 = 2) (ch : Bool) (res : CombRes T)
    (hr : combineSubLeft id 2 o (l :: r :: junk) A cs l r = some (some res)) :
    ValOK ops (id :: (Sl ++ Sr)) A (.op o [tl, tr]) cs ch res := by
  have hid : id < A.length := (List.getElem?_eq_some_iff.mp h.node).1
  have hn := h.nodup
  unfold combineSubLeft at hr
  split at hr
  · simp at hr
  · next aIdx ha =>
    obtain ⟨rfl, rfl⟩ := rep_isConst h.repl ha
    have hal : aIdx < cs.length := h.cl aIdx (by simp)
    split at hr
    · simp at hr
    · next ra rc hopA =>
      obtain ⟨rts, Sb, rfl, rfl, hrb, rfl⟩ := rep_isOp h.repr hopA
      have h2 : rts.length = 2 := har (o, rts.length) (by simp) rfl
      match rc, hr, hrb with
      | [], hr, _ => simp at hr
      | [_], hr, _ => simp at hr
      | r0 :: r1 :: rjunk, hr, hrb =>
        rw [h2] at hrb
        simp only [List.take_succ_cons, List.take_zero] at hrb
        obtain ⟨t0, t1, S0, S1, rfl, hr0, hr1, rfl⟩ := repL_two hrb
        simp only [List.getElem?_cons_zero, List.getElem?_cons_succ,
          List.getElem?_eq_getElem hal] at hr
        have ea : constAt cs aIdx = cs[aIdx] := by simp [constAt, List.getElem?_eq_getElem hal]
        have hc0 : ∀ c ∈ t0.constIdxs, c < cs.length := fun c hc => h.cr c (by simp [hc])
        have hc1 : ∀ c ∈ t1.constIdxs, c < cs.length := fun c hc => h.cr c (by simp [hc])
        have hnd := hn
        simp only [List.nodup_cons, List.nodup_append, List.mem_append, List.mem_cons,
          List.singleton_append, not_or] at hnd
        obtain ⟨⟨n1, n2, n3, n4⟩, ⟨n5, n6, n7⟩, ⟨n8, n9⟩, m0, m1, md⟩ := hnd
        split at hr
        · next bIdx hb =>
          obtain ⟨rfl, rfl⟩ := rep_isConst hr0 hb
          have hbl := hc0 bIdx (by simp)
          have eb : constAt cs bIdx = cs[bIdx] := by simp [constAt, List.getElem?_eq_getElem hbl]
          rw [List.getElem?_eq_getElem hbl] at hr
          simp only [Option.some.injEq] at hr
          have hr0S1 : r0 ∉ S1 := fun hh => md r0 (by simp) r0 hh rfl
          refine subRewrite_val hid (by simp) (isConstA_some hb) (by simp) (rep_set hr1 hr0S1)
            (rep_const_set (isConstA_some hb)) (ta := t1) (tb := .const cs.length) ?_ ?_
            (fun c hc => by have := hc1 c hc; omega) (by simp) ?_ (fun p hp => by simp [hp]) (by simp)
            (by simp) ch hr
          · simp only [List.nodup_cons, List.nodup_append, List.mem_append, List.mem_singleton]
            refine ⟨?_, m1, by simp, ?_⟩
            · rintro (hh | rfl)
              · exact n4 hh
              · exact n3 (by simp)
            · intro x hx y hy; subst hy; rintro rfl; exact hr0S1 hx
          · intro j hj
            simp only [List.mem_append, List.mem_singleton] at hj
            rcases hj with hj | rfl <;> simp [*]
          · intro _ _ feat
            have e1 : ∀ v, t1.eval ops feat (constAt (cs ++ [v]))
                = t1.eval ops feat (constAt cs) := fun _ => eval_prefix (List.prefix_append _ _) hc1
            simp only [Tree.eval_op, List.map_cons, List.map_nil, List.length_cons, List.length_nil,
              Tree.eval_const, e1, constAt_last, ea, eb, hop, hsub]
            ring
        · split at hr
          · next bIdx hb =>
            obtain ⟨rfl, rfl⟩ := rep_isConst hr1 hb
            have hbl := hc1 bIdx (by simp)
            have eb : constAt cs bIdx = cs[bIdx] := by simp [constAt, List.getElem?_eq_getElem hbl]
            rw [List.getElem?_eq_getElem hbl] at hr
            simp only [Option.some.injEq] at hr
            have hlS0 : l ∉ S0 := n6
            refine subRewrite_val hid (by simp) (isConstA_some ha) (by simp)
              (rep_const_set (isConstA_some ha)) (rep_set hr0 hlS0)
              (ta := .const cs.length) (tb := t0) ?_ ?_ (by simp)
              (fun c hc => by have := hc0 c hc; omega) ?_ (by simp) (fun p hp => by simp [hp])
              (by simp) ch hr
            · simp only [List.nodup_cons, List.mem_append, List.mem_singleton, List.singleton_append,
                List.mem_cons]
              refine ⟨?_, hlS0, m0⟩
              rintro (rfl | hh)
              · exact n1 (by simp)
              · exact n3 hh
            · intro j hj
              simp only [List.mem_append, List.mem_singleton] at hj
              rcases hj with rfl | hj <;> simp [*]
            · intro _ _ feat
              have e1 : ∀ v, t0.eval ops feat (constAt (cs ++ [v]))
                  = t0.eval ops feat (constAt cs) := fun _ => eval_prefix (List.prefix_append _ _) hc0
              simp only [Tree.eval_op, List.map_cons, List.map_nil, List.length_cons, List.length_nil,
                Tree.eval_const, e1, constAt_last, ea, eb, hop, hadd]
              ring
          · simp at hr

theorem combineSubRight_val [SubScalar T] [CommRing T] {ops : OpSet T} {A : List ANode} {cs : List T}
    {id o l r : Nat} {junk : List Nat} {tl tr : Tree} {Sl Sr : List Nat}
    (h : Bin2 A cs id o l r junk tl tr Sl Sr)
    (hadd : ∀ x y : T, Scalar.add x y = x + y) (hsub : ∀ x y : T, SubScalar.sub x y = x - y)
    (hop : ∀ x y : T, ops.eval 2 o [x, y] = x - y)
    (har : ∀ p ∈ tl.opNodes, p.1 = o → p.2 = 2) (ch : Bool) (res : CombRes T)
    (hr : combineSubRight id 2 o (l :: r :: junk) A cs l r = some (some res)) :
    ValOK ops (id :: (Sl ++ Sr)) A (.op o [tl, tr]) cs ch res := by
  have hid : id < A.length := (List.getElem?_eq_some_iff.mp h.node).1
  have hn := h.nodup
  unfold combineSubRight at hr
  split at hr
  · simp at hr
  · next bIdx ha =>
    obtain ⟨rfl, rfl⟩ := rep_isConst h.repr ha
    have hbl : bIdx < cs.length := h.cr bIdx (by simp)
    split at hr
    · simp at hr
    · next ra lc hopA =>
      obtain ⟨lts, Sb, rfl, rfl, hrb, rfl⟩ := rep_isOp h.repl hopA
      have h2 : lts.length = 2 := har (o, lts.length) (by simp) rfl
      match lc, hr, hrb with
      | [], hr, _ => simp at hr
      | [_], hr, _ => simp at hr
      | l0 :: l1 :: rjunk, hr, hrb =>
        rw [h2] at hrb
        simp only [List.take_succ_cons, List.take_zero] at hrb
        obtain ⟨t0, t1, S0, S1, rfl, hr0, hr1, rfl⟩ := repL_two hrb
        simp only [List.getElem?_cons_zero, List.getElem?_cons_succ,
          List.getElem?_eq_getElem hbl] at hr
        have eb : constAt cs bIdx = cs[bIdx] := by simp [constAt, List.getElem?_eq_getElem hbl]
        have hc0 : ∀ c ∈ t0.constIdxs, c < cs.length := fun c hc => h.cl c (by simp [hc])
        have hc1 : ∀ c ∈ t1.constIdxs, c < cs.length := fun c hc => h.cl c (by simp [hc])
        have hnd := hn
        simp only [List.nodup_cons, List.nodup_append, List.mem_append, List.mem_cons,
          List.cons_append, not_or, List.append_assoc] at hnd
        obtain ⟨⟨n1, n2, n3, n4⟩, ⟨n5, n6, n7⟩, m0, ⟨m1, m2, m3⟩, md⟩ := hnd
        have hmd : ∀ j, j ∈ S0 → j ∈ S1 → False := fun j h0 h1 => md j h0 j (Or.inl h1) rfl
        split at hr
        · next aIdx hb =>
          obtain ⟨rfl, rfl⟩ := rep_isConst hr0 hb
          have hal := hc0 aIdx (by simp)
          have ea : constAt cs aIdx = cs[aIdx] := by simp [constAt, List.getElem?_eq_getElem hal]
          rw [List.getElem?_eq_getElem hal] at hr
          simp only [Option.some.injEq] at hr
          have hl0S1 : l0 ∉ S1 := fun hh => hmd l0 (by simp) hh
          refine subRewrite_val hid (by simp) (isConstA_some hb) (by simp)
            (rep_const_set (isConstA_some hb)) (rep_set hr1 hl0S1)
            (ta := .const cs.length) (tb := t1) ?_ ?_ (by simp)
            (fun c hc => by have := hc1 c hc; omega) ?_ (by simp) (fun p hp => by simp [hp])
            (by simp) ch hr
          · simp only [List.nodup_cons, List.mem_append, List.mem_singleton, List.singleton_append,
              List.mem_cons]
            refine ⟨?_, hl0S1, m1⟩
            rintro (rfl | hh)
            · exact n2 (by simp)
            · exact n3 hh
          · intro j hj
            simp only [List.mem_append, List.mem_singleton] at hj
            rcases hj with rfl | hj <;> simp [*]
          · intro _ _ feat
            have e1 : ∀ v, t1.eval ops feat (constAt (cs ++ [v]))
                = t1.eval ops feat (constAt cs) := fun _ => eval_prefix (List.prefix_append _ _) hc1
            simp only [Tree.eval_op, List.map_cons, List.map_nil, List.length_cons, List.length_nil,
              Tree.eval_const, e1, constAt_last, ea, eb, hop, hsub]
            ring
        · split at hr
          · next aIdx hb =>
            obtain ⟨rfl, rfl⟩ := rep_isConst hr1 hb
            have hal := hc1 aIdx (by simp)
            have ea : constAt cs aIdx = cs[aIdx] := by simp [constAt, List.getElem?_eq_getElem hal]
            rw [List.getElem?_eq_getElem hal] at hr
            simp only [Option.some.injEq] at hr
            have hl1S0 : l1 ∉ S0 := fun hh => hmd l1 hh (by simp)
            refine subRewrite_val hid (by simp) (isConstA_some hb) (by simp) (rep_set hr0 hl1S0)
              (rep_const_set (isConstA_some hb)) (ta := t0) (tb := .const cs.length) ?_ ?_
              (fun c hc => by have := hc0 c hc; omega) (by simp) ?_ (fun p hp => by simp [hp]) (by simp)
              (by simp) ch hr
            · simp only [List.nodup_cons, List.nodup_append, List.mem_append, List.mem_singleton]
              refine ⟨?_, m0, by simp, ?_⟩
              · rintro (hh | rfl)
                · exact n2 hh
                · exact n3 (by simp)
              · intro x hx y hy; subst hy; rintro rfl; exact hl1S0 hx
            · intro j hj
              simp only [List.mem_append, List.mem_singleton] at hj
              rcases hj with hj | rfl <;> simp [*]
            · intro _ _ feat
              have e1 : ∀ v, t0.eval ops feat (constAt (cs ++ [v]))
                  = t0.eval ops feat (constAt cs) := fun _ => eval_prefix (List.prefix_append _ _) hc0
              simp only [Tree.eval_op, List.map_cons, List.map_nil, List.length_cons, List.length_nil,
                Tree.eval_const, e1, constAt_last, ea, eb, hop, hadd]
              ring
          · simp at hr

/-- Outcome of the children loop on represented trees. -/
structure KidsVal [Scalar T] (ops : OpSet T) (S : List Nat) (A : List ANode) (ts : List Tree)
    (cs : List T) (ch : Bool) (ks' : List Nat) (A' : List ANode) (cs' : List T) (ch' : Bool) : Prop where
  ex : ∃ (ts' : List Tree) (S' : List Nat), RepL A' ts' ks' S' ∧ S'.Nodup ∧ (∀ j ∈ S', j ∈ S) ∧
    ts'.length = ts.length ∧
    (∀ c ∈ (ts'.map Tree.constIdxs).flatten, c < cs'.length) ∧
    (∀ feat, ts'.map (Tree.eval ops feat (constAt cs')) = ts.map (Tree.eval ops feat (constAt cs))) ∧
    (∀ p ∈ (ts'.map Tree.opNodes).flatten, p ∈ (ts.map Tree.opNodes).flatten)
  frame : ∀ j, j ∉ S → A'[j]? = A[j]?
  pre : cs <+: cs'
  flag : ch' = false → cs' = cs ∧ ch = false

theorem combineTop_val [SubScalar T] [CommRing T] {ops : OpSet T} {cfg : CombineCfg}
    (hex : Exact ops cfg) {A : List ANode} {cs : List T} {id a o : Nat} {children S : List Nat}
    {ts : List Tree} (hnode : A[id]? = some (.op a o children)) (ha : a = ts.length)
    (hac : a ≤ children.length)
    (hrep : RepL A ts (children.take a) S) (hnd : (id :: S).Nodup)
    (hc : ∀ c ∈ (ts.map Tree.constIdxs).flatten, c < cs.length)
    (har : ∀ p ∈ (ts.map Tree.opNodes).flatten, cfg.sub = some p.1 → p.2 = 2) (ch : Bool)
    (res : CombRes T) (hr : combineTop cfg id a o children A cs ch = some res) :
    ValOK ops (id :: S) A (.op o ts) cs ch res := by
  have hsame : ValOK ops (id :: S) A (.op o ts) cs ch (id, A, cs, ch) :=
    ⟨⟨.op o ts, id :: S, ⟨children, S, by rw [hnode, ha], by omega, by rw [← ha]; exact hrep, rfl⟩, hnd,
      fun _ h => h, by simpa using hc, fun _ => rfl, fun _ h => h⟩, fun _ _ => rfl,
      List.prefix_refl _, fun h => ⟨rfl, h⟩⟩
  unfold combineTop at hr
  split at hr
  · simp only [Option.some.injEq] at hr; subst hr; exact hsame
  · next ha2 =>
    have ha2 : a = 2 := Decidable.not_not.mp ha2
    match children, hnode, hac, hrep, hr with
    | [], _, hac, _, _ => simp at hac; omega
    | [_], _, hac, _, _ => simp at hac; omega
    | l :: r :: junk, hnode, _, hrep, hr =>
      subst ha2
      simp only [List.take_succ_cons, List.take_zero] at hrep
      obtain ⟨tl, tr, Sl, Sr, rfl, hrl, hrr, rfl⟩ := repL_two hrep
      have hb : Bin2 A cs id o l r junk tl tr Sl Sr :=
        ⟨hnode, hrl, hrr, hnd, fun c h => hc c (by simp [h]), fun c h => hc c (by simp [h])⟩
      split at hr
      · next hop =>
        refine combineAddMul_val hb _ ?_ ?_ ?_ ch res hr
        · intro x y
          split
          · next h => rw [hex.addOp o h, hex.add]
          · next h => rw [hex.mulOp o (hop.resolve_left h), hex.mul]
        · intro x y
          split
          · rw [hex.add, hex.add]; ring
          · rw [hex.mul, hex.mul]; ring
        · intro x y z
          split
          · simp only [hex.add]; ring
          · simp only [hex.mul]; ring
      · split at hr
        · next hsub =>
          simp only [List.getElem?_cons_zero, List.getElem?_cons_succ] at hr
          split at hr
          · simp at hr
          · next r1 e1 =>
            simp only [Option.some.injEq] at hr; subst hr
            exact combineSubLeft_val hb hex.add hex.sub (hex.subOp o hsub)
              (fun p hp he => har p (by simp [hp]) (by rw [he]; exact hsub)) ch _ e1
          · next e1 =>
            split at hr
            · simp at hr
            · next r1 e2 =>
              simp only [Option.some.injEq] at hr; subst hr
              exact combineSubRight_val hb hex.add hex.sub (hex.subOp o hsub)
                (fun p hp he => har p (by simp [hp]) (by rw [he]; exact hsub)) ch _ e2
            · simp only [Option.some.injEq] at hr; subst hr; exact hsame
        · simp only [Option.some.injEq] at hr; subst hr; exact hsame

theorem combine_val [SubScalar T] [CommRing T] {ops : OpSet T} {cfg : CombineCfg}
    (hex : Exact ops cfg) : ∀ fuel : Nat,
    (∀ (id : Nat) (A : List ANode) (cs : List T) (ch : Bool) (t : Tree) (S : List Nat)
      (res : CombRes T), Rep A t id S → S.Nodup → (∀ c ∈ t.constIdxs, c < cs.length) →
      (∀ p ∈ t.opNodes, cfg.sub = some p.1 → p.2 = 2) →
      combineNode cfg fuel id A cs ch = some res → ValOK ops S A t cs ch res) ∧
    (∀ (ks : List Nat) (A : List ANode) (cs : List T) (ch : Bool) (ts : List Tree) (S : List Nat)
      (ks' : List Nat) (A' : List ANode) (cs' : List T) (ch' : Bool),
      RepL A ts ks S → S.Nodup → (∀ c ∈ (ts.map Tree.constIdxs).flatten, c < cs.length) →
      (∀ p ∈ (ts.map Tree.opNodes).flatten, cfg.sub = some p.1 → p.2 = 2) →
      combineKids cfg fuel ks A cs ch = some (ks', A', cs', ch') →
      KidsVal ops S A ts cs ch ks' A' cs' ch') := by
  intro fuel
  induction fuel with
  | zero =>
    refine ⟨?_, ?_⟩
    · intro id A cs ch t S res _ _ _ _ h; simp [combineNode] at h
    · intro ks A cs ch ts S ks' A' cs' ch' _ _ _ _ h; simp [combineKids] at h
  | succ fuel ih =>
    refine ⟨?_, ?_⟩
    · intro id A cs ch t S res hrep hnd hc har hr
      rw [combineNode] at hr
      cases t with
      | var f =>
        have hrep' := hrep
        simp only [Rep] at hrep
        rw [hrep.1] at hr
        simp only [Option.some.injEq] at hr; subst hr
        exact ⟨⟨_, S, hrep', hnd, fun _ h => h, hc, fun _ => rfl, fun _ h => h⟩, fun _ _ => rfl,
          List.prefix_refl _, fun h => ⟨rfl, h⟩⟩
      | const f =>
        have hrep' := hrep
        simp only [Rep] at hrep
        rw [hrep.1] at hr
        simp only [Option.some.injEq] at hr; subst hr
        exact ⟨⟨_, S, hrep', hnd, fun _ h => h, hc, fun _ => rfl, fun _ h => h⟩, fun _ _ => rfl,
          List.prefix_refl _, fun h => ⟨rfl, h⟩⟩
      | op o ts =>
        obtain ⟨children, S0, hnode, hlen, hrl, rfl⟩ := hrep
        rw [hnode] at hr
        simp only at hr
        have hnd' := List.nodup_cons.mp hnd
        split at hr
        · simp at hr
        · next ks' A1 cs1 ch1 e1 =>
          have hk := ih.2 _ A cs ch ts S0 ks' A1 cs1 ch1 hrl hnd'.2 (by simpa using hc)
            (fun p hp => har p (by rw [Tree.opNodes_op]; exact List.mem_append_left _ hp)) e1
          obtain ⟨ts', S1, k1, k2, k3, k4, k5, k6, k7⟩ := hk.ex
          have hidlen : id < A1.length := by
            have h1 : A1[id]? = A[id]? := hk.frame id hnd'.1
            rw [hnode] at h1
            exact (List.getElem?_eq_some_iff.mp h1).1
          have hks : ks'.length = ts.length := by rw [repL_length k1, k4]
          have htake : (ks' ++ children.drop ts.length).take ts.length = ks' := by
            conv_lhs => rw [← hks]
            rw [List.take_left]
          have hid1 : id ∉ S1 := fun hh => hnd'.1 (k3 _ hh)
          have hv := combineTop_val hex (A := A1.set id (.op ts.length o (ks' ++ children.drop ts.length)))
            (ts := ts') (S := S1) (by simp [hidlen]) k4.symm (by simp [hks])
            (by
              rw [htake]
              exact repL_frame k1 fun j hj =>
                List.getElem?_set_ne (by rintro rfl; exact hid1 hj))
            (List.nodup_cons.mpr ⟨hid1, k2⟩) k5
            (fun p hp => har p (by rw [Tree.opNodes_op]; exact List.mem_append_left _ (k7 p hp)))
            ch1 res hr
          obtain ⟨t', S', v1, v2, v3, v4, v5, v6⟩ := hv.ex
          refine ⟨⟨t', S', v1, v2, ?_, v4, ?_, ?_⟩, ?_, hk.pre.trans hv.pre, ?_⟩
          · intro j hj
            rcases List.mem_cons.mp (v3 j hj) with rfl | h
            · simp
            · exact List.mem_cons_of_mem _ (k3 j h)
          · intro feat
            rw [v5 feat, Tree.eval_op, Tree.eval_op, k6, k4]
          · intro p hp
            have := v6 p hp
            rw [Tree.opNodes_op, List.mem_append] at this ⊢
            rw [k4] at this
            exact this.imp_left (k7 p)
          · intro j hj
            rw [List.mem_cons, not_or] at hj
            rw [hv.frame j (by
              rw [List.mem_cons, not_or]; exact ⟨hj.1, fun hh => hj.2 (k3 j hh)⟩),
              List.getElem?_set_ne (Ne.symm hj.1), hk.frame j hj.2]
          · intro hf
            obtain ⟨f1, f2⟩ := hv.flag hf
            obtain ⟨f3, f4⟩ := hk.flag f2
            exact ⟨f1.trans f3, f4⟩
    · intro ks A cs ch ts S ks' A' cs' ch' hrep hnd hc har hr
      rw [combineKids.eq_def] at hr
      cases ts with
      | nil =>
        obtain ⟨rfl, rfl⟩ := hrep
        simp only [Option.some.injEq, Prod.mk.injEq] at hr
        obtain ⟨rfl, rfl, rfl, rfl⟩ := hr
        exact ⟨⟨[], [], ⟨rfl, rfl⟩, by simp, by simp, rfl, by simp, fun _ => rfl, by simp⟩,
          fun _ _ => rfl, List.prefix_refl _, fun h => ⟨rfl, h⟩⟩
      | cons t ts =>
        obtain ⟨i, is, S1, S2, rfl, h1, h2, rfl⟩ := hrep
        rw [List.nodup_append] at hnd
        simp only [List.map_cons, List.flatten_cons, List.mem_append] at hc har
        simp only at hr
        split at hr
        · simp at hr
        · next c1 A1 cs1 ch1 e1 =>
          have hv := ih.1 i A cs ch t S1 _ h1 hnd.1 (fun c h => hc c (Or.inl h))
            (fun p h => har p (Or.inl h)) e1
          obtain ⟨t', S1', v1, v2, v3, v4, v5, v6⟩ := hv.ex
          have hpre1 : cs <+: cs1 := hv.pre
          have h2' : RepL A1 ts is S2 := repL_frame h2 fun j hj =>
            hv.frame j fun hh => hnd.2.2 j hh j hj rfl
          split at hr
          · simp at hr
          · next cs2' A2 cs2 ch2 e2 =>
            simp only [Option.some.injEq, Prod.mk.injEq] at hr
            obtain ⟨rfl, rfl, rfl, rfl⟩ := hr
            have hc2 : ∀ c ∈ (ts.map Tree.constIdxs).flatten, c < cs.length :=
              fun c h => hc c (Or.inr h)
            have hk := ih.2 is A1 cs1 ch1 ts S2 _ _ _ _ h2' hnd.2.1
              (fun c h => Nat.lt_of_lt_of_le (hc2 c h) hpre1.length_le) (fun p h => har p (Or.inr h)) e2
            obtain ⟨ts', S2', k1, k2, k3, k4, k5, k6, k7⟩ := hk.ex
            have v4' : ∀ c ∈ t'.constIdxs, c < cs1.length := v4
            refine ⟨⟨t' :: ts', S1' ++ S2', ⟨c1, _, S1', S2', rfl, ?_, k1, rfl⟩, ?_, ?_, by simp [k4],
              ?_, ?_, ?_⟩, ?_, hpre1.trans hk.pre, ?_⟩
            · exact rep_frame t' v1 fun j hj => hk.frame j fun hh =>
                hnd.2.2 j (v3 j hj) j hh rfl
            · rw [List.nodup_append]
              exact ⟨v2, k2, fun x hx y hy => hnd.2.2 x (v3 x hx) y (k3 y hy)⟩
            · intro j hj
              rcases List.mem_append.mp hj with hj | hj
              · exact List.mem_append_left _ (v3 j hj)
              · exact List.mem_append_right _ (k3 j hj)
            · intro c hcc
              simp only [List.map_cons, List.flatten_cons, List.mem_append] at hcc
              rcases hcc with hcc | hcc
              · exact Nat.lt_of_lt_of_le (v4' c hcc) hk.pre.length_le
              · exact k5 c hcc
            · intro feat
              simp only [List.map_cons]
              congr 1
              · rw [← v5 feat]; exact eval_prefix hk.pre v4'
              · rw [k6]
                apply List.map_congr_left
                intro u hu
                exact eval_prefix hpre1 fun c h => hc2 c
                  (List.mem_flatten.mpr ⟨_, List.mem_map_of_mem hu, h⟩)
            · intro p hp
              simp only [List.map_cons, List.flatten_cons, List.mem_append] at hp ⊢
              exact hp.imp (v6 p) (k7 p)
            · intro j hj
              rw [List.mem_append, not_or] at hj
              rw [hk.frame j hj.2]
              exact hv.frame j hj.1
            · intro hf
              obtain ⟨f1, f2⟩ := hk.flag hf
              obtain ⟨f3, f4⟩ := hv.flag f2
              exact ⟨f1.trans f3, f4⟩

/-- Emission of a represented tree. -/
theorem emit_rep {A : List ANode} : ∀ fuel : Nat,
    (∀ (id : Nat) (t : Tree) (S : List Nat) (out : List PNode), Rep A t id S →
      emitPostfix fuel id A = some out → out = t.toPostfix) ∧
    (∀ (ks : List Nat) (ts : List Tree) (S : List Nat) (out : List PNode), RepL A ts ks S →
      emitKids fuel ks A = some out → out = (ts.map Tree.toPostfix).flatten) := by
  intro fuel
  induction fuel with
  | zero =>
    exact ⟨fun _ _ _ _ _ h => by simp [emitPostfix] at h, fun _ _ _ _ _ h => by simp [emitKids] at h⟩
  | succ fuel ih =>
    refine ⟨?_, ?_⟩
    · intro id t S out hr he
      rw [emitPostfix] at he
      cases t with
      | var f =>
        simp only [Rep] at hr; rw [hr.1] at he
        simp only [Option.some.injEq] at he; subst he; simp
      | const f =>
        simp only [Rep] at hr; rw [hr.1] at he
        simp only [Option.some.injEq] at he; subst he; simp
      | op o ts =>
        obtain ⟨ch, S', hn, hl, hrl, rfl⟩ := hr
        rw [hn] at he
        simp only [Option.map_eq_some_iff] at he
        obtain ⟨o1, e1, rfl⟩ := he
        rw [ih.2 _ ts S' o1 hrl e1, Tree.toPostfix_op]
    · intro ks ts S out hr he
      cases ts with
      | nil =>
        obtain ⟨rfl, rfl⟩ := hr
        simp only [emitKids, Option.some.injEq] at he; subst he; rfl
      | cons t ts =>
        obtain ⟨i, is, S1, S2, rfl, h1, h2, rfl⟩ := hr
        rw [emitKids] at he
        split at he
        · next x y ex ey =>
          simp only [Option.some.injEq] at he; subst he
          rw [ih.1 i t S1 x h1 ex, ih.2 is ts S2 y h2 ey]; simp
        · simp at he

/-- Operator combination preserves the value in exact arithmetic, when the subtraction operator's id is
used with arity 2 only. -/
theorem combineOperators_val [SubScalar T] [CommRing T] {ops : OpSet T} {cfg : CombineCfg}
    (hex : Exact ops cfg) (D : Nat) (t : Tree) (cs : List T)
    (h : t.All (fun _ => True) (· < cs.length) (fun _ a => 1 ≤ a ∧ a ≤ D))
    (har : ∀ p ∈ t.opNodes, cfg.sub = some p.1 → p.2 = 2) (t' : Tree) (cs' : List T) (ch : Bool)
    (hr : combineOperators cfg D ⟨t.toPostfix, cs⟩ = some (⟨t'.toPostfix, cs'⟩, ch)) :
    ∀ feat, t'.eval ops feat (constAt cs') = t.eval ops feat (constAt cs) := by
  intro feat
  obtain ⟨A, root, S, e, hl, hrep, hn, hI, hv, ho⟩ := parsePostfix_ok D t cs h
  have hc := (Tree.all_iff.mp h).2.1
  simp only [combineOperators, e] at hr
  split at hr
  · simp at hr
  · next root' A' cs1 ch1 e2 =>
    have hval := (combine_val hex (2 * A.length)).1 root A cs false t S _ hrep hn hc har e2
    obtain ⟨t2, S', v1, v2, v3, v4, v5, v6⟩ := hval.ex
    split at hr
    · simp only [Option.some.injEq, Prod.mk.injEq, PostfixExpr.mk.injEq] at hr
      obtain ⟨⟨h1, rfl⟩, _⟩ := hr
      rw [← toPostfix_injective h1]
      exact eval_prefix hval.pre hc
    · split at hr
      · simp at hr
      · next out eo =>
        simp only [Option.some.injEq, Prod.mk.injEq, PostfixExpr.mk.injEq] at hr
        obtain ⟨⟨h1, rfl⟩, _⟩ := hr
        have := (emit_rep (2 * A.length)).1 root' t2 S' out v1 eo
        rw [h1] at this
        rw [toPostfix_injective this]
        exact v5 feat

end SR
