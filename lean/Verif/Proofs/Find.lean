import Verif.Props.Reach
import Verif.Props.NoPanic
import Verif.Props.Stream
import Verif.Props.Progress
/-
Helpers for C82: from totality to reachability, and expressions written over other constant tables.
-/
namespace SR
open Rand

section
variable {F α β T : Type} {S : F → Prop}

/-- The first draws of one stream, then another stream. -/
def Rng.graft (g : Rng F) (i j : Nat) (g0 : Rng F) : Rng F :=
  ⟨fun k => if k < i then g.ints k else g0.ints (k - i), fun k => if k < j then g.floats k else g0.floats (k - j)⟩

theorem Rng.graft_agree (g : Rng F) (i j : Nat) (g0 : Rng F) : g.Agree (g.graft i j g0) i j :=
  ⟨fun k hk => by simp [Rng.graft, hk], fun k hk => by simp [Rng.graft, hk]⟩

theorem Rng.graft_drop (g : Rng F) (i j : Nat) (g0 : Rng F) : (g.graft i j g0).drop i j = g0 := by
  simp [Rng.graft, Rng.drop]

theorem Rng.graft_within {g g0 : Rng F} (h : g.Within S) (h0 : g0.Within S) (i j : Nat) : (g.graft i j g0).Within S := by
  refine ⟨fun k => ?_, fun k => ?_⟩ <;> simp only [Rng.graft] <;> split
  exacts [h.floats _, h0.floats _, h.words _, h0.words _]

/-- The stream of zeros and one float. -/
theorem Rng.within_const {u : F} (hu : S u) : (⟨fun _ => 0, fun _ => u⟩ : Rng F).Within S := ⟨fun _ => hu, fun _ => by norm_num⟩

/-- What a computation returns on some stream it can return whatever comes afterwards. -/
theorem Rand.Consumes.reaches {m : Rand F α} [hm : m.Consumes] {g g' : Rng F} {a : α} (hg : g.Within S)
    (h : m g = some (a, g')) : Reaches S m a := by
  obtain ⟨i, j, -, l⟩ := hm.rest g a g' h
  intro g0 h0
  exact ⟨g.graft i j g0, Rng.graft_within hg h0 i j, by rw [l _ (g.graft_agree i j g0), Rng.graft_drop]⟩

/-- A computation that always returns can return something. -/
theorem Rand.Total.reaches {m : Rand F α} [hm : m.Consumes] {P : α → Prop} (ht : Rand.Total m P) {u : F} (hu : S u) :
    ∃ a, Reaches S m a ∧ P a := by
  obtain ⟨a, g', h, hp⟩ := ht ⟨fun _ => 0, fun _ => u⟩
  exact ⟨a, Rand.Consumes.reaches (Rng.within_const hu) h, hp⟩

/-- Whatever holds of every result holds of a reachable one. -/
theorem Rand.Reaches.post {m : Rand F α} {a : α} {P : α → Prop} (h : Reaches S m a) (hp : Rand.Post m P) {u : F} (hu : S u) : P a := by
  obtain ⟨g, -, e⟩ := h ⟨fun _ => 0, fun _ => u⟩ (Rng.within_const hu)
  exact hp g a _ e

theorem forall₂_split {R : α → β → Prop} : ∀ {a : List α} {b : List β} {x : List α} {y : List β}, a.length = b.length →
    List.Forall₂ R (a ++ x) (b ++ y) → List.Forall₂ R a b ∧ List.Forall₂ R x y
  | [], [], x, y, _, h => ⟨.nil, h⟩
  | _ :: a, _ :: b, x, y, hl, h => by
    cases h with
    | cons h1 h2 =>
      obtain ⟨k1, k2⟩ := forall₂_split (by simpa using hl) h2
      exact ⟨.cons h1 k1, k2⟩

/-- Same shape and same nodes: the same values, and the same operator applications. -/
theorem sameTree [Scalar T] {acc cs : List T} (t : Tree) : ∀ u : Tree, u.mapConst (fun _ => 0) = t.mapConst (fun _ => 0) →
    List.Forall₂ (SameNode acc cs) u.toPostfix t.toPostfix →
    (∀ (ops : OpSet T) (feat : Nat → T), u.eval ops feat (constAt acc) = t.eval ops feat (constAt cs)) ∧
    (∀ (ops : OpSet T) (X : Mat T), AllOpsFinite ops X acc u ↔ AllOpsFinite ops X cs t) ∧
    (ConstRootFinite acc u ↔ ConstRootFinite cs t) := by
  induction t using Tree.ind with
  | hv f =>
    intro u hs h
    cases u with
    | var g =>
      simp only [Tree.mapConst_var, Tree.var.injEq] at hs
      subst hs
      exact ⟨fun _ _ => by simp [Tree.eval], fun _ _ => by simp [AllOpsFinite], by simp [ConstRootFinite]⟩
    | const c => simp at hs
    | op o us => simp at hs
  | hc c =>
    intro u hs h
    cases u with
    | var g => simp at hs
    | op o us => simp at hs
    | const c' =>
      simp only [Tree.toPostfix_const] at h
      cases h with
      | cons h1 _ =>
        cases h1 with
        | const e1 e2 =>
          have : constAt acc c' = constAt cs c := by simp [constAt, e1, e2]
          exact ⟨fun _ _ => by simp [Tree.eval, this], fun _ _ => by simp [AllOpsFinite], by simp [ConstRootFinite, this]⟩
  | ho o ts ih =>
    intro u hs h
    cases u with
    | var g => simp at hs
    | const c => simp at hs
    | op o' us =>
      simp only [Tree.mapConst_op, Tree.op.injEq] at hs
      obtain ⟨rfl, hs⟩ := hs
      rw [Tree.toPostfix_op, Tree.toPostfix_op] at h
      have key : ∀ (ts us : List Tree), us.map (Tree.mapConst fun _ => 0) = ts.map (Tree.mapConst fun _ => 0) →
          ∀ (x y : List PNode), List.Forall₂ (SameNode acc cs) ((us.map Tree.toPostfix).flatten ++ x) ((ts.map Tree.toPostfix).flatten ++ y) →
          List.Forall₂ (fun u t => u.mapConst (fun _ => 0) = t.mapConst (fun _ => 0) ∧
            List.Forall₂ (SameNode acc cs) u.toPostfix t.toPostfix) us ts := by
        intro ts
        induction ts with
        | nil => intro us hm _ _ _; simp at hm; subst hm; exact .nil
        | cons t ts ih =>
          intro us hm x y hf
          cases us with
          | nil => simp at hm
          | cons u us =>
            simp only [List.map_cons, List.cons.injEq] at hm
            simp only [List.map_cons, List.flatten_cons, List.append_assoc] at hf
            have hlen : u.toPostfix.length = t.toPostfix.length := by
              rw [length_toPostfix, length_toPostfix, ← Tree.size_mapConst (fun _ => 0) u, hm.1, Tree.size_mapConst]
            obtain ⟨k1, k2⟩ := forall₂_split hlen hf
            exact .cons ⟨hm.1, k1⟩ (ih us hm.2 x y k2)
      have hk := key ts us hs _ _ h
      have hall : List.Forall₂ (fun u t =>
          (∀ (ops : OpSet T) (feat : Nat → T), u.eval ops feat (constAt acc) = t.eval ops feat (constAt cs)) ∧
          (∀ (ops : OpSet T) (X : Mat T), AllOpsFinite ops X acc u ↔ AllOpsFinite ops X cs t)) us ts := by
        clear h hs key
        induction hk with
        | nil => exact .nil
        | cons h1 h2 ih2 =>
          refine .cons ?_ (ih2 fun t ht => ih t (by simp [ht]))
          obtain ⟨a, b, -⟩ := ih _ (by simp) _ h1.1 h1.2
          exact ⟨a, b⟩
      have hev : ∀ (ops : OpSet T) (feat : Nat → T), (Tree.op o' us).eval ops feat (constAt acc) =
          (Tree.op o' ts).eval ops feat (constAt cs) := by
        intro ops feat
        have hm : us.map (Tree.eval ops feat (constAt acc)) = ts.map (Tree.eval ops feat (constAt cs)) := by
          clear hk h hs key ih
          induction hall with
          | nil => rfl
          | cons h1 _ ih => simp [h1.1 ops feat, ih]
        have hl : us.length = ts.length := by simpa using congrArg List.length hm
        rw [Tree.eval_op, Tree.eval_op, hm, hl]
      refine ⟨hev, fun ops X => ?_, by simp [ConstRootFinite]⟩
      have hsplit : ∀ (cs : List T) (ts : List Tree), AllOpsFinite ops X cs (.op o' ts) ↔
          (∀ r, r < X.cols → Scalar.isFinite (Tree.eval ops (fun f => X.at' f r) (constAt cs) (.op o' ts)) = true) ∧
          ∀ t ∈ ts, AllOpsFinite ops X cs t := by
        intro cs ts
        constructor
        · intro h
          refine ⟨fun r hr => h o' ts (by simp) r hr, fun t ht o ts' hm r hr => h o ts' ?_ r hr⟩
          simp only [Tree.subtrees_op, List.mem_append, List.mem_flatten, List.mem_map]
          exact .inl ⟨_, ⟨t, ht, rfl⟩, hm⟩
        · rintro ⟨h1, h2⟩ o ts' hm r hr
          simp only [Tree.subtrees_op, List.mem_append, List.mem_flatten, List.mem_map, List.mem_singleton] at hm
          rcases hm with ⟨_, ⟨t, ht, rfl⟩, hm⟩ | hm
          · exact h2 t ht o ts' hm r hr
          · cases hm; exact h1 r hr
      rw [hsplit, hsplit]
      refine and_congr (by simp only [hev]) ?_
      clear hk h hs key ih hev
      induction hall with
      | nil => simp
      | cons h1 _ ih => simp only [List.forall_mem_cons, h1.2 ops X, ih]

end

section
variable {K : Type} [Field K] [LinearOrder K] [E : Env K]

/-- An expression that writes the tree `t` over `cs` has the loss of `t` over `cs`. -/
theorem Writes.loss {e : PostfixExpr (Fl K)} {t : Tree} {cs : List (Fl K)} (h : Writes e t cs) {u : Tree}
    (hu : e.nodes = u.toPostfix) (o : SOptions K) (d : Dataset K) : exprLoss o d u e.consts = exprLoss o d t cs := by
  obtain ⟨u', hu', he, -⟩ := h.shape
  obtain rfl := toPostfix_injective (hu ▸ hu')
  unfold Writes at h
  rw [hu] at h
  obtain ⟨h1, h2, h3⟩ := sameTree t u he h
  unfold exprLoss
  have hc : Computable d u e.consts ↔ Computable d t cs := and_congr (h2 _ _) h3
  have hp : predictions d u e.consts = predictions d t cs := by
    unfold predictions
    exact List.map_congr_left fun r _ => h1 _ _
  rw [hp]
  by_cases hcc : Computable d t cs
  · rw [if_pos hcc, if_pos (hc.mpr hcc)]
  · rw [if_neg hcc, if_neg (fun h => hcc (hc.mp h))]

/-- ... and its complexity. -/
theorem Writes.complexity {e : PostfixExpr (Fl K)} {t : Tree} {cs : List (Fl K)} (h : Writes e t cs) {u : Tree}
    (hu : e.nodes = u.toPostfix) (o : CxOptions) (hw : o.WF) (h1 : u.ArityLe o.D) (h2 : t.ArityLe o.D) :
    computeComplexity o e.nodes = computeComplexity o t.toPostfix := by
  obtain ⟨u', hu', he, -⟩ := h.shape
  obtain rfl := toPostfix_injective (hu ▸ hu')
  have key : (u.toPostfix.map o.weights.node).sum = (t.toPostfix.map o.weights.node).sum := by
    have := total_mapConst o.weights (fun _ => 0) u
    rw [he, total_mapConst] at this
    exact this.symm
  rw [hu, C24_complexity o hw u h1, C24_complexity o hw t h2, key]

end
end SR
