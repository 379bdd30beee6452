import Verif.Model.Mutation
import Verif.Proofs.Postfix
import Verif.Proofs.Utils
import Mathlib.Data.List.Induction
/-
Structural lemmas for the mutation operators.
-/
namespace SR
variable {F T : Type}

theorem mem_positions {p : PNode → Bool} {nodes : List PNode} {i : Nat} :
    i ∈ positions p nodes ↔ ∃ n, nodes[i]? = some n ∧ p n = true := by
  simp only [positions, List.mem_map, List.mem_filter, Prod.exists]
  constructor
  · rintro ⟨n, j, ⟨h1, h2⟩, rfl⟩
    exact ⟨n, List.mem_zipIdx_iff_getElem?.mp h1, h2⟩
  · rintro ⟨n, h1, h2⟩
    exact ⟨n, i, ⟨List.mem_zipIdx_iff_getElem?.mpr h1, h2⟩, rfl⟩

theorem Total.pick {α : Type} {l : List α} (h : l ≠ []) : Rand.Total (pick l : Rand F α) (· ∈ l) := by
  refine Rand.Total.bind (Rand.Total.below (List.length_pos_iff.mpr h)) fun k hk => Rand.Total.lift ?_
  exact ⟨l[k], List.getElem?_eq_getElem hk, List.getElem_mem hk⟩

/-- Subtree `s` sits in the node list between `p` and `q`, and the size table agrees. -/
structure At (nodes : List PNode) (sizes : List Nat) (p q : List PNode) (s : Tree) : Prop where
  nodes_eq : nodes = p ++ s.toPostfix ++ q
  sizes_eq : ∃ P Q, sizes = P ++ s.subtrees.map Tree.size ++ Q ∧ P.length = p.length

theorem subtrees_plug (c : Ctx) (s : Tree) :
    ∃ P Q, (c.plug s).subtrees = P ++ s.subtrees ++ Q ∧ P.length = c.pre.length := by
  induction c with
  | hole => exact ⟨[], [], by simp [Ctx.plug], rfl⟩
  | node o l c r ih =>
    obtain ⟨P, Q, h, hl⟩ := ih
    refine ⟨(l.map Tree.subtrees).flatten ++ P,
      Q ++ (r.map Tree.subtrees).flatten ++ [.op o (l ++ c.plug s :: r)], ?_, ?_⟩
    · simp [Ctx.plug, h, List.append_assoc]
    · simp [Ctx.pre, hl, List.length_flatten, Function.comp_def, length_subtrees, length_toPostfix]

theorem at_plug (c : Ctx) (s : Tree) :
    At (c.plug s).toPostfix ((c.plug s).subtrees.map Tree.size) c.pre c.post s := by
  obtain ⟨P, Q, h, hl⟩ := subtrees_plug c s
  exact ⟨Ctx.toPostfix_plug c s, P.map Tree.size, Q.map Tree.size, by simp [h], by simpa using hl⟩

namespace At
variable {nodes : List PNode} {sizes : List Nat} {p q : List PNode} {s : Tree}

theorem child {o : Nat} {l r : List Tree} {u : Tree} (h : At nodes sizes p q (.op o (l ++ u :: r))) :
    At nodes sizes (p ++ (l.map Tree.toPostfix).flatten)
      ((r.map Tree.toPostfix).flatten ++ [.op (l.length + 1 + r.length) o] ++ q) u := by
  obtain ⟨hn, P, Q, hs, hl⟩ := h
  refine ⟨?_, P ++ ((l.map Tree.subtrees).flatten).map Tree.size,
    ((r.map Tree.subtrees).flatten).map Tree.size ++ [Tree.size (.op o (l ++ u :: r))] ++ Q, ?_, ?_⟩
  · rw [hn]; simp [List.append_assoc, Nat.add_comm, Nat.add_left_comm]
  · rw [hs]; simp [List.append_assoc]
  · simp [hl, List.length_flatten, Function.comp_def, length_subtrees, length_toPostfix]

theorem size_at (h : At nodes sizes p q s) : sizes[p.length + s.size - 1]? = some s.size := by
  obtain ⟨_, P, Q, hs, hl⟩ := h
  have hpos := Tree.size_pos s
  have hlen : (s.subtrees.map Tree.size).length = s.size := by simp [length_subtrees]
  rw [hs, List.append_assoc, List.getElem?_append_right (by omega), hl,
    List.getElem?_append_left (by rw [hlen]; omega)]
  have hlast : s.subtrees.getLast? = some s := by
    cases s <;> simp
  rw [List.getElem?_map]
  have : s.subtrees[p.length + s.size - 1 - p.length]? = some s := by
    rw [← hlast, List.getLast?_eq_getElem?, length_subtrees]; congr 1; omega
  simp [this]

theorem range (h : At nodes sizes p q s) :
    subtreeRange sizes (p.length + s.size - 1) = some (p.length, p.length + s.size - 1) := by
  rw [subtreeRange, h.size_at]
  have hpos := Tree.size_pos s
  simp only [Option.map_some, Option.some.injEq, Prod.mk.injEq, and_true]
  omega

theorem slice_eq (h : At nodes sizes p q s) :
    slice nodes p.length (p.length + s.size - 1) = some s.toPostfix := by
  have hpos := Tree.size_pos s
  have e : p.length + s.size - 1 + 1 = (p ++ s.toPostfix).length := by
    simp [length_toPostfix]; omega
  rw [slice, if_pos, e, h.nodes_eq, List.take_left, List.drop_left]
  rw [h.nodes_eq]; simp only [List.length_append, length_toPostfix]; omega

theorem splice_eq (h : At nodes sizes p q s) (new : List PNode) :
    splice nodes p.length (p.length + s.size - 1) new = some (p ++ new ++ q) := by
  have hpos := Tree.size_pos s
  have e : p.length + s.size - 1 + 1 = (p ++ s.toPostfix).length := by
    simp [length_toPostfix]; omega
  rw [splice, if_pos, e, h.nodes_eq, List.drop_left, List.append_assoc p, List.take_left]
  rw [h.nodes_eq]; simp only [List.length_append, length_toPostfix]; omega

theorem getElem?_eq (h : At nodes sizes p q s) : nodes[p.length + s.size - 1]? = some s.rootNode := by
  have hpos := Tree.size_pos s
  rw [h.nodes_eq, List.append_assoc, List.getElem?_append_right (by omega),
    List.getElem?_append_left (by rw [length_toPostfix]; omega)]
  have hlast : s.toPostfix.getLast? = some s.rootNode := by
    cases s <;> simp [Tree.rootNode]
  rw [← hlast, List.getLast?_eq_getElem?, length_toPostfix]; congr 1; omega

end At

/-- The inclusive ranges of consecutive subtrees starting at `b`. -/
def rangesFrom : Nat → List Tree → List (Nat × Nat)
  | _, [] => []
  | b, t :: ts => (b, b + t.size - 1) :: rangesFrom (b + t.size) ts

theorem rangesFrom_append (b : Nat) (l r : List Tree) :
    rangesFrom b (l ++ r) = rangesFrom b l ++ rangesFrom (b + (l.map Tree.size).sum) r := by
  induction l generalizing b with
  | nil => simp [rangesFrom]
  | cons t l ih => simp [rangesFrom, ih, Nat.add_assoc]

@[simp] theorem length_rangesFrom (b : Nat) (l : List Tree) : (rangesFrom b l).length = l.length := by
  induction l generalizing b with
  | nil => rfl
  | cons t l ih => simp [rangesFrom, ih]

theorem rangesFrom_get (b : Nat) (l r : List Tree) (u : Tree) :
    (rangesFrom b (l ++ u :: r))[l.length]? =
      some (b + (l.map Tree.size).sum, b + (l.map Tree.size).sum + u.size - 1) := by
  rw [rangesFrom_append, List.getElem?_append_right (by simp)]
  simp [rangesFrom]

theorem flat_length (l : List Tree) : (l.map Tree.toPostfix).flatten.length = (l.map Tree.size).sum := by
  simp [List.length_flatten, Function.comp_def, length_toPostfix]

theorem childRangesGo_eq {nodes : List PNode} {sizes : List Nat} {p q : List PNode} {o : Nat}
    (l r : List Tree) (h : At nodes sizes p q (.op o (l ++ r))) (acc : List (Nat × Nat)) :
    childRangesGo sizes l.length (p.length + (l.map Tree.size).sum) acc =
      some (rangesFrom p.length l ++ acc) := by
  induction l using List.reverseRecOn generalizing r acc with
  | nil => simp [childRangesGo, rangesFrom]
  | append_singleton l u ih =>
    have hc := At.child (l := l) (u := u) (r := r) (by simpa using h)
    have hs := hc.size_at
    have hpos := Tree.size_pos u
    simp only [List.length_append, flat_length] at hs
    have e1 : (l ++ [u]).length = l.length + 1 := by simp
    rw [e1, childRangesGo, if_neg (by simp; omega)]
    have e2 : p.length + ((l ++ [u]).map Tree.size).sum - 1
        = p.length + (l.map Tree.size).sum + u.size - 1 := by simp; omega
    rw [e2, hs]
    simp only []
    rw [if_pos (by simp; omega)]
    have e3 : p.length + ((l ++ [u]).map Tree.size).sum - u.size = p.length + (l.map Tree.size).sum := by
      simp; omega
    rw [e3, ih (u :: r) (by simpa using h)]
    simp [rangesFrom_append, rangesFrom]

theorem childRanges_eq {nodes : List PNode} {sizes : List Nat} {p q : List PNode} {o : Nat}
    {ts : List Tree} (h : At nodes sizes p q (.op o ts)) :
    childRanges sizes (p.length + (Tree.op o ts).size - 1) ts.length = some (rangesFrom p.length ts) := by
  have := childRangesGo_eq ts [] (o := o) (by simpa using h) []
  rw [childRanges]
  have e : p.length + (Tree.op o ts).size - 1 = p.length + (ts.map Tree.size).sum := by
    simp; omega
  rw [e, this]; simp

/-- Every position of a serialised tree is the root of a subtree in a context. -/
theorem position_ctx {t : Tree} {i : Nat} {n : PNode} (h : t.toPostfix[i]? = some n) :
    ∃ (c : Ctx) (s : Tree), t = c.plug s ∧ i = c.pre.length + s.size - 1 ∧ s.rootNode = n := by
  have hi : i < t.toPostfix.length := (List.getElem?_eq_some_iff.mp h).1
  have hi' : i < t.subtrees.length := by rw [length_subtrees, ← length_toPostfix]; exact hi
  obtain ⟨c, hc, hl⟩ := subtrees_ctx t i _ (List.getElem?_eq_getElem hi')
  refine ⟨c, t.subtrees[i], hc, by omega, ?_⟩
  generalize t.subtrees[i] = s at *
  subst hc
  have h2 := (at_plug c s).getElem?_eq
  have : c.pre.length + s.size - 1 = i := by omega
  rw [this, h] at h2
  simpa using h2.symm

theorem set_at {p q : List PNode} {x y : PNode} {i : Nat} (h : i = p.length) :
    (p ++ [x] ++ q).set i y = p ++ [y] ++ q := by
  subst h; simp

theorem toPostfix_op_last (o : Nat) (ts : List Tree) :
    (Tree.op o ts).toPostfix = (ts.map Tree.toPostfix).flatten ++ [.op ts.length o] := by simp

theorem gather_none (nodes : List PNode) (pos : Nat) (repl : List PNode) (l : List Tree) (b j : Nat)
    (p q : List PNode) (hb : b = p.length) (hj : ∀ k, k < l.length → j + k ≠ pos)
    (hn : nodes = p ++ (l.map Tree.toPostfix).flatten ++ q) :
    gather nodes pos repl (rangesFrom b l) j = some (l.map Tree.toPostfix).flatten := by
  induction l generalizing b j p with
  | nil => simp [rangesFrom, gather]
  | cons u l ih =>
    have hsl : slice nodes b (b + u.size - 1) = some u.toPostfix := by
      subst hb
      have hpos := Tree.size_pos u
      have e : p.length + u.size - 1 + 1 = (p ++ u.toPostfix).length := by
        simp [length_toPostfix]; omega
      rw [slice, if_pos, e, hn]
      · simp only [List.map_cons, List.flatten_cons]
        rw [← List.append_assoc p, List.append_assoc (p ++ u.toPostfix), List.take_left, List.drop_left]
      · rw [hn]; simp only [List.map_cons, List.flatten_cons, List.length_append, length_toPostfix]; omega
    rw [rangesFrom, gather, if_neg (by simpa using hj 0 (by simp)), hsl]
    simp only []
    rw [ih (b + u.size) (j + 1) (p ++ u.toPostfix) (by simp [hb, length_toPostfix])
      (fun k hk => by have := hj (k + 1) (by simpa using hk); omega) (by rw [hn]; simp)]
    simp

theorem gather_eq (nodes : List PNode) (repl : List PNode) (l r : List Tree) (u : Tree) (b j : Nat)
    (p q : List PNode) (hb : b = p.length)
    (hn : nodes = p ++ ((l ++ u :: r).map Tree.toPostfix).flatten ++ q) :
    gather nodes (j + l.length) repl (rangesFrom b (l ++ u :: r)) j =
      some ((l.map Tree.toPostfix).flatten ++ repl ++ (r.map Tree.toPostfix).flatten) := by
  induction l generalizing b j p with
  | nil =>
    simp only [List.nil_append, rangesFrom, gather, List.length_nil, Nat.add_zero, if_true]
    rw [gather_none nodes j repl r (b + u.size) (j + 1) (p ++ u.toPostfix) q
      (by simp [hb, length_toPostfix]) (by intros; omega) (by rw [hn]; simp)]
    simp
  | cons v l ih =>
    have hsl : slice nodes b (b + v.size - 1) = some v.toPostfix := by
      subst hb
      have hpos := Tree.size_pos v
      have e : p.length + v.size - 1 + 1 = (p ++ v.toPostfix).length := by
        simp [length_toPostfix]; omega
      rw [slice, if_pos, e, hn]
      · simp only [List.cons_append, List.map_cons, List.flatten_cons]
        rw [← List.append_assoc p, List.append_assoc (p ++ v.toPostfix), List.take_left, List.drop_left]
      · rw [hn]; simp only [List.cons_append, List.map_cons, List.flatten_cons, List.length_append, length_toPostfix]; omega
    rw [List.cons_append, rangesFrom, gather, if_neg (by simp), hsl]
    simp only []
    have := ih (b + v.size) (j + 1) (p ++ v.toPostfix) (by simp [hb, length_toPostfix])
      (by rw [hn]; simp)
    rw [show j + (v :: l).length = j + 1 + l.length by simp; omega, this]
    simp

end SR
