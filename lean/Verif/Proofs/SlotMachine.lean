import Verif.Model.Eval
import Verif.Proofs.Postfix
/-
A generic register machine executing compiled plans, of which value, derivative, gradient and symbolic
execution are instances; and the correctness of `compilePlan` with respect to it.
-/
namespace SR

structure Machine (S P A : Type) where
  /-- number of slots -/
  N : Nat
  read : S → Nat → Option A
  write : S → Nat → P → S
  aVar : Nat → Option A
  aConst : Nat → Option A
  kern : Nat → Nat → List A → Option (P × Bool)
  early : Bool

namespace Machine
variable {S P A : Type} (M : Machine S P A)

def resolve (s : S) (dst : Nat) : Src → Option A
  | .var f => M.aVar f
  | .const c => M.aConst c
  | .slot k => if k = dst then none else M.read s k

/-- Value of a source outside any instruction. -/
def srcVal (s : S) : Src → Option A
  | .var f => M.aVar f
  | .const c => M.aConst c
  | .slot k => M.read s k

def step (s : S) (i : Instr) : Option (S × Bool) :=
  if i.dst < M.N then
    match i.args.mapM (M.resolve s i.dst) with
    | none => none
    | some args =>
      match M.kern i.arity i.op args with
      | none => none
      | some (p, ok) => some (M.write s i.dst p, ok)
  else none

def exec : List Instr → S → Bool → Option (ExecRes S)
  | [], s, c => some (.done s c)
  | i :: is, s, c =>
    match M.step s i with
    | none => none
    | some (s', ok) => if M.early && !ok then some (.exited s') else exec is s' (c && ok)

end Machine

/-- Laws a machine instance must satisfy, with the denotation of leaves and kernels. -/
structure Machine.Lawful {S P A : Type} (M : Machine S P A) (nf nc : Nat)
    (known : Nat → Nat → Bool) where
  Good : S → Prop
  AGood : A → Prop
  PGood : P → Prop
  toA : P → A
  vA : Nat → A
  cA : Nat → A
  K : Nat → Nat → List A → P × Bool
  hvar : ∀ f, f < nf → M.aVar f = some (vA f) ∧ AGood (vA f)
  hconst : ∀ c, c < nc → M.aConst c = some (cA c) ∧ AGood (cA c)
  hkern : ∀ a o args, args.length = a → 1 ≤ a → known a o = true → (∀ x ∈ args, AGood x) →
    M.kern a o args = some (K a o args) ∧ PGood (K a o args).1
  htoA : ∀ p, PGood p → AGood (toA p)
  hgood : ∀ s d p, Good s → d < M.N → PGood p → Good (M.write s d p)
  hsame : ∀ s d p, Good s → d < M.N → PGood p → M.read (M.write s d p) d = some (toA p)
  hne : ∀ s d p k, Good s → d < M.N → PGood p → k ≠ d → M.read (M.write s d p) k = M.read s k

/-- Slots occurring in a list of sources. -/
def slotsOf (l : List Src) : List Nat :=
  l.filterMap fun s => match s with | .slot k => some k | _ => none

@[simp] theorem slotsOf_nil : slotsOf [] = [] := rfl
@[simp] theorem slotsOf_slot (k l) : slotsOf (.slot k :: l) = k :: slotsOf l := rfl
@[simp] theorem slotsOf_var (k l) : slotsOf (.var k :: l) = slotsOf l := rfl
@[simp] theorem slotsOf_const (k l) : slotsOf (.const k :: l) = slotsOf l := rfl
@[simp] theorem slotsOf_append (a b) : slotsOf (a ++ b) = slotsOf a ++ slotsOf b := by
  simp [slotsOf]
@[simp] theorem slotsOf_reverse (a) : slotsOf a.reverse = (slotsOf a).reverse := by
  simp [slotsOf, List.filterMap_reverse]
theorem mem_slotsOf {k l} : k ∈ slotsOf l ↔ Src.slot k ∈ l := by
  simp only [slotsOf, List.mem_filterMap]
  constructor
  · rintro ⟨s, hs, h⟩
    cases s <;> simp at h
    subst h; exact hs
  · intro h; exact ⟨_, h, rfl⟩

theorem freeArgs_eq (args : List Src) (free : List Nat) :
    freeArgs args free = (slotsOf args).reverse ++ free := by
  unfold freeArgs
  induction args generalizing free with
  | nil => simp
  | cons a args ih =>
    cases a <;> simp [ih]

theorem mapM_option_congr {α β : Type} {f g : α → Option β} {l : List α}
    (h : ∀ x ∈ l, f x = g x) : l.mapM f = l.mapM g := by
  induction l with
  | nil => rfl
  | cons a l ih =>
    simp only [List.mapM_cons]
    rw [h a (by simp), ih (fun x hx => h x (by simp [hx]))]

/-- Allocation invariant of the compiler state. -/
structure AllocInv (cs : CompState) : Prop where
  nodup : (slotsOf cs.stack ++ cs.free).Nodup
  bound : ∀ k ∈ slotsOf cs.stack ++ cs.free, k < cs.next
  maxEq : cs.maxSlot = cs.next

namespace Machine.Lawful
variable {S P A : Type} {M : Machine S P A} {nf nc : Nat} {known : Nat → Nat → Bool}
  (L : M.Lawful nf nc known)

/-- Denotation of a tree. -/
def den : Tree → A := Tree.fold L.vA L.cA (fun o as => L.toA (L.K as.length o as).1)

@[simp] theorem den_var (f) : L.den (.var f) = L.vA f := by simp [den]
@[simp] theorem den_const (f) : L.den (.const f) = L.cA f := by simp [den]
@[simp] theorem den_op (o ts) :
    L.den (.op o ts) = L.toA (L.K ts.length o (ts.map L.den)).1 := by simp [den]

/-- The kernel's flag at the root of a tree. -/
def nodeOk : Tree → Bool
  | .op o ts => (L.K ts.length o (ts.map L.den)).2
  | _ => true

/-- All kernels of the tree reported ok. -/
def okAll (t : Tree) : Bool := t.subtrees.all L.nodeOk

def TWF (D nf nc : Nat) (known : Nat → Nat → Bool) : Tree → Prop :=
  Tree.All (· < nf) (· < nc) (fun o a => 1 ≤ a ∧ a ≤ D ∧ known a o = true)

theorem den_good {D} {t : Tree} (h : TWF D nf nc known t) : L.AGood (L.den t) := by
  induction t using Tree.ind with
  | hv f => simpa using (L.hvar f (by simpa [TWF] using h)).2
  | hc f => simpa using (L.hconst f (by simpa [TWF] using h)).2
  | ho o ts ih =>
    simp only [TWF, Tree.all_op] at h
    rw [den_op]
    apply L.htoA
    refine (L.hkern ts.length o _ (by simp) h.1.1 h.1.2.2 ?_).2
    intro x hx
    obtain ⟨u, hu, rfl⟩ := List.mem_map.mp hx
    exact ih u hu (h.2 u hu)

@[simp] theorem okAll_var (f) : L.okAll (.var f) = true := by simp [okAll, nodeOk]
@[simp] theorem okAll_const (f) : L.okAll (.const f) = true := by simp [okAll, nodeOk]
theorem okAll_op (o ts) :
    L.okAll (.op o ts) = (ts.all L.okAll && (L.K ts.length o (ts.map L.den)).2) := by
  have : (ts.map Tree.subtrees).flatten.all L.nodeOk = ts.all L.okAll := by
    induction ts with
    | nil => simp
    | cons t ts ih => simp only [List.map_cons, List.flatten_cons, List.all_append, ih]; simp [okAll]
  rw [okAll, Tree.subtrees_op, List.all_append, this]
  simp [nodeOk]

/-- What executing a block of instructions (compiled from trees with combined flag `ok` whose results
are in `post`) does. -/
def BlockSpec (is : List Instr) (live : List Nat) (ok : Bool) (hi : Nat) (post : S → Prop) : Prop :=
  ∀ s, hi ≤ M.N → L.Good s → ∀ rest c,
    if M.early && !ok then ∃ s', L.Good s' ∧ M.exec (is ++ rest) s c = some (.exited s')
    else ∃ s', L.Good s' ∧ (∀ k ∈ live, M.read s' k = M.read s k) ∧ post s' ∧
      M.exec (is ++ rest) s c = M.exec rest s' (c && ok)

/-- Specification of compiling one tree from a given state. -/
def TreeSpec (D : Nat) (t : Tree) : Prop :=
  TWF D nf nc known t → ∀ cs, AllocInv cs → cs.next + t.numOps ≤ u16Max →
    ∃ is src cs', t.toPostfix.foldlM (compileStep D nf nc) cs = some cs' ∧
      cs'.stack = src :: cs.stack ∧ cs'.instrs = cs.instrs ++ is ∧ AllocInv cs' ∧
      cs.next ≤ cs'.next ∧ cs'.next ≤ cs.next + t.numOps ∧
      (∀ f, src = .var f ↔ t = .var f) ∧ (∀ f, src = .const f ↔ t = .const f) ∧
      is.length = t.numOps ∧
      L.BlockSpec is (slotsOf cs.stack) (L.okAll t) cs'.next (fun s' => M.srcVal s' src = some (L.den t))

theorem numOps_op (o : Nat) (ts : List Tree) :
    (Tree.op o ts).numOps = 1 + (ts.map Tree.numOps).sum := by simp [Tree.numOps]

theorem compile_list {D : Nat} {ts : List Tree} (ih : ∀ t ∈ ts, L.TreeSpec D t)
    (hwf : ∀ t ∈ ts, TWF D nf nc known t) : ∀ cs, AllocInv cs →
    cs.next + (ts.map Tree.numOps).sum ≤ u16Max →
    ∃ (is : List Instr) (srcs : List Src) (cs' : CompState), ((ts.map Tree.toPostfix).flatten).foldlM (compileStep D nf nc) cs = some cs' ∧
      cs'.stack = srcs.reverse ++ cs.stack ∧ srcs.length = ts.length ∧
      cs'.instrs = cs.instrs ++ is ∧ AllocInv cs' ∧
      cs.next ≤ cs'.next ∧ cs'.next ≤ cs.next + (ts.map Tree.numOps).sum ∧
      is.length = (ts.map Tree.numOps).sum ∧
      L.BlockSpec is (slotsOf cs.stack) (ts.all L.okAll) cs'.next
        (fun s' => srcs.mapM (M.srcVal s') = some (ts.map L.den)) := by
  induction ts with
  | nil =>
    intro cs hinv _
    refine ⟨[], [], cs, by simp, by simp, by simp, by simp, hinv, by simp, by simp, by simp, ?_⟩
    intro s _ hs rest c
    simp only [List.all_nil, Bool.not_true, Bool.and_false, Bool.false_eq_true, ↓reduceIte]
    exact ⟨s, hs, by simp, by simp, by simp⟩
  | cons t ts ihl =>
    intro cs hinv hb
    simp only [List.map_cons, List.sum_cons] at hb
    obtain ⟨is1, src1, cs1, r1, st1, ins1, inv1, lo1, hi1, _, _, len1, blk1⟩ :=
      ih t (by simp) (hwf t (by simp)) cs hinv (by omega)
    obtain ⟨is2, srcs2, cs2, r2, st2, lsrc2, ins2, inv2, lo2, hi2, len2, blk2⟩ :=
      ihl (fun u hu => ih u (by simp [hu])) (fun u hu => hwf u (by simp [hu])) cs1 inv1 (by omega)
    refine ⟨is1 ++ is2, src1 :: srcs2, cs2, ?_, ?_, by simp [lsrc2], ?_, inv2, by omega, ?_, ?_, ?_⟩
    · simp only [List.map_cons, List.flatten_cons, foldlM_append_some, r1, Option.bind_some, r2]
    · rw [st2, st1]; simp
    · rw [ins2, ins1]; simp
    · simp only [List.map_cons, List.sum_cons]; omega
    · simp [len1, len2]
    · intro s hN hs rest c
      have b1 := blk1 s (by omega) hs (is2 ++ rest) c
      by_cases ho : (M.early && !L.okAll t) = true
      · rw [if_pos ho] at b1
        have : (M.early && !(t :: ts).all L.okAll) = true := by
          simp only [Bool.and_eq_true, Bool.not_eq_true'] at ho ⊢
          simp [ho]
        rw [if_pos this]
        simpa using b1
      · rw [if_neg ho] at b1
        obtain ⟨s1, g1, p1, q1, e1⟩ := b1
        have b2 := blk2 s1 (by omega) g1 rest (c && L.okAll t)
        have hcond : (M.early && !(t :: ts).all L.okAll) = (M.early && !ts.all L.okAll) := by
          simp only [List.all_cons]
          cases hE : M.early <;> simp_all
        rw [hcond]
        split
        · next h =>
          rw [if_pos h] at b2
          obtain ⟨s', gs', hs'⟩ := b2
          exact ⟨s', gs', by rw [List.append_assoc, e1, hs']⟩
        · next h =>
          rw [if_neg h] at b2
          obtain ⟨s2, g2, p2, q2, e2⟩ := b2
          refine ⟨s2, g2, ?_, ?_, ?_⟩
          · intro k hk
            rw [p2 k (by rw [st1]; cases src1 <;> simp [hk]), p1 k hk]
          · have : M.srcVal s2 src1 = some (L.den t) := by
              cases src1 with
              | var f => simpa [Machine.srcVal] using q1
              | const f => simpa [Machine.srcVal] using q1
              | slot k =>
                simp only [Machine.srcVal] at q1 ⊢
                rw [p2 k (by rw [st1]; simp), q1]
            simp only [List.mapM_cons, this, Option.bind_eq_bind, Option.bind_some, q2,
              Option.pure_def, List.map_cons]
          · rw [List.append_assoc, e1, e2]
            simp [Bool.and_assoc]

theorem compile_tree (D : Nat) (t : Tree) : L.TreeSpec D t := by
  induction t using Tree.ind with
  | hv f =>
    intro hwf cs hinv hb
    have hf : f < nf := by simpa [TWF] using hwf
    refine ⟨[], .var f, { cs with stack := .var f :: cs.stack }, ?_, rfl, by simp,
      ⟨by simpa using hinv.nodup, by simpa using hinv.bound, hinv.maxEq⟩, by simp, by simp,
      by simp, by simp, by simp [Tree.numOps], ?_⟩
    · simp [compileStep, hf]
    · intro s _ hs rest c
      simp only [okAll_var, Bool.not_true, Bool.and_false, Bool.false_eq_true, ↓reduceIte]
      exact ⟨s, hs, by simp, by simp [Machine.srcVal, (L.hvar f hf).1], by simp⟩
  | hc f =>
    intro hwf cs hinv hb
    have hf : f < nc := by simpa [TWF] using hwf
    refine ⟨[], .const f, { cs with stack := .const f :: cs.stack }, ?_, rfl, by simp,
      ⟨by simpa using hinv.nodup, by simpa using hinv.bound, hinv.maxEq⟩, by simp, by simp,
      by simp, by simp, by simp [Tree.numOps], ?_⟩
    · simp [compileStep, hf]
    · intro s _ hs rest c
      simp only [okAll_const, Bool.not_true, Bool.and_false, Bool.false_eq_true, ↓reduceIte]
      exact ⟨s, hs, by simp, by simp [Machine.srcVal, (L.hconst f hf).1], by simp⟩
  | ho o ts ih =>
    intro hwf cs hinv hb
    have hwf' := hwf
    simp only [TWF, Tree.all_op] at hwf'
    obtain ⟨⟨ha1, haD, hkn⟩, hch⟩ := hwf'
    rw [numOps_op] at hb
    obtain ⟨is, srcs, cs1, r1, st1, ls, ins1, inv1, lo1, hi1, len1, blk1⟩ :=
      L.compile_list ih hch cs hinv (by omega)
    have htake : (cs1.stack.take ts.length).reverse = srcs := by
      rw [st1, List.take_append_of_le_length (by simp [ls])]
      simp [List.take_of_length_le, ls]
    have hdrop : cs1.stack.drop ts.length = cs.stack := by
      rw [st1, List.drop_append_of_le_length (by simp [ls])]
      simp [ls]
    have hlen : ts.length ≤ cs1.stack.length := by rw [st1]; simp [ls]
    -- the allocation
    obtain ⟨dst, fr, nx, halloc, hfresh, hperm⟩ : ∃ dst fr nx,
        allocSlot cs1.free cs1.next = some (dst, fr, nx) ∧
        (cs1.next ≤ nx ∧ nx ≤ cs1.next + 1 ∧ dst < nx ∧ dst ∉ slotsOf cs1.stack ∧
          max cs1.maxSlot (dst + 1) = nx ∧ ∀ k ∈ fr, k < nx) ∧
        (dst :: (slotsOf cs1.stack ++ fr)).Nodup := by
      have hnd := inv1.nodup
      have hbd := inv1.bound
      have hmx := inv1.maxEq
      cases hfree : cs1.free with
      | nil =>
        have hlt : cs1.next < u16Max := by omega
        refine ⟨cs1.next, [], cs1.next + 1, by simp [allocSlot, hlt], ?_, ?_⟩
        · refine ⟨by omega, by omega, by omega, ?_, by omega, by simp⟩
          intro hm
          have := hbd _ (List.mem_append.mpr (Or.inl hm))
          omega
        · rw [List.nodup_cons]
          rw [hfree] at hnd hbd
          refine ⟨?_, hnd⟩
          intro hm
          have := hbd _ hm
          omega
      | cons d fr =>
        rw [hfree] at hnd hbd
        have hd : d < cs1.next := hbd d (by simp)
        have hp : (d :: (slotsOf cs1.stack ++ fr)).Nodup :=
          (List.perm_middle.nodup_iff).mp hnd
        refine ⟨d, fr, cs1.next, by simp [allocSlot], ?_, hp⟩
        refine ⟨by omega, by omega, hd, ?_, by omega, ?_⟩
        · intro hm
          have := (List.nodup_cons.mp hp).1
          exact this (by simp [hm])
        · intro k hk; exact hbd k (by simp [hk])
    obtain ⟨hnx1, hnx2, hdnx, hdst, hmax, hfr⟩ := hfresh
    have hslots : slotsOf cs1.stack = (slotsOf srcs).reverse ++ slotsOf cs.stack := by
      rw [st1]; simp
    refine ⟨is ++ [{ arity := ts.length, op := o, args := srcs, dst }], .slot dst,
      { stack := .slot dst :: cs.stack
        instrs := cs1.instrs ++ [{ arity := ts.length, op := o, args := srcs, dst }]
        free := freeArgs srcs fr, next := nx, maxSlot := max cs1.maxSlot (dst + 1) },
      ?_, rfl, ?_, ?_, by simp; omega, ?_, by simp, by simp, ?_, ?_⟩
    · rw [Tree.toPostfix_op, foldlM_append_some, r1]
      simp only [Option.bind_some, List.foldlM_cons, List.foldlM_nil, compileStep]
      rw [if_pos ⟨ha1, haD⟩, if_pos hlen, halloc]
      simp [htake, hdrop]
    · simp [ins1]
    · refine ⟨?_, ?_, hmax⟩
      · simp only [slotsOf_slot, freeArgs_eq, List.cons_append]
        rw [hslots] at hperm
        refine (List.Perm.nodup_iff ?_).mp hperm
        apply List.Perm.cons
        rw [← List.append_assoc]
        apply List.Perm.append_right
        exact List.perm_append_comm
      · simp only [slotsOf_slot, freeArgs_eq]
        intro k hk
        have hbd := inv1.bound
        rw [hslots] at hbd
        simp only [List.cons_append, List.mem_cons, List.mem_append, List.mem_reverse] at hk hbd
        rcases hk with h | h | h | h
        · omega
        · have := hbd k (Or.inl (Or.inr h)); omega
        · have := hbd k (Or.inl (Or.inl h)); omega
        · exact hfr k h
    · rw [numOps_op]; simp; omega
    · rw [numOps_op]; simp [len1]; omega
    · intro s hN hs rest c
      simp only at hN
      have b1 := blk1 s (by omega) hs ({ arity := ts.length, op := o, args := srcs, dst } :: rest) c
      rw [okAll_op]
      by_cases ho : (M.early && !ts.all L.okAll) = true
      · rw [if_pos ho] at b1
        rw [if_pos (by simp only [Bool.and_eq_true, Bool.not_eq_true'] at ho ⊢; simp [ho])]
        simpa using b1
      · rw [if_neg ho] at b1
        obtain ⟨s1, g1, p1, q1, e1⟩ := b1
        have hdN : dst < M.N := by omega
        -- resolving the arguments inside the instruction
        have hres : srcs.mapM (M.resolve s1 dst) = some (ts.map L.den) := by
          rw [← q1]
          have hmem : ∀ x ∈ srcs, M.resolve s1 dst x = M.srcVal s1 x := by
            intro x hx
            cases x with
            | var f => rfl
            | const f => rfl
            | slot k =>
              simp only [Machine.resolve, Machine.srcVal]
              rw [if_neg]
              rintro rfl
              apply hdst
              rw [hslots]
              simp [mem_slotsOf, hx]
          exact mapM_option_congr hmem
        obtain ⟨hk1, hk2⟩ := L.hkern ts.length o (ts.map L.den) (by simp) ha1 hkn (by
          intro x hx
          obtain ⟨u, hu, rfl⟩ := List.mem_map.mp hx
          exact L.den_good (hch u hu))
        have hstep : M.step s1 { arity := ts.length, op := o, args := srcs, dst }
            = some (M.write s1 dst (L.K ts.length o (ts.map L.den)).1,
                (L.K ts.length o (ts.map L.den)).2) := by
          simp only [Machine.step]
          rw [if_pos hdN, hres]
          simp only [hk1]
        rw [List.append_assoc, List.singleton_append, e1]
        simp only [Machine.exec, hstep]
        have g2 := L.hgood s1 dst _ g1 hdN hk2
        by_cases hok : (M.early && !(L.K ts.length o (ts.map L.den)).2) = true
        · rw [if_pos hok, if_pos (by
            simp only [Bool.and_eq_true, Bool.not_eq_true'] at hok ⊢; simp [hok])]
          exact ⟨_, g2, rfl⟩
        · rw [if_neg hok, if_neg (by
            cases hE : M.early <;> simp_all)]
          refine ⟨_, g2, ?_, ?_, by rw [Bool.and_assoc]⟩
          · intro k hk
            rw [L.hne s1 dst _ k g1 hdN hk2 (by
              rintro rfl
              apply hdst; rw [hslots]; simp [hk]), p1 k hk]
          · simp only [Machine.srcVal, den_op]
            exact L.hsame s1 dst _ g1 hdN hk2

end Machine.Lawful
end SR

namespace SR

/-- Everything about the compiled plan that does not depend on the machine. -/
theorem compilePlan_of_lawful {S P A : Type} {M : Machine S P A} {nf nc : Nat}
    {known : Nat → Nat → Bool} (L : M.Lawful nf nc known) (hash : List PNode → UInt64) {D : Nat}
    {t : Tree} (hwf : Machine.Lawful.TWF D nf nc known t) (hnf : nf ≤ u16Max) (hnc : nc ≤ u16Max)
    (hops : t.numOps ≤ u16Max) :
    ∃ plan, compilePlan hash D t.toPostfix nf nc = some plan ∧ plan.hash = hash t.toPostfix ∧
      plan.nSlots ≤ t.numOps ∧ plan.instrs.length = t.numOps ∧
      (∀ f, plan.root = .var f ↔ t = .var f) ∧ (∀ f, plan.root = .const f ↔ t = .const f) ∧
      (∀ s, plan.nSlots ≤ M.N → L.Good s →
        if M.early && !L.okAll t then
          ∃ s', L.Good s' ∧ M.exec plan.instrs s true = some (.exited s')
        else ∃ s', L.Good s' ∧ M.exec plan.instrs s true = some (.done s' (L.okAll t)) ∧
          M.srcVal s' plan.root = some (L.den t)) := by
  obtain ⟨is, src, cs', r, st, ins, inv, lo, hi, hv, hc, hlen, blk⟩ :=
    L.compile_tree D t hwf { stack := [], instrs := [], free := [], next := 0, maxSlot := 0 }
      ⟨by simp, by simp, rfl⟩ (by simpa using hops)
  simp only [List.nil_append, Nat.zero_add] at ins hi st
  refine ⟨{ instrs := is, nSlots := cs'.maxSlot, root := src, hash := hash t.toPostfix },
    ?_, rfl, by simp only [inv.maxEq]; exact hi, hlen, hv, hc, ?_⟩
  · simp [compilePlan, hnf, hnc, r, st, ins]
  · intro s hN hs
    have b := blk s (by rw [← inv.maxEq]; exact hN) hs [] true
    simp only [List.append_nil, Machine.exec, Bool.true_and] at b
    split
    · next h => rw [if_pos h] at b; exact b
    · next h =>
      rw [if_neg h] at b
      obtain ⟨s', g, _, p, e⟩ := b
      exact ⟨s', g, e, p⟩

/-! ### flat buffers -/

section Flat
variable {T : Type}

theorem slice?_length {xs : List T} {a n : Nat} {l : List T} (h : slice? xs a n = some l) :
    l.length = n := by
  unfold slice? at h
  split at h
  · simp at h; subst h; simp; omega
  · simp at h

theorem slice?_flatten {LL : List (List T)} {n : Nat} (hn : ∀ l ∈ LL, l.length = n) (f : Nat)
    (hf : f < LL.length) : slice? LL.flatten (f * n) n = some LL[f] := by
  induction LL generalizing f with
  | nil => simp at hf
  | cons l LL ih =>
    have hl := hn l (by simp)
    cases f with
    | zero =>
      simp [slice?, hl]
    | succ f =>
      have hf' : f < LL.length := by simpa using hf
      have := ih (fun x hx => hn x (by simp [hx])) f hf'
      simp only [slice?, List.flatten_cons, List.length_append, hl] at this ⊢
      have e : (f + 1) * n = n + f * n := by rw [Nat.add_mul]; omega
      split at this
      · next h =>
        rw [if_pos (by rw [e]; omega), e]
        simp only [Option.some.injEq] at this ⊢
        rw [← hl, List.drop_append, hl]
        simp only [List.getElem_cons_succ]
        rw [List.drop_of_length_le (by omega), List.nil_append]
        rw [show n + f * n - n = f * n by omega]
        exact this
      · simp at this

theorem Mat.data_slice (X : Mat T) (f : Nat) (hf : f < X.rows) :
    slice? X.data (f * X.cols) X.cols = some ((List.range X.cols).map (X.at' f)) := by
  unfold Mat.data
  rw [List.flatMap_def]
  rw [slice?_flatten (by simp) f (by simpa using hf)]
  simp

/-- Replace slot `d` (of width `n`). -/
def writeSlot (n : Nat) (s : List T) (d : Nat) (p : List T) : List T :=
  s.take (d * n) ++ p ++ s.drop (d * n + n)

theorem slot_le {n N d len : Nat} (hd : d < N) (hlen : len = N * n) : d * n + n ≤ len := by
  subst hlen
  have : (d + 1) * n ≤ N * n := Nat.mul_le_mul_right n hd
  rw [Nat.add_mul] at this; omega

theorem writeSlot_length {n N : Nat} {s p : List T} {d : Nat} (hs : s.length = N * n) (hd : d < N)
    (hp : p.length = n) : (writeSlot n s d p).length = N * n := by
  have := slot_le (n := n) hd hs
  simp only [writeSlot, List.length_append, List.length_take, List.length_drop, hp]
  omega

theorem writeSlot_same {n N : Nat} {s p : List T} {d : Nat} (hs : s.length = N * n) (hd : d < N)
    (hp : p.length = n) : slice? (writeSlot n s d p) (d * n) n = some p := by
  have h := slot_le (n := n) hd hs
  have hl := writeSlot_length hs hd hp
  unfold slice?
  rw [if_pos (by rw [hl]; rw [hs] at h; exact h)]
  simp only [writeSlot, Option.some.injEq]
  have h1 : (s.take (d * n)).length = d * n := by simp; omega
  rw [List.append_assoc, List.drop_append, h1]
  simp only [Nat.sub_self, List.drop_zero]
  rw [List.drop_of_length_le (by omega), List.nil_append, ← hp, List.take_left]

theorem slice?_eq_of_getElem? {a b : List T} {i j n : Nat} (ha : i + n ≤ a.length)
    (hb : j + n ≤ b.length) (h : ∀ r, r < n → a[i + r]? = b[j + r]?) :
    slice? a i n = slice? b j n := by
  unfold slice?
  rw [if_pos ha, if_pos hb]
  congr 1
  apply List.ext_getElem?
  intro r
  simp only [List.getElem?_take, List.getElem?_drop]
  split
  · next hr => exact h r hr
  · rfl

theorem writeSlot_ne {n N : Nat} {s p : List T} {d k : Nat} (hs : s.length = N * n) (hd : d < N)
    (hp : p.length = n) (hk : k ≠ d) :
    slice? (writeSlot n s d p) (k * n) n = slice? s (k * n) n := by
  have h := slot_le (n := n) hd hs
  have hl := writeSlot_length hs hd hp
  by_cases hb : k * n + n ≤ s.length
  · apply slice?_eq_of_getElem? (by rw [hl, ← hs]; exact hb) hb
    intro r hr
    have h1 : (s.take (d * n)).length = d * n := by simp; omega
    unfold writeSlot
    rcases Nat.lt_or_gt_of_ne hk with hlt | hgt
    · have : (k + 1) * n ≤ d * n := Nat.mul_le_mul_right n hlt
      rw [Nat.add_mul] at this
      rw [List.append_assoc, List.getElem?_append_left (by rw [h1]; omega)]
      rw [List.getElem?_take, if_pos (by omega)]
    · have : (d + 1) * n ≤ k * n := Nat.mul_le_mul_right n hgt
      rw [Nat.add_mul] at this
      rw [List.getElem?_append_right (by simp [h1, hp]; omega)]
      rw [List.getElem?_drop]
      congr 1
      simp [h1, hp]; omega
  · unfold slice?
    rw [if_neg (by rw [hl, ← hs]; exact hb), if_neg hb]

/-- Reading a slot through the `before`/`after` split of the scratch buffer. -/
theorem slice?_before {n : Nat} {s : List T} {d k : Nat} (hk : k < d) (hd : d * n ≤ s.length) :
    slice? (s.take (d * n)) (k * n) n = slice? s (k * n) n := by
  have : (k + 1) * n ≤ d * n := Nat.mul_le_mul_right n hk
  rw [Nat.add_mul] at this
  apply slice?_eq_of_getElem? (by simp; omega) (by omega)
  intro r hr
  rw [List.getElem?_take, if_pos (by omega)]

theorem slice?_after {n : Nat} {s : List T} {d k : Nat} (hk : d < k) (hd : d * n + n ≤ s.length) :
    slice? (s.drop (d * n + n)) ((k - d - 1) * n) n = slice? s (k * n) n := by
  have e : k * n = (d * n + n) + (k - d - 1) * n := by
    obtain ⟨m, rfl⟩ : ∃ m, k = d + 1 + m := ⟨k - d - 1, by omega⟩
    have : d + 1 + m - d - 1 = m := by omega
    rw [this, Nat.add_mul, Nat.add_mul]; omega
  unfold slice?
  rw [e]
  simp only [List.length_drop, List.drop_drop]
  by_cases h : (d * n + n) + (k - d - 1) * n + n ≤ s.length
  · rw [if_pos (by omega), if_pos h]
  · rw [if_neg (by omega), if_neg h]

end Flat
end SR
