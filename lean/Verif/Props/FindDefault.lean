import Verif.Props.FindSearch
import Verif.Props.Options
/-
C82: a search with the default options, in binary64 arithmetic.
-/
namespace SR
open Rand

/-- The float draws of the generator: the multiples of `2 ^ -52` in `[0, 1)`. -/
def GridDraw (u : Fl ℚ) : Prop := ∃ k : Nat, k < 2 ^ 52 ∧ u = .fin (k / 2 ^ 52)

namespace FindDefault

def toQ : Fl ℚ → ℚ
  | .fin x => x
  | _ => 0

/-- A draw that should select the tenth weight: the middle of its interval. -/
def drawOf (ws : List (Fl ℚ)) : Nat :=
  (((ws.map toQ).take 9).sum + ((ws.map toQ)[9]?.getD 0) / 2) * 2 ^ 52 / (ws.map toQ).sum |>.floor.toNat

/-- It does. -/
def picks (ws : List (Fl ℚ)) : Bool :=
  match weightedTotal binary64 ws (.fin 0) with
  | none => false
  | some total => total.isFinite && !total.le (.fin 0) && decide (drawOf ws < 2 ^ 52) &&
    decide (weightedLoop binary64 ws 0 (binary64.mul (.fin ((drawOf ws : ℚ) / 2 ^ 52)) total) = some 9)

theorem picks_reaches {w : MutWeights ℚ} (h : picks (w.choices.map Prod.snd) = true) :
    Reaches GridDraw (weightedIndex binary64 (w.choices.map Prod.snd)) 9 := by
  unfold picks at h
  cases ht : weightedTotal binary64 (w.choices.map Prod.snd) (.fin 0) with
  | none => rw [ht] at h; cases h
  | some total =>
    rw [ht] at h
    simp only [Bool.and_eq_true, decide_eq_true_eq, Bool.not_eq_true'] at h
    obtain ⟨⟨⟨h1, h2⟩, h3⟩, h4⟩ := h
    unfold weightedIndex
    rw [if_neg (by simp [MutWeights.choices]), ht]
    simp only
    rw [if_neg (by simp [h1, h2])]
    refine Reaches.bind (Reaches.float ⟨_, h3, rfl⟩) ?_
    rw [h4]
    exact Reaches.pure _

/-- The default weights with any of the adjustable ones switched off and `n` constants. -/
def inner (swap feat add simp opt : Bool) (n : Nat) : MutWeights ℚ :=
  { MutWeights.default with
    swapOperands := zeroIf swap MutWeights.default.swapOperands
    mutateConstant := binary64.mul MutWeights.default.mutateConstant (binary64.div (binary64.ofNat n) (binary64.ofNat 8))
    mutateFeature := zeroIf feat MutWeights.default.mutateFeature
    addNode := zeroIf add MutWeights.default.addNode
    insertNode := zeroIf add MutWeights.default.insertNode
    simplify := zeroIf simp MutWeights.default.simplify
    optimize := zeroIf opt MutWeights.default.optimize }

theorem inner_picks : ∀ swap feat add simp opt : Bool, ∀ n : Fin 9, picks ((inner swap feat add simp opt n).choices.map Prod.snd) = true := by
  decide +kernel

theorem leaf_picks : ∀ b : Bool, picks ((MutWeights.default.leaf b).choices.map Prod.snd) = true := by
  decide +kernel

end FindDefault

section
variable [E : Env ℚ]
open FindDefault

/-- C82: with the default options, in binary64 arithmetic and with the draws of the generator, every draw the theorem asks for
exists: in particular, whatever the member, some draw chooses the mutation that replaces the whole expression. -/
theorem C82_default_draws (hE : RustEnv E) (hexp : ∀ x : Fl ℚ, (E.libm.exp x).lt (.fin 0) = false) (sqrt : Fl ℚ → Fl ℚ)
    (finiteMax : Nat) (operators : Operators) :
    DrawsOk GridDraw { SOptions.default E.D sqrt finiteMax with operators := operators } where
  zero := ⟨0, by decide, by simp⟩
  mutate := ⟨.fin ((2 ^ 51 : Nat) / 2 ^ 52), ⟨2 ^ 51, by decide, rfl⟩, by
    show (lit64 (259 / 10000)).lt _ = true
    decide +kernel⟩
  randomize m cur nf := by
    unfold sampleMutation
    refine Reaches.bind (a := 9) ?_ (Reaches.bind (a := (Mutation.randomize, _)) (Reaches.lift rfl) (Reaches.pure _))
    rw [hE.f64]
    refine picks_reaches ?_
    show picks ((conditionWeights _ m cur nf MutWeights.default).choices.map Prod.snd) = true
    unfold conditionWeights
    split
    · exact leaf_picks _
    · have := inner_picks (!hasBinaryOp m.expr.nodes) (nf ≤ 1) (cur ≤ m.complexity)
        false (!true || (lit64 (14 / 100)).feq (.fin 0) || m.expr.consts.isEmpty) ⟨min (countConstants m.expr.nodes) 8, by omega⟩
      rw [hE.f64]
      exact this
  exp := hexp
  migration _ := ⟨0, by
    show Reaches GridDraw (poissonSample _ _ _ _ (E.R.mul (E.R.ofNat 27) (lit64 (36 / 100000)))) 0
    exact few hE _ (by decide +kernel)⟩
  hof _ := ⟨0, by
    show Reaches GridDraw (poissonSample _ _ _ _ (E.R.mul (E.R.ofNat 27) (lit64 (614 / 10000)))) 0
    exact few hE _ (by decide +kernel)⟩
where
  few (hE : RustEnv E) (frac : Fl ℚ) (h : (match binary64.mul (binary64.ofNat 27) frac with
      | .fin x => decide (0 ≤ x ∧ x < 30) | _ => false) = true) :
      Reaches GridDraw (poissonSample E.R E.libm E.ptrs E.fuel (E.R.mul (E.R.ofNat 27) frac)) 0 := by
    have h30 : binary64.ofNat 30 = .fin 30 := by decide +kernel
    have hfuel : 0 < E.fuel := lt_of_lt_of_le (by positivity) hE.fuel
    rw [hE.f64]
    cases e : binary64.mul (binary64.ofNat 27) frac with
    | fin x =>
      rw [e] at h
      simp only [decide_eq_true_eq] at h
      rw [← hE.f64]
      refine C82_migration_drawn (by rw [hE.f64]; exact binary64_lawful) ?_ ?_ hfuel ⟨0, by decide, by simp⟩
      · rw [hE.f64, h30]; simp [Fl.lt, h.2]
      · obtain ⟨y, hy, hy2⟩ := hE.exp (-x) (by linarith) (by linarith)
        show (Fl.fin 0).le (E.libm.exp (.fin (-x))) = true
        rw [hy]
        have : (0 : ℚ) < pow2 (-44) := pow2_pos _
        simp only [Fl.le, decide_eq_true_eq]
        linarith
    | nan => rw [e] at h; cases h
    | pinf => rw [e] at h; cases h
    | ninf => rw [e] at h; cases h

/-- C82: a search with the default options can find every expression the constraints allow: for any operators of the set, on
any data set, in every cycle (the size limit is 30 in all of them). -/
theorem C82_default_search (hE : RustEnv E) (hexp : ∀ x : Fl ℚ, (E.libm.exp x).lt (.fin 0) = false) (hD : E.D ≤ 65505)
    (sqrt : Fl ℚ → Fl ℚ) (finiteMax : Nat) {ops : List OpId}
    (hknown : ∀ op ∈ ops, 1 ≤ op.arity ∧ op.arity ≤ E.D ∧ E.ops.known op.arity op.id = true)
    {d : Dataset ℚ} (hd : d.WF) (hrows : 0 < d.x.cols) (hf : 1 ≤ d.x.rows) (hf' : d.x.rows ≤ 65535)
    {o : SOptions ℚ} (ho : o = { SOptions.default E.D sqrt finiteMax with operators := Operators.of E.D ops })
    {t : Tree} {cs : List (Fl ℚ)} {l : Fl ℚ} {c : Nat} (T : Target GridDraw o d ops 30 t cs l c)
    (orderRng : Rng (Fl ℚ)) {n : Nat} (hn : n < 3100) :
    ∃ seeds : Nat → Rng (Fl ℚ), (∀ i, (seeds i).Within GridDraw) ∧ ∃ e e', Engine.new o d seeds orderRng = some e ∧
      e.step o d (n + 1) = some (n + 1, e') ∧
      ∀ m k e'', e'.step o d m = some (k, e'') →
        e''.shared.hall.AtMost c (lossToCost E.RT l c o.parsimony o.useBaseline d.baseline) := by
  obtain ⟨h1, h2⟩ := C75_default hD sqrt finiteMax (Operators.of E.D ops)
  subst ho
  have S : SensibleSearch _ d ops := ⟨hE, h1, h2, rfl, hknown, hd, hrows, hf, hf'⟩
  refine C82_search S.setting (C82_default_draws hE hexp sqrt finiteMax _) orderRng hn ?_ T
  unfold getCurMaxsize
  simp only
  rw [if_neg]
  · rfl
  · have : Fl.lt (.fin 0) (lit32 0) = false := by decide +kernel
    show ¬ ((Fl.lt (.fin 0) (lit32 0) && _) = true)
    rw [this]; simp

end
end SR

namespace SR.Demo
open Rand
local instance findRust : Env ℚ := rustEnv

/-- The default options with the operators of the demonstration. -/
def defaultOpts : SOptions ℚ := { SOptions.default 2 id 52 with operators := Operators.of 2 opIds }

/-- `x0 + x0` can be looked for under the default options. -/
theorem defaultTarget : Target GridDraw defaultOpts data opIds 30 findTree [] (.fin 0) 3 where
  few := by decide
  uses := by
    simp only [findTree, Tree.Uses, data, Tree.all_op, List.length_cons, List.length_nil]
    exact ⟨by decide, by simp⟩
  consts i hi := by simp [findTree] at hi
  size := by decide
  allowed := by
    obtain ⟨b, hb, hiff⟩ := C23_accepts_iff (CxOptions.default 2)
      ⟨by show 1 ≤ 65535; decide, by show 1 ≤ 65535; decide, (fun _ h => by cases h), (fun _ h => by cases h), (fun _ h => by cases h), (fun _ h => by cases h)⟩
      30 (by decide) findTree (by simp [findTree, Tree.Proper])
      (by simp [findTree, Tree.ArityLe, CxOptions.default])
    apply hiff.mp
    have h : checkConstraints (CxOptions.default 2) 30 findTree.toPostfix = some true := by decide
    rw [h] at hb
    simpa using hb.symm
  loss := by
    have hc : Computable data findTree [] := by
      refine ⟨?_, by simp [ConstRootFinite, findTree]⟩
      intro o ts hm r hr
      simp only [findTree, Tree.subtrees_op, List.mem_append, List.mem_flatten, List.mem_map, List.mem_cons, List.not_mem_nil,
        or_false] at hm
      rcases hm with ⟨_, ⟨t, rfl | rfl, rfl⟩, hm⟩ | hm
      · simp at hm
      · simp at hm
      · cases hm
        have : r = 0 ∨ r = 1 := by have : r < 2 := hr; omega
        rcases this with rfl | rfl <;> decide +kernel
    unfold exprLoss
    rw [if_pos hc]
    decide +kernel
  complexity := by decide
  counted := by decide
  cost := by decide +kernel

/-- C82 (the hypotheses are met): some seeds make a search with the default options find, in its hundredth cycle at the latest, an
expression of complexity 3 that fits the data exactly. -/
example (orderRng : Rng (Fl ℚ)) : ∃ seeds : Nat → Rng (Fl ℚ), ∃ e e', Engine.new defaultOpts data seeds orderRng = some e ∧
    e.step defaultOpts data 100 = some (100, e') ∧ e'.shared.hall.AtMost 3 (.fin 0) := by
  obtain ⟨seeds, -, e, e', h1, h2, h3⟩ := C82_default_search (E := rustEnv) rustEnv_ok (fun _ => rfl) (by decide) id 52 (ops := opIds) (by decide)
    data_wf (by decide) (by decide) (by decide) (o := defaultOpts) rfl defaultTarget orderRng (n := 99) (by decide)
  refine ⟨seeds, e, e', h1, h2, ?_⟩
  have hv : (lossToCost rustEnv.RT (.fin 0 : Fl ℚ) 3 defaultOpts.parsimony defaultOpts.useBaseline data.baseline) = .fin 0 := by
    decide +kernel
  rw [← hv]
  exact h3 0 0 e' rfl

end SR.Demo
