import Verif.Props.Best
/-
C49: a whole multi-worker search that hangs.
-/
namespace SR.Demo
open SR

/-- Options under which only operators are mutated. -/
def operatorsOnly : SOptions ℚ :=
  { smallOpts 1 with
    weights := ⟨.fin 0, .fin 1, .fin 0, .fin 0, .fin 0, .fin 0, .fin 0, .fin 0, .fin 0, .fin 0, .fin 0, .fin 0⟩
    crossoverProbability := .fin 0, maxsize := 1 }

end SR.Demo

namespace SR
open Demo
local instance instHang : Env ℚ := env

/-- C49 (the hypothesis is met): with options under which only operators are mutated (all other mutation weights zero),
one population and one worker, there is a search whose first task panics because a single-node member has no mutation
left; the driver then waits for ever. -/
theorem C49_example : ∃ p q tr, Par.new operatorsOnly data gen (gen 77) = some p ∧
    ParRun operatorsOnly data 1 p tr q ∧ q.Hangs operatorsOnly data 1 ∧ (∀ e r, ¬ ParStep operatorsOnly data 1 q e r) ∧
    ¬ q.Final operatorsOnly := by
  have h : ((Shared.init operatorsOnly data gen).bind fun s => (s.dispatch operatorsOnly 0).map fun r =>
      (s.pops.length, r.1.map fun t => (t.run operatorsOnly data).isNone)) = some (1, some true) := by decide +kernel
  rw [Option.bind_eq_some_iff] at h
  obtain ⟨s, h1, h⟩ := h
  rw [Option.map_eq_some_iff] at h
  obtain ⟨⟨ot, s'⟩, h2, h⟩ := h
  simp only [Prod.mk.injEq, Option.map_eq_some_iff, Option.isNone_iff_eq_none] at h
  obtain ⟨hl, t, rfl, ht⟩ := h
  have hsh : ∃ rng, shuffle (List.range s.pops.length) (gen 77) = some ([0], rng) := by rw [hl]; exact ⟨_, rfl⟩
  obtain ⟨rng, hsh⟩ := hsh
  let p : Par ℚ := ⟨s, gen 77, .idle, 0, [], 0, 0, []⟩
  let p1 : Par ℚ := ⟨s, rng, .outer, 1, [0], 0, 0, []⟩
  let p2 : Par ℚ := ⟨s, rng, .inner, 1, [0], 0, 0, []⟩
  let p3 : Par ℚ := ⟨s', rng, .inner, 1, [0], 1, 1, [t]⟩
  have s1 : ParStep operatorsOnly data 1 p .start p1 := ParStep.start (p := p) rfl Nat.zero_lt_one hsh
  have s2 : ParStep operatorsOnly data 1 p1 .other p2 := ParStep.enter (p := p1) rfl (.inl Nat.zero_lt_one)
  have s3 : ParStep operatorsOnly data 1 p2 (.dispatch 0) p3 :=
    ParStep.dispatch (p := p2) (i := 0) rfl Nat.zero_lt_one rfl h2
  have hang : p3.Hangs operatorsOnly data 1 :=
    ⟨rfl, fun h => Nat.lt_irrefl 1 h.1, List.cons_ne_nil _ _, fun x hx => by rw [List.mem_singleton.mp hx]; exact ht⟩
  refine ⟨p, p3, _, by rw [Par.new, h1]; rfl, .snoc (.snoc (.snoc (.refl p) s1) s2) s3, hang, ?_, by rintro ⟨h, -⟩; cases h⟩
  intro e r hs
  cases hs with
  | start h => cases h
  | enter h => cases h
  | leave h => cases h
  | dispatch _ h => exact Nat.lt_irrefl 1 h
  | skip _ h => exact Nat.lt_irrefl 1 h
  | @receive l r t' res s _ _ hp hrun _ =>
    have : t' ∈ p3.pending := by rw [hp]; simp
    rw [List.mem_singleton.mp this, ht] at hrun
    cases hrun

end SR
