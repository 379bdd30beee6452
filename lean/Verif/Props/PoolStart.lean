import Verif.Props.Pool
import Verif.Props.Best
/-
C63: the start of a search on a thread pool, and a single-threaded pool.
-/
namespace SR
section
variable {K : Type} [Field K] [LinearOrder K] [IsStrictOrderedRing K] [E : Env K]
variable {o : SOptions K} {d : Dataset K} {ops : List OpId} {N : Nat}

/-- C63: how a search starts on a pool of `threads` threads: called by one of them it panics with its own message if
there is no other; otherwise it starts, with at least one and at most as many workers as populations and as threads
(less its own, if it is called by one of them). -/
theorem C63_start (Q : SearchSetting o d ops N) (seeds : Nat → Rng (Fl K)) (orderRng : Rng (Fl K)) (threads : Nat)
    (inPool : Bool) (ht : 1 ≤ threads) :
    (inPool = true → threads = 1 → Pool.new o d seeds orderRng threads inPool = none) ∧
    ((inPool = true → 2 ≤ threads) → ∃ nw p, Pool.new o d seeds orderRng threads inPool = some (nw, p) ∧
      p.Fresh o o.populations ∧ 1 ≤ nw ∧ nw ≤ o.populations ∧ nw ≤ threads ∧ (inPool = true → nw < threads)) := by
  obtain ⟨s, e, -, hf, -⟩ := init_total Q.evol Q.init Q.costs Q.populations Q.populationSize seeds
  have hp := Q.populations
  constructor
  · rintro rfl rfl
    rw [Pool.new, e]; rfl
  · intro h
    have hl := hf.pops
    refine ⟨max (min (if inPool then threads - 1 else threads) o.populations) 1,
      ⟨s, orderRng, .idle, 0, [], 0, 0, [], [], []⟩, ?_, ⟨⟨hf, rfl, rfl, rfl, rfl⟩, rfl, rfl, rfl⟩, by omega, ?_, ?_, ?_⟩
    · rw [Pool.new, e]
      simp only [Option.bind_eq_bind, Option.bind_some, hl, nWorkers]
      cases inPool
      · simp only [Bool.false_eq_true, if_false, if_pos (show 0 < threads by omega), Option.bind_some]
      · have := h rfl
        simp only [if_true, if_pos (show 0 < threads - 1 by omega), Option.bind_some]
    · omega
    · cases inPool
      · simp only [Bool.false_eq_true, if_false]; omega
      · simp only [if_true]; omega
    · rintro rfl
      have := h rfl
      simp only [if_true]; omega

/-- C63 (defect): on a machine where the pool has a single thread, a search called from outside the pool passes the check
of the number of threads, starts, and never returns. -/
theorem C63_single_core (Q : SearchSetting o d ops N) (hn : 1 ≤ o.niterations) (seeds : Nat → Rng (Fl K))
    (orderRng : Rng (Fl K)) :
    ∃ p, Pool.new o d seeds orderRng 1 false = some (1, p) ∧ ∀ tr q, PoolRun o d 1 1 p tr q →
      ¬ q.Final o ∧ tr.length ≤ 3 ∧ (q.Stuck o d 1 1 → q.Waits 1 ∨ q.Crash o 1) := by
  obtain ⟨nw, p, e, hf, h1, -, h2, -⟩ := (C63_start Q seeds orderRng 1 false (Nat.le_refl 1)).2 (by simp)
  obtain rfl : nw = 1 := by omega
  refine ⟨p, e, fun tr q hr => ?_⟩
  obtain ⟨a, b, -, c⟩ := C63_one_thread_hangs (Nat.le_refl 1) (Nat.le_refl 1) hn Q.populations hf hr
  exact ⟨a, b, c⟩
end

open Demo
local instance instPool : Env ℚ := env

/-- C63 (the hypotheses are met): a search with one population and one iteration hangs on one thread ... -/
example : ∃ p, Pool.new (smallOpts 1) data gen (gen 77) 1 false = some (1, p) ∧
    ∀ tr q, PoolRun (smallOpts 1) data 1 1 p tr q → ¬ q.Final (smallOpts 1) := by
  obtain ⟨p, e, h⟩ := C63_single_core (smallSetting 1 (by decide) (by decide)) (Nat.le_refl 1) gen (gen 77)
  exact ⟨p, e, fun tr q hr => (h tr q hr).1⟩

/-- ... and returns on two. -/
example : ∃ p q tr, Pool.new (smallOpts 1) data gen (gen 77) 2 false = some (1, p) ∧
    PoolRun (smallOpts 1) data 2 1 p tr q ∧ q.Final (smallOpts 1) ∧ q.shared.finished = true := by
  have h : ((Shared.init (smallOpts 1) data gen).bind fun s => (s.dispatch (smallOpts 1) 0).bind fun r => r.1.bind fun t =>
      (t.run (smallOpts 1) data).bind fun res => (r.2.apply (smallOpts 1) res).map fun s' =>
        (s.pops.length, s'.finished)) = some (1, true) := by decide +kernel
  simp only [Option.bind_eq_some_iff, Option.map_eq_some_iff, Prod.mk.injEq] at h
  obtain ⟨s, h1, ⟨ot, s1⟩, h2, t, h3, res, h4, s2, h5, hl, hfin⟩ := h
  simp only at h3 h5
  subst h3
  have hsh : ∃ rng, shuffle (List.range s.pops.length) (gen 77) = some ([0], rng) := by rw [hl]; exact ⟨_, rfl⟩
  obtain ⟨rng, hsh⟩ := hsh
  let p : Pool ℚ := ⟨s, gen 77, .idle, 0, [], 0, 0, [], [], []⟩
  let p1 : Pool ℚ := ⟨s, rng, .outer, 1, [0], 0, 0, [], [], []⟩
  let p2 : Pool ℚ := ⟨s, rng, .inner, 1, [0], 0, 0, [], [], []⟩
  let p3 : Pool ℚ := ⟨s1, rng, .inner, 1, [0], 1, 1, [t], [], []⟩
  let p4 : Pool ℚ := ⟨s1, rng, .inner, 1, [0], 1, 1, [], [t], []⟩
  let p5 : Pool ℚ := ⟨s1, rng, .inner, 1, [0], 1, 1, [], [], [res]⟩
  let p6 : Pool ℚ := ⟨s2, rng, .outer, 1, [0], 1, 0, [], [], []⟩
  let p7 : Pool ℚ := ⟨s2, rng, .idle, 1, [0], 1, 0, [], [], []⟩
  have t1 : PoolStep (smallOpts 1) data 2 1 p (.driver .start) p1 := PoolStep.start (p := p) rfl Nat.zero_lt_one hsh
  have t2 : PoolStep (smallOpts 1) data 2 1 p1 (.driver .other) p2 := PoolStep.enter (p := p1) rfl (.inl Nat.zero_lt_one)
  have t3 : PoolStep (smallOpts 1) data 2 1 p2 (.driver (.dispatch 0)) p3 :=
    PoolStep.dispatch (p := p2) (i := 0) rfl Nat.zero_lt_one rfl h2
  have t4 : PoolStep (smallOpts 1) data 2 1 p3 (.take t.popIdx) p4 :=
    PoolStep.take (p := p3) (l := []) (r := []) rfl (by show 0 + 1 < 2; decide)
  have t5 : PoolStep (smallOpts 1) data 2 1 p4 (.finish t.popIdx) p5 :=
    PoolStep.finish (p := p4) (l := []) (r := []) rfl h4
  have t6 : PoolStep (smallOpts 1) data 2 1 p5 (.driver (.receive res.popIdx)) p6 :=
    PoolStep.receive (p := p5) rfl (fun h => Nat.lt_irrefl 1 h.1) rfl h5
  have t7 : PoolStep (smallOpts 1) data 2 1 p6 (.driver .other) p7 :=
    PoolStep.leave (p := p6) rfl (by show ¬ (1 < 1 ∨ 0 < 0); decide)
  refine ⟨p, p7, _, ?_, .snoc (.snoc (.snoc (.snoc (.snoc (.snoc (.snoc (.refl p) t1) t2) t3) t4) t5) t6) t7,
    ⟨rfl, Nat.le_refl 1⟩, hfin⟩
  rw [Pool.new, h1]
  simp only [Option.bind_eq_bind, Option.bind_some, hl]
  rfl

end SR
