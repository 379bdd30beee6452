import Verif.Spec.Identity
import Verif.Props.Best
/-
C50: identities of members.
-/
namespace SR
theorem nodup_set_fresh {l : List Nat} (h : l.Nodup) {v : Nat} (hv : v ∉ l) (i : Nat) : (l.set i v).Nodup := by
  induction l generalizing i with
  | nil => simp
  | cons a l ih =>
    rw [List.nodup_cons] at h
    rw [List.mem_cons, not_or] at hv
    cases i with
    | zero => exact List.nodup_cons.mpr ⟨hv.2, h.2⟩
    | succ i =>
      rw [List.set_cons_succ, List.nodup_cons]
      refine ⟨fun hm => ?_, ih h.2 hv.2 i⟩
      rcases List.mem_or_eq_of_mem_set hm with hm | hm
      · exact h.1 hm
      · exact hv.1 hm.symm

variable {K : Type} [Field K] [LinearOrder K] [E : Env K]
variable {o : SOptions K} {d : Dataset K} {cur : Nat} {ops : List OpId} {N base : Nat}

theorem IdsOk.set {pop : Population K} {c : Counters} (h : IdsOk o base pop c) {b : Member K} (hb : b.id = c.nextId)
    (i : Nat) (c' : Counters) (hc : c'.nextId = c.nextId + 1) : IdsOk o base (pop.set i b) c' := by
  refine ⟨fun m hm => ?_, by have := h.base_le; omega, fun hs => ?_⟩
  · rcases List.mem_or_eq_of_mem_set hm with hm | rfl
    · have := h.range m hm; omega
    · have := h.base_le; omega
  · rw [List.map_set, hb]
    refine nodup_set_fresh (h.nodup hs) (fun hm => ?_) i
    obtain ⟨m, hm, he⟩ := List.mem_map.mp hm
    have := (h.range m hm).2
    omega

theorem IdsOk.mono {pop : Population K} {c c' : Counters} (h : IdsOk o base pop c) (hc : c.nextId ≤ c'.nextId) :
    IdsOk o base pop c' :=
  ⟨fun m hm => by have := h.range m hm; omega, by have := h.base_le; omega, h.nodup⟩

theorem EvolMove.ids {st st' : EvolState K} (h : EvolMove o d cur ops N st st') (hi : IdsOk o base st.pop st.counters) :
    IdsOk o base st'.pop st'.counters ∧ st.counters.nextId ≤ st'.counters.nextId := by
  cases h with
  | mutFail m r hm hr h1 h2 =>
    have := hr.counters.1
    exact ⟨hi.mono (by show _ ≤ r.counters.nextId; omega), by show _ ≤ r.counters.nextId; omega⟩
  | mutate m r i old hm hr h1 h2 h3 =>
    have := hr.counters.1
    exact ⟨hi.set hr.born.1 i _ hr.counters.1, by show _ ≤ r.counters.nextId; omega⟩
  | crossFail m1 m2 r hm1 hm2 hr h1 h2 =>
    have := (hr.rejected h1).2.2.1
    exact ⟨by show IdsOk o base st.pop r.counters; rw [this]; exact hi, by show _ ≤ r.counters.nextId; rw [this]⟩
  | cross m1 m2 r i1 i2 old1 old2 hm1 hm2 hr h1 h2 h3 h4 h5 h6 =>
    cases ha : r.accepted with
    | true =>
      have hc := (hr.counters ha).1
      have a := hi.set (hr.born1 ha).1 i1 ⟨st.counters.nextId + 1, 0⟩ rfl
      have b := a.set (b := r.baby2) (by rw [(hr.born2 ha).1]) i2 r.counters (by rw [hc])
      exact ⟨b, by show _ ≤ r.counters.nextId; omega⟩
    | false =>
      obtain ⟨e1, e2, e3, -⟩ := hr.rejected ha
      have hskip : o.skipMutationFailures = false := by
        rcases h1 with h | h
        · rw [ha] at h; cases h
        · exact h
      refine ⟨⟨fun m hm => ?_, by show base ≤ r.counters.nextId; rw [e3]; exact hi.base_le, by rw [hskip]; intro h; cases h⟩,
        by show _ ≤ r.counters.nextId; rw [e3]⟩
      show base ≤ m.id ∧ m.id < r.counters.nextId
      rw [e3]
      rcases List.mem_or_eq_of_mem_set hm with hm | rfl
      · rcases List.mem_or_eq_of_mem_set hm with hm | rfl
        · exact hi.range m hm
        · rw [e1]; exact hi.range m1 hm1
      · rw [e2]; exact hi.range m2 hm2

theorem EvolMoves.ids {n : Nat} {st st' : EvolState K} (h : EvolMoves o d cur ops N n st st')
    (hi : IdsOk o base st.pop st.counters) :
    IdsOk o base st'.pop st'.counters ∧ st.counters.nextId ≤ st'.counters.nextId := by
  induction h with
  | refl => exact ⟨hi, Nat.le_refl _⟩
  | step h _ ih =>
    obtain ⟨h1, h2⟩ := h.ids hi
    obtain ⟨h3, h4⟩ := ih h1
    exact ⟨h3, by omega⟩

/-- A task keeps identities in order. -/
theorem TaskDone.ids {t : Task K} {r : TaskResult K} (h : TaskDone o d ops N t r)
    (hi : IdsOk o base t.ps.pop t.ps.counters) :
    IdsOk o base r.ps.pop r.ps.counters ∧ t.ps.counters.nextId ≤ r.ps.counters.nextId := by
  obtain ⟨j, st, m1, m2, m3, -, -⟩ := h.evolved
  obtain ⟨h1, h2⟩ := m1.ids hi
  have hids : r.ps.pop.map (·.id) = st.pop.map (·.id) := by
    clear h1 h2 m1 m3
    generalize st.pop = a at m2
    generalize r.ps.pop = b at m2
    induction m2 with
    | nil => rfl
    | cons h _ ih => rw [List.map_cons, List.map_cons, h.identity.1, ih]
  simp only at h2
  refine ⟨⟨fun m hm => ?_, by rw [m3]; exact h1.base_le, fun hs => by rw [hids]; exact h1.nodup hs⟩, by rw [m3]; exact h2⟩
  have : m.id ∈ r.ps.pop.map (·.id) := List.mem_map_of_mem hm
  rw [hids] at this
  obtain ⟨m', hm', he⟩ := List.mem_map.mp this
  rw [m3, ← he]
  exact h1.range m' hm'

/-- So does a migration. -/
theorem migrate_ids {dst migrants : List (Member K)} (frac : Fl K) (c : Counters) (hi : IdsOk o base dst c) :
    Rand.Post (migrate dst migrants frac c) fun r => IdsOk o base r.1 r.2 ∧ c.nextId ≤ r.2.nextId := by
  refine (C30_migrate E.R _ dst migrants frac c).mono ?_
  rintro r ⟨hl, n, -, -, hid, -, slot, src, h1, h2⟩
  have hb := hi.base_le
  refine ⟨⟨fun m hmem => ?_, by omega, fun hs => ?_⟩, by omega⟩
  · obtain ⟨i, hx, he⟩ := List.mem_iff_getElem.mp hmem
    have hi' : r.1[i]? = some m := by rw [List.getElem?_eq_getElem hx, he]
    rcases h2 i with ⟨k, hk, -, -, h3⟩ | ⟨-, h3⟩
    · rw [hi', Option.some.injEq] at h3
      rw [h3]
      show base ≤ c.nextId + k ∧ c.nextId + k < r.2.nextId
      omega
    · rw [hi'] at h3
      have := hi.range m (List.mem_of_getElem? h3.symm)
      omega
  · have hn := hi.nodup hs
    rw [List.Nodup, List.pairwise_iff_getElem] at hn ⊢
    intro i j hi' hj' hij
    simp only [List.length_map] at hi' hj'
    rw [List.getElem_map, List.getElem_map]
    have gi : r.1[i]? = some r.1[i] := List.getElem?_eq_getElem hi'
    have gj : r.1[j]? = some r.1[j] := List.getElem?_eq_getElem hj'
    rcases h2 i with ⟨k, hk, s1, -, e1⟩ | ⟨-, e1⟩ <;> rcases h2 j with ⟨k', hk', s2, -, e2⟩ | ⟨-, e2⟩
    · rw [gi, Option.some.injEq] at e1
      rw [gj, Option.some.injEq] at e2
      rw [e1, e2]
      show c.nextId + k ≠ c.nextId + k'
      intro h
      have : k = k' := by omega
      subst this
      omega
    · rw [gi, Option.some.injEq] at e1
      rw [gj] at e2
      rw [e1]
      have := (hi.range _ (List.mem_of_getElem? e2.symm)).2
      show c.nextId + k ≠ _
      omega
    · rw [gj, Option.some.injEq] at e2
      rw [gi] at e1
      rw [e2]
      have := (hi.range _ (List.mem_of_getElem? e1.symm)).2
      show _ ≠ c.nextId + k'
      omega
    · rw [gi] at e1
      rw [gj] at e2
      obtain ⟨a1, b1⟩ := List.getElem?_eq_some_iff.mp e1.symm
      obtain ⟨a2, b2⟩ := List.getElem?_eq_some_iff.mp e2.symm
      have := hn i j (by simpa using a1) (by simpa using a2) hij
      rw [List.getElem_map, List.getElem_map, b1, b2] at this
      exact this

theorem migrations_ids {candidates front pop : List (Member K)} (c : Counters) (hi : IdsOk o base pop c) :
    Rand.Post (migrations o candidates front pop c) fun r => IdsOk o base r.1 r.2 ∧ c.nextId ≤ r.2.nextId := by
  unfold migrations
  have h2 : ∀ (p : Population K × Counters), (IdsOk o base p.1 p.2 ∧ c.nextId ≤ p.2.nextId) →
      Rand.Post (if o.hofMigration then migrate p.1 front o.fractionReplacedHof p.2 else pure (p.1, p.2))
        fun r => IdsOk o base r.1 r.2 ∧ c.nextId ≤ r.2.nextId := by
    rintro ⟨p1, c1⟩ ⟨hl, hs⟩
    simp only at hl hs ⊢
    split
    · exact (migrate_ids _ _ hl).mono fun r h => ⟨h.1, hs.trans h.2⟩
    · exact Rand.Post.pure ⟨hl, hs⟩
  simp only
  split
  · exact Rand.Post.bind (migrate_ids _ _ hi) fun p hp => h2 p hp
  · exact Rand.Post.bind (Rand.Post.pure (P := fun r => r = (pop, c)) rfl) fun p e => h2 p (by
      subst e; exact ⟨hi, Nat.le_refl _⟩)

section
variable [IsStrictOrderedRing K]

/-- Along a history all populations keep their identities in order. -/
theorem History.ids (Q : SearchSetting o d ops N) {s0 s : Shared K} {rs : List (TaskResult K)} {pend : List (Task K)}
    (h0 : s0.Sound o d ops N)
    (hi : ∀ (i : Nat) (ps : PopState K), s0.pops[i]? = some (some ps) → IdsOk o (idBase i) ps.pop ps.counters)
    (h : History o d s0 rs s pend) :
    (∀ (i : Nat) (ps : PopState K), s.pops[i]? = some (some ps) → IdsOk o (idBase i) ps.pop ps.counters) ∧
    (∀ t ∈ pend, IdsOk o (idBase t.popIdx) t.ps.pop t.ps.counters) ∧
    (∀ r ∈ rs, IdsOk o (idBase r.popIdx) r.ps.pop r.ps.counters) := by
  induction h with
  | init => exact ⟨hi, by simp, by simp⟩
  | dispatch h hd ih =>
    obtain ⟨i1, i2, i3⟩ := ih
    obtain ⟨h1, h2, -, -, rfl⟩ := dispatch_task hd
    refine ⟨fun i ps hps => ?_, fun t ht => ?_, i3⟩
    · rw [List.getElem?_set] at hps
      split at hps
      · split at hps <;> simp at hps
      · exact i1 i ps hps
    · rcases List.mem_append.mp ht with ht | ht
      · exact i2 t ht
      · rw [List.mem_singleton.mp ht, h2]
        exact i1 _ _ h1
  | @apply rs s s' l r t res h hrun ha ih =>
    obtain ⟨i1, i2, i3⟩ := ih
    obtain ⟨-, k2, -⟩ := h.sound Q h0
    have hres := (task_done Q (k2 t (by simp)) hrun).ids (i2 t (by simp))
    rw [← (run_popIdx hrun).1] at hres
    obtain ⟨-, -, -, -, -, -, -, pop, counters, rng, h3, h4⟩ := apply_result ha
    have hmig := migrations_ids res.ps.counters hres.1 _ _ _ h3
    refine ⟨fun i ps hps => ?_, fun x hx => i2 x ?_, fun x hx => ?_⟩
    · rw [h4, List.getElem?_set] at hps
      split at hps
      · split at hps
        · simp only [Option.some.injEq] at hps
          subst hps
          next he _ => rw [← he]; exact hmig.1
        · cases hps
      · exact i1 i ps hps
    · rcases List.mem_append.mp hx with hx | hx <;> simp [hx]
    · rcases List.mem_append.mp hx with hx | hx
      · exact i3 x hx
      · rw [List.mem_singleton.mp hx]; exact hres.1

theorem PopState.Initial.idsOk {i : Nat} {ps : PopState K} (h : ps.Initial o d ops N i) :
    IdsOk o (idBase i) ps.pop ps.counters := by
  refine ⟨fun m hm => ?_, by rw [h.nextId, idBase]; omega, fun _ => ?_⟩
  · have : m.id ∈ ps.pop.map (·.id) := List.mem_map_of_mem hm
    rw [h.ids] at this
    obtain ⟨x, hx, he⟩ := List.mem_map.mp this
    rw [List.mem_range] at hx
    rw [h.nextId, ← he, idBase]
    omega
  · rw [h.ids]
    exact List.Nodup.map (fun a b hab => by simpa using hab) List.nodup_range

theorem init_ids (Q : SearchSetting o d ops N) {seeds : Nat → Rng (Fl K)} {s : Shared K}
    (h : Shared.init o d seeds = some s) : s.Sound o d ops N ∧
    ∀ (i : Nat) (ps : PopState K), s.pops[i]? = some (some ps) → IdsOk o (idBase i) ps.pop ps.counters := by
  obtain ⟨s', h1, h2, -, h3, -⟩ := init_total Q.evol Q.init Q.costs Q.populations Q.populationSize seeds
  rw [h, Option.some.injEq] at h1
  subst h1
  exact ⟨h2, fun i ps hps => (h3 i ps hps).idsOk⟩

/-- C50: in every state the multi-worker driver reaches, under every schedule, the identifiers in population `i` start at
`i << 32`, are below its next identifier, and (unless skipping of failed mutations is switched off) are distinct; the
same holds inside every running task. -/
theorem C50_parallel (Q : SearchSetting o d ops N) {seeds : Nat → Rng (Fl K)} {orderRng : Rng (Fl K)} {nw : Nat}
    {p q : Par K} {tr : List ParEvent} (hnew : Par.new o d seeds orderRng = some p) (hrun : ParRun o d nw p tr q) :
    (∀ (i : Nat) (ps : PopState K), q.shared.pops[i]? = some (some ps) → IdsOk o (idBase i) ps.pop ps.counters) ∧
    ∀ t ∈ q.pending, IdsOk o (idBase t.popIdx) t.ps.pop t.ps.counters := by
  rw [Par.new, Option.map_eq_some_iff] at hnew
  obtain ⟨s, hi, rfl⟩ := hnew
  obtain ⟨rs, h1, -⟩ := hrun.history rfl
  obtain ⟨h2, h3⟩ := init_ids Q hi
  obtain ⟨a, b, -⟩ := h1.ids Q h2 h3
  exact ⟨a, b⟩

/-- C50: the same for the step-wise driver. -/
theorem C50_stepwise (Q : SearchSetting o d ops N) {seeds : Nat → Rng (Fl K)} {orderRng : Rng (Fl K)} {n k : Nat}
    {e e' : Engine K} (hnew : Engine.new o d seeds orderRng = some e) (hrun : e.step o d n = some (k, e')) :
    ∀ (i : Nat) (ps : PopState K), e'.shared.pops[i]? = some (some ps) → IdsOk o (idBase i) ps.pop ps.counters := by
  rw [Engine.new, Option.map_eq_some_iff] at hnew
  obtain ⟨s, hi, rfl⟩ := hnew
  obtain ⟨rs, -, h1⟩ := Engine.step_history .init hrun
  obtain ⟨h2, h3⟩ := init_ids Q hi
  exact (h1.ids Q h2 h3).1

omit [IsStrictOrderedRing K] in
/-- C50: as long as no population has used up its 2^32 identifiers (and there are at most 2^32 populations), members at
different places of the populations have different identifiers. -/
theorem C50_unique {pops : List (Option (PopState K))} (hskip : o.skipMutationFailures = true)
    (hn : pops.length ≤ 2 ^ 32)
    (hids : ∀ (i : Nat) (ps : PopState K), pops[i]? = some (some ps) → IdsOk o (idBase i) ps.pop ps.counters)
    (hroom : ∀ (i : Nat) (ps : PopState K), pops[i]? = some (some ps) → ps.counters.nextId ≤ idBase i + 2 ^ 32)
    {i j i' j' : Nat} {ps ps' : PopState K} {m m' : Member K} (h1 : pops[i]? = some (some ps))
    (h2 : ps.pop[j]? = some m) (h1' : pops[i']? = some (some ps')) (h2' : ps'.pop[j']? = some m')
    (hne : (i, j) ≠ (i', j')) : m.id ≠ m'.id := by
  intro he
  have a := (hids i ps h1).range m (List.mem_of_getElem? h2)
  have a' := (hids i' ps' h1').range m' (List.mem_of_getElem? h2')
  have b := hroom i ps h1
  have b' := hroom i' ps' h1'
  have hi : i < 2 ^ 32 := Nat.lt_of_lt_of_le (List.getElem?_eq_some_iff.mp h1).1 hn
  have hi' : i' < 2 ^ 32 := Nat.lt_of_lt_of_le (List.getElem?_eq_some_iff.mp h1').1 hn
  have e : idBase i = i * 2 ^ 32 := Nat.mod_eq_of_lt (by omega)
  have e' : idBase i' = i' * 2 ^ 32 := Nat.mod_eq_of_lt (by omega)
  have hii : i = i' := by omega
  subst hii
  rw [h1, Option.some.injEq, Option.some.injEq] at h1'
  subst h1'
  have hnd := (hids i ps h1).nodup hskip
  rw [List.Nodup, List.pairwise_iff_getElem] at hnd
  obtain ⟨x1, y1⟩ := List.getElem?_eq_some_iff.mp h2
  obtain ⟨x2, y2⟩ := List.getElem?_eq_some_iff.mp h2'
  have hj : j ≠ j' := fun h => hne (by rw [h])
  rcases Nat.lt_or_gt_of_ne hj with h | h
  · have := hnd j j' (by simpa using x1) (by simpa using x2) h
    rw [List.getElem_map, List.getElem_map, y1, y2] at this
    exact this he
  · have := hnd j' j (by simpa using x2) (by simpa using x1) h
    rw [List.getElem_map, List.getElem_map, y1, y2] at this
    exact this he.symm

end
end SR

/-! ### The exceptions -/

namespace SR
open Demo
local instance instIdentity : Env ℚ := env

/-- The small options with failed mutations not skipped and crossovers only. -/
def noSkipOpts : SOptions ℚ := { smallOpts 10 with skipMutationFailures := false, crossoverProbability := .fin 1 }

/-- C50 (exception): when failed mutations are not skipped, a failed crossover puts its parents in the place of the
oldest members: there is a search that ends with two members of the population sharing one identifier. -/
theorem C50_duplicates_without_skip :
    ∃ e e', Engine.new noSkipOpts data gen (gen 77) = some e ∧ e.step noSkipOpts data 1 = some (1, e') ∧
      ∃ ps, some ps ∈ e'.shared.pops ∧ ps.pop.map (·.id) = [1, 1] := by
  have h : ((Engine.new noSkipOpts data gen (gen 77)).bind fun e =>
      (e.step noSkipOpts data 1).map fun r => (r.1, r.2.shared.pops.map fun ps => ps.map fun ps => ps.pop.map (·.id))) =
      some (1, [some [1, 1]]) := by decide +kernel
  rw [Option.bind_eq_some_iff] at h
  obtain ⟨e, h1, h⟩ := h
  rw [Option.map_eq_some_iff] at h
  obtain ⟨⟨k, e'⟩, h2, h⟩ := h
  simp only [Prod.mk.injEq] at h
  obtain ⟨rfl, h3⟩ := h
  obtain ⟨x, hp, hx⟩ := List.map_eq_singleton_iff.mp h3
  rw [Option.map_eq_some_iff] at hx
  obtain ⟨ps, rfl, hx⟩ := hx
  exact ⟨e, e', h1, h2, ps, by rw [hp]; simp, hx⟩

/-- C50 (exception): an identifier does not determine an expression: there is a search (with the default of skipping
failed mutations) whose hall of fame contains two entries of different complexity with the same identifier, because
simplification keeps it. -/
theorem C50_hall_shares_ids :
    ∃ e e', Engine.new (smallOpts 1) data (fun i => gen (9 + i)) (gen 77) = some e ∧
      e.step (smallOpts 1) data 1 = some (1, e') ∧
      ∃ m m', m ∈ e'.shared.hall.members ∧ m' ∈ e'.shared.hall.members ∧ m.id = m'.id ∧ m.complexity ≠ m'.complexity := by
  have h : ((Engine.new (smallOpts 1) data (fun i => gen (9 + i)) (gen 77)).bind fun e =>
      (e.step (smallOpts 1) data 1).map fun r => (r.1, r.2.shared.hall.members.map fun m => (m.id, m.complexity))) =
      some (1, [(9, 1), (9, 2), (1, 3)]) := by decide +kernel
  rw [Option.bind_eq_some_iff] at h
  obtain ⟨e, h1, h⟩ := h
  rw [Option.map_eq_some_iff] at h
  obtain ⟨⟨k, e'⟩, h2, h⟩ := h
  simp only [Prod.mk.injEq] at h
  obtain ⟨rfl, h3⟩ := h
  have a : (9, 1) ∈ e'.shared.hall.members.map fun m => (m.id, m.complexity) := by rw [h3]; simp
  have b : (9, 2) ∈ e'.shared.hall.members.map fun m => (m.id, m.complexity) := by rw [h3]; simp
  obtain ⟨m, hm, hm'⟩ := List.mem_map.mp a
  obtain ⟨n, hn, hn'⟩ := List.mem_map.mp b
  simp only [Prod.mk.injEq] at hm' hn'
  exact ⟨e, e', h1, h2, m, n, hm, hn, hm'.1.trans hn'.1.symm, by rw [hm'.2, hn'.2]; decide⟩

/-- The hypotheses of `C50_stepwise` and `C50_unique` are met: a whole search with two populations and migration. -/
example : SearchSetting opts data opIds 7 ∧ opts.skipMutationFailures = true ∧
    ((Engine.new opts data gen (gen 77)).bind fun e => (e.step opts data 4).map fun r =>
      (r.1, r.2.shared.pops.map fun ps => ps.map fun ps => (ps.pop.map (·.id), ps.counters.nextId))) =
    some (4, [some ([12, 13], 14), some ([4294967308, 4294967309], 4294967310)]) := by
  refine ⟨searchSetting, rfl, ?_⟩
  decide +kernel

end SR
