import Verif.Props.Metrics
import Verif.Spec.Web
import Verif.Props.Identity
/-
C61: evaluating an equation shown by the web interface.
-/
namespace SR
section
variable {K : Type} [Field K] [LinearOrder K] [E : Env K]
variable {o : SOptions K} {d : Dataset K} {ops : List OpId} {N : Nat}

/-- The tree can be evaluated on a data set with any number of rows. -/
theorem evalMember_spec {d' : Dataset K} {m : Member K} {t : Tree} (hn : m.expr.nodes = t.toPostfix)
    (hwf : t.WF E.ops E.D d'.x.rows m.expr.consts.length) (hlim : InLimits d'.x.rows m.expr.consts.length t)
    (hrows : 0 < d'.x.cols) (hp : PlanOf d' m.expr m.plan) :
    (Computable d' t m.expr.consts → evalMember d' m = some (some (predictions d' t m.expr.consts))) ∧
    (¬ Computable d' t m.expr.consts → evalMember d' m = some none) := by
  obtain ⟨p, hp', -, key⟩ := evalPlanArrayInto_correct E.ops E.hash d'.x m.expr.consts webEvalOpts hwf hlim.1 hlim.2.1
    hlim.2.2
  rw [← hn] at hp'
  unfold PlanOf at hp
  rw [hp'] at hp
  cases hp
  obtain ⟨out, scratch, h1, -, -, -, h3⟩ := key (List.replicate d'.x.cols (.fin 0)) (Buf.zeros 0 0) (by simp)
    (by simp [Buf.WF, Buf.zeros])
  have hflag : flagSpec E.ops d'.x m.expr.consts webEvalOpts t = true ↔ Computable d' t m.expr.consts :=
    strictFlag_iff hrows
  have hout : out = predictions d' t m.expr.consts := by rw [h3]; rfl
  unfold evalMember
  rw [h1]
  simp only [Option.bind_eq_bind, Option.bind_some]
  constructor
  · intro hc; rw [if_pos (hflag.mpr hc), hout]
  · intro hc; rw [if_neg fun h => hc (hflag.mp h)]

/-- C61: in a sound search state, evaluating a member found by its identifier on the training or validation data never
panics, and gives the answer for the expression of that member. -/
theorem evaluate_found (Q : SearchSetting o d ops N) {s : Shared K} {d' : Dataset K} (hd : SameFeatures d d') {id : Nat}
    {m : Member K} (hf : findMember s id = some m) (hm : m.Sound o d ops N) :
    ∃ a t, evaluateMember s d' id = some a ∧ m.expr.nodes = t.toPostfix ∧ Answer d' t m.expr.consts a := by
  obtain ⟨t, hn, hu, hs, hc⟩ := hm.good.expr
  have hS := Q.evol.exprSetting hn hu hs hc
  have hp : PlanOf d' m.expr m.plan := by
    have := hm.good.plan
    unfold PlanOf at this ⊢
    rw [hd.rows]; exact this
  obtain ⟨h1, h2⟩ := evalMember_spec (d' := d') hn (by rw [hd.rows]; exact hS.wf) (by rw [hd.rows]; exact hS.lim)
    hd.nonempty hp
  unfold evaluateMember Answer
  rw [hf]
  simp only
  by_cases hcomp : Computable d' t m.expr.consts
  · rw [h1 hcomp]
    obtain ⟨mm, hmm⟩ := Option.isSome_iff_exists.mp ((C62_total E.RT E.lossLib.sqrt (predictions d' t m.expr.consts) d'.y
      d'.weights).mpr ⟨by rw [predictions_length]; exact hd.wf.1.symm, fun v hv => by rw [hd.wf.2 v hv, hd.wf.1]⟩)
    refine ⟨some (mm, predictions d' t m.expr.consts), t, ?_, hn, ?_⟩
    · simp only [Option.bind_eq_bind, Option.bind_some, hmm]
    · rw [if_pos hcomp]; exact ⟨mm, hmm, rfl⟩
  · rw [h2 hcomp]
    exact ⟨none, t, rfl, hn, by rw [if_neg hcomp]⟩

theorem findMember_mem {s : Shared K} {id : Nat} {m : Member K} (h : findMember s id = some m) :
    m.id = id ∧ (m ∈ s.hall.members ∨ m = s.best) := by
  unfold findMember at h
  split at h
  · next m' hx =>
    cases h
    exact ⟨by simpa using List.find?_some hx, .inl (List.mem_of_find?_eq_some hx)⟩
  · split at h
    · cases h; next hb => exact ⟨hb, .inr rfl⟩
    · cases h

theorem findMember_shown {s : Shared K} {m : Member K} (h : s.Shows m) : ∃ m', findMember s m.id = some m' := by
  unfold findMember
  cases hx : s.hall.members.find? (fun x => x.id == m.id) with
  | some m' => exact ⟨m', rfl⟩
  | none =>
    rcases h with h | rfl
    · have hm : m ∈ s.hall.members := by
        exact (paretoLoop_sub _ _).subset h
      have := List.find?_eq_none.mp hx m hm
      simp at this
    · exact ⟨s.best, by simp⟩

/-- C61: in a sound search state a shown equation is always found under its identifier; its evaluation on the training
data or on the validation data does not panic; and if no other equation the search holds has the same identifier, it
gives exactly the predictions of the shown equation and their metrics (nothing if a value is not finite). -/
theorem evaluate_shown (Q : SearchSetting o d ops N) {s : Shared K} (hs : s.Sound o d ops N) {d' : Dataset K}
    (hd : SameFeatures d d') {m : Member K} (hm : s.Shows m) :
    ∃ a m' t, evaluateMember s d' m.id = some a ∧ m'.id = m.id ∧ (m' ∈ s.hall.members ∨ m' = s.best) ∧
      m'.expr.nodes = t.toPostfix ∧ Answer d' t m'.expr.consts a := by
  obtain ⟨m', hf⟩ := findMember_shown hm
  obtain ⟨h1, h2⟩ := findMember_mem hf
  have hsound : m'.Sound o d ops N := by
    rcases h2 with h | rfl
    · obtain ⟨c, hc⟩ := mem_members.mp h
      exact (hs.hall.entry c _ hc).1
    · exact hs.best
  obtain ⟨a, t, h3, h4, h5⟩ := evaluate_found Q hd hf hsound
  exact ⟨a, m', t, h3, h1, h2, h4, h5⟩

variable [IsStrictOrderedRing K]

/-- C61: during a step-wise search (as the web interface runs it) every shown equation can be evaluated by its
identifier, on the training or the validation data, without a panic; the answer is that of the shown equation, provided
that the search holds no other expression under the same identifier. -/
theorem C61_evaluate (Q : SearchSetting o d ops N) {seeds : Nat → Rng (Fl K)} {orderRng : Rng (Fl K)} {n k : Nat}
    {e e' : Engine K} (hnew : Engine.new o d seeds orderRng = some e) (hrun : e.step o d n = some (k, e'))
    {d' : Dataset K} (hd : SameFeatures d d') {m : Member K} (hm : e'.shared.Shows m) :
    ∃ a, evaluateMember e'.shared d' m.id = some a ∧
      ((∀ x, x ∈ e'.shared.hall.members ∨ x = e'.shared.best → x.id = m.id → x.expr = m.expr) →
        ∃ t : Tree, m.expr.nodes = t.toPostfix ∧ Answer d' t m.expr.consts a) := by
  have hs := C59_stepwise Q hnew hrun
  obtain ⟨a, m', t, h1, h2, h3, h4, h5⟩ := evaluate_shown Q hs hd hm
  refine ⟨a, h1, fun huniq => ?_⟩
  have := huniq m' h3 h2
  rw [this] at h4 h5
  exact ⟨t, h4, h5⟩

omit [IsStrictOrderedRing K] in
/-- C61: an identifier that no held member has is reported as unknown. -/
theorem C61_unknown (s : Shared K) (d' : Dataset K) (id : Nat)
    (h : ∀ x, x ∈ s.hall.members ∨ x = s.best → x.id ≠ id) : evaluateMember s d' id = some none := by
  have : findMember s id = none := by
    cases hx : findMember s id with
    | none => rfl
    | some m =>
      obtain ⟨h1, h2⟩ := findMember_mem hx
      exact absurd h1 (h m h2)
  unfold evaluateMember
  rw [this]

end
end SR

/-! ### The exception -/

namespace SR.Demo
open SR

/-- The operators of the small environment in `f64`. -/
def ops64 : OpSet (Fl ℚ) :=
  { ops with
    eval
      | 1, 0, [x] => x.neg
      | 2, 0, [x, y] => binary64.add x y
      | 2, 1, [x, y] => binary64.mul x y
      | 2, 2, [x, y] => binary64.sub x y
      | _, _, _ => .nan }

/-- The small environment in `f64`. -/
@[reducible] def env64 : Env ℚ :=
  { env with
    RT := binary64
    R := binary64
    ops := ops64
    arith := ⟨.fin 0, .fin 1, binary64.rnd (11 / 10), binary64.add, binary64.mul, binary64.div, Fl.neg, Fl.max,
      fun x _ => x, fun a b => b.lt a⟩ }

/-- A better stirred family of random streams. -/
def mix (a b : Nat) : Nat := ((a * 2654435761 + b * 40503 + 12345) ^ 2 / 65536) % 4294967296
def gen64 (k : Nat) : Rng (Fl ℚ) :=
  ⟨fun i => mix k (mix i 7), fun i => binary64.rnd ((mix k (mix i 9) % 1000 : Nat) / 1000)⟩

/-- One population, one iteration, operators `+` and `-`. -/
def opts64 : SOptions ℚ :=
  { smallOpts 1 with maxsize := 7, ncyclesPerIteration := 4, operators := ⟨2, [[], [⟨2, 0⟩, ⟨2, 2⟩]]⟩ }

end SR.Demo

namespace SR
open Demo
local instance instWebMember : Env ℚ := env64

/-- The predictions of a member and those returned for its identifier. -/
def bothAnswers (s : Shared ℚ) (m : Member ℚ) : Option (List (Fl ℚ)) × Option (List (Fl ℚ)) :=
  ((evalMember data m).bind id, ((evaluateMember s data m.id).bind id).map Prod.snd)

/-- Whether both are there (0: no) and agree (1) or not (2). -/
def verdict (s : Shared ℚ) (m : Member ℚ) : Nat :=
  match bothAnswers s m with
  | (some a, some b) => if a = b then 1 else 2
  | _ => 0

/-- C61 (exception): an identifier does not determine an equation.  In `f64`, with the default of skipping failed
mutations, there is a search that shows a point of its front whose evaluation by identifier returns the predictions of
another point of the front: a member of complexity 7 entered the hall of fame, was then simplified to complexity 3
keeping its identifier, and rounding made the loss of the simpler expression larger, so that both are on the front. -/
theorem C61_wrong_equation :
    ∃ e e' m, Engine.new opts64 data (fun i => gen64 (234 + i)) (gen64 77) = some e ∧
      e.step opts64 data 1 = some (1, e') ∧ e'.shared.Shows m ∧
      ∃ own shown, bothAnswers e'.shared m = (some own, some shown) ∧ own ≠ shown := by
  have h : ((Engine.new opts64 data (fun i => gen64 (234 + i)) (gen64 77)).bind fun e =>
      (e.step opts64 data 1).map fun r => (r.1, r.2.shared.hall.paretoFront.map fun m => (m.complexity,
        verdict r.2.shared m))) = some (1, [(1, 1), (3, 1), (7, 2)]) := by decide +kernel
  rw [Option.bind_eq_some_iff] at h
  obtain ⟨e, h1, h⟩ := h
  rw [Option.map_eq_some_iff] at h
  obtain ⟨⟨k, e'⟩, h2, h⟩ := h
  simp only [Prod.mk.injEq] at h
  obtain ⟨rfl, h3⟩ := h
  have a : (7, 2) ∈ e'.shared.hall.paretoFront.map fun m => (m.complexity, verdict e'.shared m) := by rw [h3]; simp
  obtain ⟨m, hm, hm'⟩ := List.mem_map.mp a
  simp only [Prod.mk.injEq] at hm'
  have hv := hm'.2
  unfold verdict at hv
  split at hv
  · next own shown hb =>
    split at hv
    · cases hv
    · next hne => exact ⟨e, e', m, h1, h2, .inl hm, own, shown, hb, hne⟩
  · cases hv

end SR

namespace SR
open Demo
local instance instWebMember' : Env ℚ := env

/-- The hypotheses of `C61_evaluate` are met: a whole search after which every shown equation has its own identifier,
and a validation set with the same features. -/
example : SearchSetting (smallOpts 1) data opIds 3 ∧
    SameFeatures data { data with x := ⟨1, 3, fun _ r => .fin r⟩, y := [.fin 0, .fin 1, .fin 5] } ∧
    ((Engine.new (smallOpts 1) data (fun i => gen (6 + i)) (gen 77)).bind fun e => (e.step (smallOpts 1) data 1).map fun r =>
      (r.1, r.2.shared.hall.members.map (·.id), r.2.shared.best.id)) = some (1, [9, 8, 0], 0) := by
  refine ⟨smallSetting 1 (by omega) (by omega), ⟨rfl, ⟨rfl, by simp [data]⟩, by decide⟩, ?_⟩
  decide +kernel

end SR
