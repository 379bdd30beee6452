import Verif.Model.WorkerSession
import Verif.Props.Worker
import Verif.Props.WebSession
import Verif.Props.Progress
import Verif.Props.Options
/-
C83 for the sessions of the web page: they are what the theorems about the worker assume.
-/
namespace SR
section
variable {K : Type} [Field K] [LinearOrder K] [IsStrictOrderedRing K] [Env K]
variable {S : OpTable} {ws : Char → Bool} {T : Texts K} {Rq : Type} {args : Rq → OpenArgs K}

/-- The searches that the requests lead to can be run: C75 and C64 say which ones. -/
def Runnable (S : OpTable) (ws : Char → Bool) (args : Rq → OpenArgs K) : Prop :=
  ∀ r s, Session.open S ws (args r).request (args r).splitRng (args r).seeds (args r).orderRng = some (some s) →
    s.opts.populations * s.opts.populationSize < 2 ^ 64 ∧
    (∃ ops N, s.Opened S ws (args r).request (args r).seeds (args r).orderRng ops ∧ RunSetting s.opts s.train ops N) ∧
    ∀ n, (s.engine.step s.opts s.train n).isSome = true

/-- The session was opened for one of the requests, and reached by calls. -/
def Reached (S : OpTable) (ws : Char → Bool) (T : Texts K) (args : Rq → OpenArgs K) (s : Session K) : Prop :=
  ∃ r s0 cs rs, Session.open S ws (args r).request (args r).splitRng (args r).seeds (args r).orderRng = some (some s0) ∧
    s0.calls T cs = some (s, rs)

omit [IsStrictOrderedRing K] in
theorem calls_snoc {s0 s s' : Session K} {cs : List WebCall} {rs : List (WebReply K)} {c : WebCall} {r : WebReply K}
    (h : s0.calls T cs = some (s, rs)) (h' : s.call T c = some (s', r)) :
    s0.calls T (cs ++ [c]) = some (s', rs ++ [r]) := by
  induction cs generalizing s0 rs with
  | nil =>
    cases h
    simp only [List.nil_append, Session.calls, h', Option.bind_eq_bind, Option.bind_some]
  | cons d cs ih =>
    simp only [Session.calls, Option.bind_eq_bind, Option.bind_eq_some_iff, Option.some.injEq, Prod.mk.injEq] at h
    obtain ⟨⟨s1, r1⟩, h1, ⟨s2, rs2⟩, h2, rfl, rfl⟩ := h
    simp only [List.cons_append, Session.calls, Option.bind_eq_bind, h1, Option.bind_some, ih h2]

theorem asked_snoc (cs : List WebCall) (n : Nat) : askedCycles (cs ++ [.step n]) = askedCycles cs + n := by
  induction cs with
  | nil => simp [askedCycles]
  | cons c cs ih => cases c <;> simp [askedCycles, ih] <;> omega

/-- After any calls, if the search can be run, every call returns. -/
theorem call_returns (hR : Runnable S ws args) {r : Rq} {s0 s : Session K} {cs : List WebCall} {rs : List (WebReply K)}
    (ho : Session.open S ws (args r).request (args r).splitRng (args r).seeds (args r).orderRng = some (some s0))
    (h : s0.calls T cs = some (s, rs)) (c : WebCall) : (s.call T c).isSome = true := by
  obtain ⟨-, ⟨ops, N, h0, Q⟩, hall⟩ := hR r s0 ho
  rcases C73_returns h0 Q h c with h1 | ⟨n, -, -, -, -, -, -, -, rfl, -⟩
  · exact h1
  · obtain ⟨a1, a2, a3, a4, -, -, k, e⟩ := C73_state h
    have hnames : s.names.length = s0.train.x.rows := by rw [a3]; exact h0.names_length
    have g := hall (askedCycles cs + n)
    rw [C45_compositional, e] at g
    simp only [Option.bind_some, Option.isSome_map] at g
    obtain ⟨⟨k2, e2⟩, h2⟩ := Option.isSome_iff_exists.mp g
    have h2' : s.engine.step s.opts s.train n = some (k2, e2) := by rw [a1, a2]; exact h2
    have hs2 : e2.shared.Sound s0.opts s0.train ops N := by
      refine C59_stepwise Q.search h0.engine (n := askedCycles cs + n) (k := k + k2) ?_
      rw [C45_compositional, e]
      simp only [Option.bind_some, h2, Option.map_some]
    obtain ⟨b, hb, -⟩ := summary_spec Q.search T s.names hnames hs2.best
    simp only [Session.call, Session.step, Session.snapshot, h2', Option.bind_eq_bind, Option.bind_some, hb, Option.map_some, Option.isSome_some]

theorem create_open {r : Rq} {s : Session K} (h : (sessionWasm S ws T args).create r = some s) :
    Session.open S ws (args r).request (args r).splitRng (args r).seeds (args r).orderRng = some (some s) := by
  have h : (Session.open S ws (args r).request (args r).splitRng (args r).seeds (args r).orderRng).join = some s := h
  rwa [Option.join_eq_some_iff] at h

/-- C83: for the sessions of the page: no method of a session that was opened for such a request panics, after whatever calls. -/
theorem C83_session (hR : Runnable S ws args) : (sessionWasm S ws T args).Safe (Reached S ws T args) where
  create := fun r s h => ⟨r, s, [], [], create_open h, rfl⟩
  paretoK := fun k s ⟨r, s0, cs, rs, ho, h⟩ =>
    ⟨r, s0, cs ++ [.setParetoK k], rs ++ [.done], ho, calls_snoc h rfl⟩
  step := fun n s ⟨r, s0, cs, rs, ho, h⟩ => by
    obtain ⟨x, hx⟩ := Option.isSome_iff_exists.mp (call_returns hR ho h (.step n))
    obtain ⟨⟨s', p⟩, h1, h2⟩ := Option.map_eq_some_iff.mp hx
    exact ⟨s', p, h1, r, s0, cs ++ [.step n], _, ho, calls_snoc h (by rw [hx, ← h2])⟩
  front := fun k s ⟨r, s0, cs, rs, ho, h⟩ => by
    obtain ⟨x, hx⟩ := Option.isSome_iff_exists.mp (call_returns hR ho h (.bestEquations k))
    obtain ⟨l, h1, h2⟩ := Option.map_eq_some_iff.mp hx
    exact ⟨l, h1⟩
  evaluate := fun id which s ⟨r, s0, cs, rs, ho, h⟩ => by
    obtain ⟨x, hx⟩ := Option.isSome_iff_exists.mp (call_returns hR ho h (.evaluate id which.text))
    obtain ⟨l, h1, h2⟩ := Option.map_eq_some_iff.mp hx
    have : (s.reply id which.text).isSome = true := by
      unfold Session.reply; rw [h1]; rfl
    exact Option.isSome_iff_exists.mp this

/-- The cycles a session has left. -/
def Session.left (s : Session K) : Nat := s.engine.shared.counters.total - s.engine.shared.counters.completed

/-- C83: a step of a session of `n` cycles does `n` cycles, or all that are left, and it is finished when none is left. -/
theorem C83_session_counts (hR : Runnable S ws args) :
    (sessionWasm S ws T args).Counts (Reached S ws T args) Session.left where
  finished := fun s => by
    show s.engine.shared.finished = true ↔ _
    unfold Shared.finished Session.left
    exact beq_iff_eq
  step := fun n s s' p ⟨r, s0, cs, rs, ho, h⟩ hs => by
    obtain ⟨-, ⟨ops, N, h0, Q⟩, -⟩ := hR r s0 ho
    have hs : s.step T n = some (s', p) := hs
    have hc : s.call T (.step n) = some (s', .snapshot p) := by simp only [Session.call, hs]; rfl
    obtain ⟨-, a1, a2⟩ := reached h0 Q.search h
    obtain ⟨-, b1, b2⟩ := reached h0 Q.search (calls_snoc h hc)
    have hask := asked_snoc cs n
    unfold Session.left
    rw [a1, a2, b1, b2, hask]
    omega

/-- What two successive snapshots of one search say: the same number of all cycles, no fewer completed ones and evaluations, and
a best equation which is the same or of strictly smaller loss. -/
structure Snapshot.Advances (p q : Snapshot K) : Prop where
  total : q.totalCycles = p.totalCycles
  cycles : p.cyclesCompleted ≤ q.cyclesCompleted
  evals : p.totalEvals ≤ q.totalEvals
  best : q.best = p.best ∨ q.best.loss.lt p.best.loss = true

omit [IsStrictOrderedRing K] in
theorem session_step {s s' : Session K} {n : Nat} {p : Snapshot K} (h : s.step T n = some (s', p)) :
    s'.opts = s.opts ∧ s'.train = s.train ∧ s'.names = s.names ∧ s'.snapshot T = some p ∧
      ∃ k, s.engine.step s.opts s.train n = some (k, s'.engine) := by
  unfold Session.step at h
  simp only [Option.bind_eq_bind, Option.bind_eq_some_iff, Option.some.injEq, Prod.mk.injEq] at h
  obtain ⟨⟨k, e⟩, h1, snap, h2, rfl, rfl⟩ := h
  exact ⟨rfl, rfl, rfl, h2, k, h1⟩

omit [IsStrictOrderedRing K] in
theorem later_progress {s s' : (sessionWasm S ws T args).Sess}
    (hlt : (Session.engine (K := K) s).shared.totalEvals < 2 ^ 64) (h : (sessionWasm S ws T args).Later s s') :
    (Session.engine (K := K) s).shared.Progress (Session.engine (K := K) s').shared ∧
      Session.names (K := K) s' = Session.names (K := K) s := by
  induction h with
  | refl => exact ⟨.refl hlt, rfl⟩
  | step h1 _ ih =>
    obtain ⟨-, -, a, -, k, e⟩ := session_step h1
    have hp := C46_stepwise _ hlt e
    obtain ⟨b, c⟩ := ih hp.evalsLt
    exact ⟨hp.trans b, by rw [c, a]⟩

omit [IsStrictOrderedRing K] in
theorem snapshot_advances {s s' : Session K} {p q : Snapshot K} (hp : s.snapshot T = some p) (hq : s'.snapshot T = some q)
    (h : s.engine.shared.Progress s'.engine.shared) (hn : s'.names = s.names) : p.Advances q := by
  unfold Session.snapshot at hp hq
  obtain ⟨b, hb, rfl⟩ := Option.map_eq_some_iff.mp hp
  obtain ⟨b', hb', rfl⟩ := Option.map_eq_some_iff.mp hq
  refine ⟨h.total, h.completed, h.evals, ?_⟩
  rcases h.best with e | e
  · left
    rw [e, hn, hb] at hb'
    exact (Option.some.inj hb').symm
  · right
    unfold summaryOf at hb hb'
    obtain ⟨_, -, rfl⟩ := Option.map_eq_some_iff.mp hb
    obtain ⟨_, -, rfl⟩ := Option.map_eq_some_iff.mp hb'
    exact e

/-- C83: the snapshots that the page receives between two `ready` messages: each says the same number of cycles in all, and as
time goes on the completed cycles and the evaluations do not go down, and the best equation changes only for one of strictly
smaller loss. -/
theorem C83_session_snapshots (hR : Runnable S ws args)
    {es : List (WEvent (sessionWasm S ws T args))} {w : Worker (sessionWasm S ws T args)}
    {a b c d : List (FromWorker (sessionWasm S ws T args))} {sp : Split} {p q : Snapshot K}
    (h : Worker.fresh.run es = some (w, a ++ .ready sp :: (b ++ .snapshot p :: (c ++ .snapshot q :: d))))
    (hb : ∀ m ∈ b, ¬ m.IsReady) (hc : ∀ m ∈ c, ¬ m.IsReady) : p.Advances q := by
  have hW : ∀ s s' p, (sessionWasm S ws T args).step 0 s = some (s', p) → (sessionWasm S ws T args).finished s = true →
      (sessionWasm S ws T args).finished s' = true := by
    intro s s' p h1 h2
    obtain ⟨-, -, -, -, k, e⟩ := session_step h1
    simp only [Engine.step, Option.some.injEq, Prod.mk.injEq] at e
    show s'.engine.shared.finished = true
    rw [← e.2]; exact h2
  obtain ⟨r, s, -, h1, -, h2⟩ := C83_snapshots hW h
  obtain ⟨s1, s1', h3, h4, h5⟩ := h2 b p _ rfl hb
  obtain ⟨s2, s2', h6, h7⟩ := h5 c q _ rfl hc
  have ho := create_open h1
  obtain ⟨hpop, ⟨ops, N, h0, Q⟩, -⟩ := hR r s ho
  have hlt : s.engine.shared.totalEvals < 2 ^ 64 := by
    obtain ⟨sh, hi, -, -, ht, -⟩ := C59_init Q.search (args r).seeds
    have he := h0.engine
    rw [Engine.new, hi] at he
    simp only [Option.map_some, Option.some.injEq] at he
    have : s.engine.shared.totalEvals = s.opts.populations * s.opts.populationSize := by rw [← he]; exact ht
    omega
  obtain ⟨p1, n1⟩ := later_progress (s := { s with paretoK := 10000 }) hlt h3
  obtain ⟨-, -, n2, e2, k2, st2⟩ := session_step h4
  have p2 := C46_stepwise _ p1.evalsLt st2
  obtain ⟨p3, n3⟩ := later_progress p2.evalsLt h6
  obtain ⟨-, -, n4, e4, k4, st4⟩ := session_step h7
  exact snapshot_advances e2 e4 (p3.trans (C46_stepwise _ p3.evalsLt st4)) (by rw [n4, n3])

end
end SR

/-! ### Sensible requests -/

namespace SR
section
variable [E : Env ℚ] {S : OpTable} {ws : Char → Bool} {Rq : Type} {args : Rq → OpenArgs ℚ}

/-- C83: the sessions opened with sensible options (C75: ranges that the defaults are in) on binary64 arithmetic, with draws as the
generator makes them, are such sessions. -/
theorem C83_sensible (hs : ∀ r i, UnitStream ((args r).seeds i))
    (h : ∀ r ops (s : Session ℚ), s.Opened S ws (args r).request (args r).seeds (args r).orderRng ops →
      SensibleSearch s.opts s.train ops ∧ s.opts.populations * s.opts.populationSize < 2 ^ 64) : Runnable S ws args := by
  intro r s ho
  obtain ⟨ops, h0⟩ := C73_opened _ _ _ _ _ _ _ ho
  obtain ⟨h1, h2⟩ := h r ops s h0
  refine ⟨h2, ⟨ops, _, h0, h1.setting⟩, fun n => ?_⟩
  obtain ⟨e, he, hn⟩ := C75_stepwise h1 (hs r) (args r).orderRng
  have := h0.engine
  rw [he] at this
  cases this
  exact hn n
end
end SR

/-! ### A concrete page -/

namespace SR
open Demo
local instance instWorkerSession : Env ℚ := webEnv

/-- The requests of the example: that of Props/WebSession.lean, with any random streams. -/
def Demo.webArgs : Rng (Fl ℚ) × (Nat → Rng (Fl ℚ)) × Rng (Fl ℚ) → OpenArgs ℚ := fun g => ⟨webRequest, g.1, g.2.1, g.2.2⟩

theorem Demo.web_opened {splitRng : Rng (Fl ℚ)} {seeds : Nat → Rng (Fl ℚ)} {orderRng : Rng (Fl ℚ)} {s : Session ℚ}
    (hs : Session.open webTable Char.isWhitespace webRequest splitRng seeds orderRng = some (some s)) :
    ∃ ops, s.Opened webTable Char.isWhitespace webRequest seeds orderRng ops ∧ RunSetting s.opts s.train ops 3 := by
  obtain ⟨ops, ho⟩ := C73_opened _ _ _ _ _ _ _ hs
  obtain ⟨train, hd, ht⟩ := ho.data
  obtain ⟨g1, g2, g3, g4, g5⟩ := web_split hd
  obtain ⟨e1, e2, e3⟩ := tagged_fields ht
  exact ⟨ops, ho, web_run ho.operators ho.options ⟨by rw [e1, e2]; exact g1.1, by rw [e1, e3]; exact g1.2⟩
    (by rw [e1]; omega) (by rw [e1]; exact g3)⟩

/-- They are requests to which the theorems of this file apply. -/
theorem Demo.web_runnable : Runnable webTable Char.isWhitespace webArgs := by
  intro g s hs
  obtain ⟨ops, ho, Q⟩ := web_opened hs
  have hcore := ho.options.core
  refine ⟨?_, ⟨ops, 3, ho, Q⟩, fun n => ?_⟩
  · have h1 : s.opts.populations = 2 := by rw [hcore]; rfl
    have h2 : s.opts.populationSize ≤ 8 := by
      rw [hcore]; show webRequest.core.populationSize ≤ 8; decide
    rw [h1]; omega
  · obtain ⟨e0, g1, g2⟩ := C64_stepwise Q g.2.1 g.2.2
    have := ho.engine
    rw [show (webArgs g).seeds = g.2.1 from rfl, show (webArgs g).orderRng = g.2.2 from rfl, g1] at this
    cases this
    rcases g2 n with h | ⟨_, _, _, _, _, _, _, -, -, -, -, h | h⟩
    · exact h
    · have hm : s.opts.migration = false := by rw [hcore]; rfl
      rw [hm] at h; cases h.1
    · have hm : s.opts.hofMigration = false := by rw [hcore]; rfl
      rw [hm] at h; cases h.1

/-- The worker of the example: for all random streams, the page sends `init` and `start`, and the loop is woken once: the answers
are `ready`, snapshots and fronts, and `done`; the search has then done its four cycles. -/
example (T : Texts ℚ) (g : Rng (Fl ℚ) × (Nat → Rng (Fl ℚ)) × Rng (Fl ℚ)) (t1 t2 t3 : ℚ) :
    ∃ (w : Worker (sessionWasm webTable Char.isWhitespace T webArgs)) (sp : Split)
      (out : List (FromWorker (sessionWasm webTable Char.isWhitespace T webArgs))),
      Worker.fresh.run [.receive (.init g) t1, .loaded 0, .receive .start t2, .wake 0 t3] = some (w, .ready sp :: out) ∧
      out.filter FromWorker.isEnd = [.done] ∧ w.loops = [] ∧ w.running = false ∧
      ∃ s, w.search = .live s ∧ Session.left (K := ℚ) s = 0 := by
  have hne : Session.open webTable Char.isWhitespace webRequest g.1 g.2.1 g.2.2 ≠ some none := by
    intro h
    rcases (C73_refused _ _ _ _ _ _).mp h with h | h | h
    · exact h _ web_operators
    · exact h _ _ web_valid
    · rw [web_loss] at h; cases h
  obtain ⟨s0, hs⟩ := C73_opens webTable Char.isWhitespace webRequest g.1 g.2.1 g.2.2 hne (by
    intro ops o names split train val d h1 h2 h3 e1 e2 e3
    obtain ⟨g1, g2, g3, -⟩ := web_split h3
    refine ⟨3, web_run h1 h2 ⟨by rw [e1, e2]; exact g1.1, by rw [e1, e3]; exact g1.2⟩ (by rw [e1]; omega) (by rw [e1]; exact g3)⟩)
  have hcreate : (sessionWasm webTable Char.isWhitespace T webArgs).create g = some s0 := by
    show (Session.open webTable Char.isWhitespace webRequest g.1 g.2.1 g.2.2).join = some s0
    rw [hs]; rfl
  have hV := C83_session (T := T) web_runnable
  have hL := C83_session_counts (T := T) web_runnable
  let W := sessionWasm webTable Char.isWhitespace T webArgs
  let s1 : W.Sess := { s0 with paretoK := 10000 }
  let w0 : Worker W := ⟨.live s1, false, [], []⟩
  have hv1 : Reached webTable Char.isWhitespace T webArgs s1 := hV.paretoK 10000 s0 (hV.create g s0 hcreate)
  have hw0 : w0.Ok (Reached webTable Char.isWhitespace T webArgs) :=
    ⟨by simp [w0], fun s e => by cases e; exact hv1, fun e => by cases e⟩
  obtain ⟨ops, ho, Q⟩ := web_opened hs
  have hleft : Session.left (K := ℚ) s1 = 4 := by
    obtain ⟨-, a, b⟩ := reached (T := T) (cs := []) (rs := []) ho Q.search rfl
    have hcore := ho.options.core
    show s0.engine.shared.counters.total - s0.engine.shared.counters.completed = 4
    rw [a, b, show s0.opts.niterations * s0.opts.populations = 4 by rw [hcore]; rfl]
    rfl
  rcases e1 : w0.receive t2 .start with ⟨w1, o1⟩
  have hl1 : w1.loops ≠ [] := by
    intro hl
    have := (C83_start hV hL hw0 rfl rfl rfl e1 (es := []) (by simp) rfl).2.1.mpr hl
    rw [hleft] at this
    cases this
  obtain ⟨l, ls, hl⟩ := List.exists_cons_of_ne_nil hl1
  obtain ⟨w2, o2, e2⟩ : ∃ w2 o2, w1.on (.wake 0 t3) = some (w2, o2) := by
    simp only [Worker.on, hl, List.getElem?_cons_zero, Option.map_some]
    exact ⟨_, _, rfl⟩
  have e2' : w1.run [.wake 0 t3] = some (w2, o2) := by
    simp only [Worker.run, e2, Option.bind_eq_bind, Option.bind_some, List.append_nil]
  obtain ⟨-, a, b⟩ := C83_start hV hL hw0 rfl rfl rfl e1 (by simp [WEvent.IsWake]) e2'
  have hl2 := a.mp (by rw [hleft]; rfl)
  obtain ⟨b1, b2, b3⟩ := b hl2
  refine ⟨w2, s0.split, o1 ++ o2, ?_, b3, hl2, b1, b2⟩
  have h1 : (Worker.fresh : Worker W).on (.receive (.init g) t1) = some (⟨.null, false, [], [g]⟩, []) := rfl
  have h2 : (⟨.null, false, [], [g]⟩ : Worker W).on (.loaded 0) = some (w0, [.ready s0.split]) := by
    have : Worker.loaded g (⟨.null, false, [], []⟩ : Worker W) = (w0, [.ready s0.split]) := by
      unfold Worker.loaded
      rw [show W.create g = some s0 from hcreate]
      rfl
    rw [← this]
    rfl
  have h3 : w0.on (.receive .start t2) = some (w1, o1) := by rw [← e1]; rfl
  simp only [Worker.run, h1, h2, h3, e2, Option.bind_eq_bind, Option.bind_some, List.append_nil, List.nil_append, List.singleton_append]

end SR
