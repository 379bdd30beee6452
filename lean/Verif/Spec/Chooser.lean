import Verif.Props.FindSearch
import Verif.Props.ChanceSearch
/-
Vocabulary for C90 with the multi-worker driver: who decides which of the tasks in flight is received next.

The driver itself is deterministic except for that.  A chooser decides it from the past of the search and from everything the state
holds - the populations, the hall of fame, the counters, which tasks are in flight and what they were given - except the random
generators: it does not know the draws to come.
-/
namespace SR

/-- The same state, population `i` with the generator `f i`, whether it is in the pool or in flight. -/
def Par.feed (f : Nat → Rng (Fl ℚ)) (p : Par ℚ) : Par ℚ :=
  { p with shared := p.shared.feed f, pending := p.pending.map fun t => t.on (f t.popIdx) }

/-- What one can see of a state without seeing the generators of the populations. -/
def Par.blind (p : Par ℚ) : Par ℚ := p.feed fun _ => ⟨fun _ => 0, fun _ => .fin 0⟩

/-- A chooser: from the events so far and the blind state, a number; the task received is the one at that place (modulo their number)
among those in flight. -/
abbrev Chooser := List ParEvent → Par ℚ → ℕ

/-- The event is one the chooser agrees to. -/
def Chooser.Allows (σ : Chooser) (past : List ParEvent) (p : Par ℚ) (e : ParEvent) : Prop :=
  ∀ i, e = .receive i → (p.pending.map (·.popIdx))[σ past p.blind % p.pending.length]? = some i

/-- Runs of the multi-worker driver in which the chooser decides; `past` are the events before the run. -/
inductive ChosenRun [E : Env ℚ] (σ : Chooser) (o : SOptions ℚ) (d : Dataset ℚ) (nw : Nat) :
    List ParEvent → Par ℚ → List ParEvent → Par ℚ → Prop
  | refl (past : List ParEvent) (p : Par ℚ) : ChosenRun σ o d nw past p [] p
  | cons {past tr : List ParEvent} {p q r : Par ℚ} {e : ParEvent} : ParStep o d nw p e q → σ.Allows past p e →
      ChosenRun σ o d nw (past ++ [e]) q tr r → ChosenRun σ o d nw past p (e :: tr) r

/-- The event that a multi-worker search with these draws and this chooser misses the target: it does not start, or some run the
chooser decides and that can not be continued does not leave the driver returned, with an entry of complexity `c` in the hall of fame
that costs at most `v`. -/
def MissedWith [E : Env ℚ] (σ : Chooser) (nw : Nat) (o : SOptions ℚ) (d : Dataset ℚ) (orderRng : Rng (Fl ℚ)) (c : ℕ) (v : Fl ℚ) :
    Set Draws :=
  {ω | Par.new o d ω.rng orderRng = none ∨ ∃ p tr q, Par.new o d ω.rng orderRng = some p ∧ ChosenRun σ o d nw [] p tr q ∧
    (∀ e r, ParStep o d nw q e r → ¬ σ.Allows tr q e) ∧ ¬ (q.Final o ∧ q.shared.hall.AtMost c v)}

end SR
