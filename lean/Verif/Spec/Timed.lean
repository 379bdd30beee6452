import Verif.Spec.Chooser
import Verif.Spec.Stream
/-
Vocabulary for C90 with the multi-worker driver: the order in which results arrive may depend on what the tasks in flight do.

How long a task takes depends on what it draws.  So who decides which result arrives first may know everything about the tasks in flight -
all they draw, and what they will return - and everything about the past; not what a task that is not yet dispatched will draw.
-/
namespace SR
section
variable [E : Env ℚ]

/-- With its generator the task draws `a` integers and `b` floats: on every generator that begins with them it returns the same, and
leaves the rest. -/
def Task.Reads (o : SOptions ℚ) (d : Dataset ℚ) (t : Task ℚ) (a b : ℕ) : Prop :=
  ∃ r : TaskResult ℚ, ∀ g, t.ps.rng.Agree g a b → (t.on g).run o d = some (r.on (g.drop a b))

/-- The second task draws what the first draws. -/
def Task.SameDraws (o : SOptions ℚ) (d : Dataset ℚ) (t t' : Task ℚ) : Prop := ∃ a b, t.Reads o d a b ∧ t.ps.rng.Agree t'.ps.rng a b

/-- States that differ only in what will be drawn after the tasks in flight have ended, and by tasks that are not dispatched. -/
structure Par.SoFar (o : SOptions ℚ) (d : Dataset ℚ) (p p' : Par ℚ) : Prop where
  state : p.blind = p'.blind
  flight : ∀ (j : ℕ) t t', p.pending[j]? = some t → p'.pending[j]? = some t' → t.SameDraws o d t'

/-- Pasts that differ only in such draws: the events, each with the state before it. -/
abbrev PastAlike (o : SOptions ℚ) (d : Dataset ℚ) : List (ParEvent × Par ℚ) → List (ParEvent × Par ℚ) → Prop :=
  List.Forall₂ fun x y => x.1 = y.1 ∧ x.2.SoFar o d y.2

/-- A clock decides which of the tasks in flight is received next: the one at place `see past p` (modulo their number).  It may depend on
the whole past and on all that the tasks in flight draw and return. -/
structure Clock (o : SOptions ℚ) (d : Dataset ℚ) where
  see : List (ParEvent × Par ℚ) → Par ℚ → ℕ
  timely : ∀ {past past' : List (ParEvent × Par ℚ)} {p p' : Par ℚ}, PastAlike o d past past' → p.SoFar o d p' → see past p = see past' p'

variable {o : SOptions ℚ} {d : Dataset ℚ}

/-- The event is one the clock agrees to. -/
def Clock.Allows (σ : Clock o d) (past : List (ParEvent × Par ℚ)) (p : Par ℚ) (e : ParEvent) : Prop :=
  ∀ i, e = .receive i → (p.pending.map (·.popIdx))[σ.see past p % p.pending.length]? = some i

/-- Runs of the multi-worker driver in which the clock decides: from the past and the state they begin with to those they end with. -/
inductive TimedRun (σ : Clock o d) (nw : Nat) : List (ParEvent × Par ℚ) → Par ℚ → List (ParEvent × Par ℚ) → Par ℚ → Prop
  | refl (past : List (ParEvent × Par ℚ)) (p : Par ℚ) : TimedRun σ nw past p past p
  | cons {past past' : List (ParEvent × Par ℚ)} {p q r : Par ℚ} {e : ParEvent} : ParStep o d nw p e q →
      σ.Allows past p e → TimedRun σ nw (past ++ [(e, p)]) q past' r → TimedRun σ nw past p past' r

/-- The event that a multi-worker search with these draws and this clock misses the target: it does not start, or some run the
clock decides and that can not be continued does not leave the driver returned, with an entry of complexity `c` in the hall of fame
that costs at most `v`. -/
def MissedTimed (σ : Clock o d) (nw : Nat) (orderRng : Rng (Fl ℚ)) (c : ℕ) (v : Fl ℚ) : Set Draws :=
  {ω | Par.new o d ω.rng orderRng = none ∨ ∃ p past q, Par.new o d ω.rng orderRng = some p ∧ TimedRun σ nw [] p past q ∧
    (∀ e r, ParStep o d nw q e r → ¬ σ.Allows past q e) ∧ ¬ (q.Final o ∧ q.shared.hall.AtMost c v)}

end
end SR
