/-
Randomness.  A random number generator is an arbitrary pair of streams of raw draws (one for integers,
one for floats); a random computation consumes draws and may panic (`none`).  Theorems quantify over all
generators, hence over every seed of every generator.
-/
namespace SR

/-- Streams of raw draws; `F` is the type of uniform floats. -/
structure Rng (F : Type) where
  ints : Nat → Nat
  floats : Nat → F

/-- Drop the first integer draw. -/
def Rng.nextInt {F : Type} (g : Rng F) : Rng F := { g with ints := fun i => g.ints (i + 1) }
/-- Drop the first float draw. -/
def Rng.nextFloat {F : Type} (g : Rng F) : Rng F := { g with floats := fun i => g.floats (i + 1) }

/-- Random computations: `none` is a panic. -/
def Rand (F α : Type) := Rng F → Option (α × Rng F)

namespace Rand
variable {F α β : Type}

@[inline] protected def pure (a : α) : Rand F α := fun g => some (a, g)
@[inline] protected def bind (m : Rand F α) (f : α → Rand F β) : Rand F β := fun g =>
  match m g with
  | none => none
  | some (a, g') => f a g'
instance : Monad (Rand F) := { pure := Rand.pure, bind := Rand.bind }

/-- A panic. -/
def fail : Rand F α := fun _ => none
/-- Lift a computation that may panic. -/
def lift (o : Option α) : Rand F α := fun g => o.map fun a => (a, g)

/-- `rng.usize(0..n)` / `usize_range(rng, 0..n)`, symbolic_regression/src/random.rs:3-5 (`fastrand` panics
on an empty range). -/
def below (n : Nat) : Rand F Nat := fun g =>
  if n = 0 then none else some (g.ints 0 % n, g.nextInt)

/-- `rng.f64()`: the next float draw. -/
def float : Rand F F := fun g => some (g.floats 0, g.nextFloat)

/-- `rng.bool()`. -/
def bool : Rand F Bool := do let i ← below 2; pure (i == 1)

/-- Total correctness: for every generator the computation does not panic and its result satisfies
`P`. -/
def Total (m : Rand F α) (P : α → Prop) : Prop := ∀ g, ∃ a g', m g = some (a, g') ∧ P a

/-- Partial correctness: every result satisfies `P`. -/
def Post (m : Rand F α) (P : α → Prop) : Prop := ∀ g a g', m g = some (a, g') → P a

theorem Total.post {m : Rand F α} {P : α → Prop} (h : Total m P) : Post m P := by
  intro g a g' e
  obtain ⟨b, g'', e', hb⟩ := h g
  rw [e] at e'; simp at e'; rw [e'.1]; exact hb

theorem Total.mono {m : Rand F α} {P Q : α → Prop} (h : Total m P) (hpq : ∀ a, P a → Q a) : Total m Q :=
  fun g => let ⟨a, g', e, hp⟩ := h g; ⟨a, g', e, hpq a hp⟩

theorem Post.mono {m : Rand F α} {P Q : α → Prop} (h : Post m P) (hpq : ∀ a, P a → Q a) : Post m Q :=
  fun g a g' e => hpq a (h g a g' e)

theorem Total.pure {a : α} {P : α → Prop} (h : P a) : Total (Pure.pure a : Rand F α) P :=
  fun g => ⟨a, g, rfl, h⟩

theorem Total.bind {m : Rand F α} {f : α → Rand F β} {P : α → Prop} {Q : β → Prop} (hm : Total m P)
    (hf : ∀ a, P a → Total (f a) Q) : Total (m >>= f) Q := by
  intro g
  obtain ⟨a, g', e, hp⟩ := hm g
  obtain ⟨b, g'', e', hq⟩ := hf a hp g'
  refine ⟨b, g'', ?_, hq⟩
  show Rand.bind m f g = _
  rw [Rand.bind, e]; exact e'

theorem Post.pure {a : α} {P : α → Prop} (h : P a) : Post (Pure.pure a : Rand F α) P := by
  intro g b g' e
  have : some (a, g) = some (b, g') := e
  simp at this; rw [← this.1]; exact h

theorem Post.bind {m : Rand F α} {f : α → Rand F β} {P : α → Prop} {Q : β → Prop} (hm : Post m P)
    (hf : ∀ a, P a → Post (f a) Q) : Post (m >>= f) Q := by
  intro g b g'' e
  have e : Rand.bind m f g = some (b, g'') := e
  rw [Rand.bind] at e
  cases h : m g with
  | none => rw [h] at e; simp at e
  | some p =>
    obtain ⟨a, g'⟩ := p
    rw [h] at e
    exact hf a (hm g a g' h) g' b g'' e

theorem Post.fail {P : α → Prop} : Post (Rand.fail : Rand F α) P := by
  intro g a g' e; simp [Rand.fail] at e

theorem Total.lift {o : Option α} {P : α → Prop} (h : ∃ a, o = some a ∧ P a) :
    Total (Rand.lift o : Rand F α) P := by
  obtain ⟨a, rfl, hp⟩ := h
  exact fun g => ⟨a, g, rfl, hp⟩

theorem Post.lift {o : Option α} {P : α → Prop} (h : ∀ a, o = some a → P a) :
    Post (Rand.lift o : Rand F α) P := by
  intro g a g' e
  cases o with
  | none => simp [Rand.lift] at e
  | some b => simp [Rand.lift] at e; exact e.1 ▸ h b rfl

theorem Total.below {n : Nat} (h : 0 < n) : Total (Rand.below n : Rand F Nat) (· < n) := by
  intro g
  refine ⟨g.ints 0 % n, g.nextInt, ?_, Nat.mod_lt _ h⟩
  rw [Rand.below, if_neg (by omega)]

theorem Post.below {n : Nat} : Post (Rand.below n : Rand F Nat) (· < n) := by
  intro g a g' e
  rw [Rand.below] at e
  split at e
  · simp at e
  · simp at e; rw [← e.1]; exact Nat.mod_lt _ (by omega)

theorem Total.float {P : F → Prop} (h : ∀ x, P x) : Total (Rand.float : Rand F F) P :=
  fun g => ⟨_, _, rfl, h _⟩

theorem Post.float {P : F → Prop} (h : ∀ x, P x) : Post (Rand.float : Rand F F) P :=
  (Total.float h).post

theorem Total.bool : Total (Rand.bool : Rand F Bool) (fun _ => True) :=
  Total.bind (Total.below (by omega)) fun _ _ => Total.pure trivial

theorem Post.true {m : Rand F α} : Post m (fun _ => True) := fun _ _ _ _ => trivial

/-- Combine two facts about the same computation. -/
theorem Post.and {m : Rand F α} {P Q : α → Prop} (h1 : Post m P) (h2 : Post m Q) :
    Post m (fun a => P a ∧ Q a) := fun g a g' e => ⟨h1 g a g' e, h2 g a g' e⟩

@[simp] theorem run_pure (a : α) (g : Rng F) : (Pure.pure a : Rand F α) g = some (a, g) := rfl
theorem run_bind (m : Rand F α) (f : α → Rand F β) (g : Rng F) :
    (m >>= f) g = match m g with | none => none | some (a, g') => f a g' := rfl

/-- The generator whose integer draws are the given list, then zeros. -/
def script (F : Type) [Inhabited F] (l : List Nat) : Rng F :=
  ⟨fun i => (l[i]?).getD 0, fun _ => default⟩

/-- Generator with a first integer draw prepended. -/
def consInt (i : Nat) (g : Rng F) : Rng F :=
  { g with ints := fun k => match k with | 0 => i | k + 1 => g.ints k }

/-- Generator with a first float draw prepended. -/
def consFloat (x : F) (g : Rng F) : Rng F :=
  { g with floats := fun k => match k with | 0 => x | k + 1 => g.floats k }

theorem below_cons {n i : Nat} (h : i < n) (g : Rng F) :
    (Rand.below n : Rand F Nat) (consInt i g) = some (i, g) := by
  rw [Rand.below, if_neg (by omega)]
  simp only [consInt, Nat.mod_eq_of_lt h, Rng.nextInt]

theorem float_cons (x : F) (g : Rng F) :
    (Rand.float : Rand F F) (consFloat x g) = some (x, g) := by
  simp only [Rand.float, consFloat, Rng.nextFloat]

end Rand
end SR
