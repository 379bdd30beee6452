import Verif.Spec.History
/-
Vocabulary for the identities of members (C50).
-/
namespace SR
variable {K : Type} [Field K] [LinearOrder K] [E : Env K]

/-- The first identifier of population `i`: `(i as u64) << 32`. -/
def idBase (i : Nat) : Nat := i * 2 ^ 32 % 2 ^ 64

/-- The identifiers in a population whose first identifier is `base`: they lie between `base` and the next identifier to
be given out; and if failed mutations are skipped (the default) no two members share one. -/
structure IdsOk (o : SOptions K) (base : Nat) (pop : Population K) (c : Counters) : Prop where
  range : ∀ m ∈ pop, base ≤ m.id ∧ m.id < c.nextId
  base_le : base ≤ c.nextId
  nodup : o.skipMutationFailures = true → (pop.map (·.id)).Nodup

end SR
