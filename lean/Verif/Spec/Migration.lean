import Verif.Spec.History
/-
Vocabulary for C70: where migrants come from.
-/
namespace SR
variable {K : Type} [Field K] [LinearOrder K] [E : Env K]

/-- Population `j` as the last of the applied results `rs` for it returned it, or as it was initialised. -/
def lastPop (s0 : Shared K) (rs : List (TaskResult K)) (j : Nat) : Option (Population K) :=
  match rs.reverse.find? (fun r => r.popIdx == j) with
  | some r => some r.ps.pop
  | none => match s0.pops[j]? with
    | some (some ps) => some ps.pop
    | _ => none

/-- `m` belongs to `p`, and fewer than `n` members of `p` are strictly cheaper. -/
def AmongBest (n : Nat) (p : Population K) (m : Member K) : Prop :=
  m ∈ p ∧ (p.filter fun x => x.cost.lt m.cost).length < n

/-- `m` is a copy of `donor` under another identity: same expression and scores, the donor as parent. -/
structure MigrantOf (donor m : Member K) : Prop where
  expr : m.expr = donor.expr
  complexity : m.complexity = donor.complexity
  loss : m.loss = donor.loss
  cost : m.cost = donor.cost
  parent : m.parent = some donor.id

end SR
