import Verif.Props.Constraints
import Verif.Model.Population
/-
Vocabulary for the search layer: feasibility of a member, offers to a hall of fame.
-/
namespace SR
variable {K : Type}

/-- The member's expression is a tree (with operators of positive arity at most `D`). -/
def Member.IsTree (D : Nat) (m : Member K) : Prop :=
  ∃ t : Tree, m.expr.nodes = t.toPostfix ∧ t.Proper ∧ t.ArityLe D

/-- The member's expression satisfies the configured constraints with size limit `cur`. -/
def Member.Feasible (o : CxOptions) (cur : Nat) (m : Member K) : Prop :=
  ∃ t : Tree, m.expr.nodes = t.toPostfix ∧ (o.limits cur).Allows t

/-- An offer to a hall of fame: the size limit in force and the member. -/
abbrev Offer (K : Type) := Nat × Member K

/-- The offer counts for complexity `c`. -/
def Offer.Counts (o : CxOptions) (c : Nat) (x : Offer K) : Prop :=
  x.2.Feasible o x.1 ∧ x.2.complexity = c

/-- Offer a sequence of members, each with its own size limit. -/
def offerAll [LinearOrder K] (o : CxOptions) (h : Hall K) (offers : List (Offer K)) : Option (Hall K) :=
  offers.foldlM (fun h x => h.consider o x.1 x.2) h

end SR
