import Verif.Spec.Stream
import Verif.Model.Search
/-
Every random computation of the search consumes its stream of draws in order.
-/
namespace SR
namespace Rand
variable {F α β : Type}

instance consumes_pure (a : α) : Consumes (pure a : Rand F α) := ⟨fun g b g' h => by
  simp only [run_pure, Option.some.injEq, Prod.mk.injEq] at h
  obtain ⟨rfl, rfl⟩ := h
  exact ⟨0, 0, rfl, fun h _ => rfl⟩⟩

instance consumes_bind (m : Rand F α) (f : α → Rand F β) [hm : Consumes m] [hf : ∀ a, Consumes (f a)] :
    Consumes (m >>= f) := ⟨fun g b g' h => by
  rw [run_bind] at h
  cases hx : m g with
  | none => rw [hx] at h; cases h
  | some x =>
    rw [hx] at h
    obtain ⟨i, j, e, l⟩ := hm.rest g x.1 x.2 hx
    obtain ⟨i', j', e', l'⟩ := (hf x.1).rest x.2 b g' h
    have hd : ∀ q : Rng F, (q.drop i j).drop i' j' = q.drop (i' + i) (j' + j) := by
      intro q; simp [Rng.drop, Nat.add_assoc]
    refine ⟨i' + i, j' + j, ?_, fun q hq => ?_⟩
    · rw [e', e, hd]
    · rw [run_bind, l q ⟨fun k hk => hq.1 k (by omega), fun k hk => hq.2 k (by omega)⟩]
      have := l' (q.drop i j) (by
        rw [e]
        exact ⟨fun k hk => hq.1 (k + i) (by omega), fun k hk => hq.2 (k + j) (by omega)⟩)
      rw [hd] at this
      exact this⟩

instance consumes_fail : Consumes (Rand.fail : Rand F α) := ⟨fun g b g' h => by cases h⟩

instance consumes_lift (o : Option α) : Consumes (Rand.lift o : Rand F α) := ⟨fun g b g' h => by
  cases o with
  | none => cases h
  | some a =>
    simp only [Rand.lift, Option.map_some, Option.some.injEq, Prod.mk.injEq] at h
    obtain ⟨rfl, rfl⟩ := h
    exact ⟨0, 0, rfl, fun h _ => rfl⟩⟩

instance consumes_below (n : Nat) : Consumes (Rand.below n : Rand F Nat) := ⟨fun g b g' h => by
  unfold Rand.below at h
  split at h
  · cases h
  · next hn =>
    simp only [Option.some.injEq, Prod.mk.injEq] at h
    obtain ⟨rfl, rfl⟩ := h
    refine ⟨1, 0, rfl, fun q hq => ?_⟩
    unfold Rand.below
    rw [if_neg hn, hq.1 0 (by omega)]
    rfl⟩

instance consumes_float : Consumes (Rand.float : Rand F F) := ⟨fun g b g' h => by
  simp only [Rand.float, Option.some.injEq, Prod.mk.injEq] at h
  obtain ⟨rfl, rfl⟩ := h
  refine ⟨0, 1, rfl, fun q hq => ?_⟩
  unfold Rand.float
  rw [hq.2 0 (by omega)]
  rfl⟩

instance consumes_bool : Consumes (Rand.bool : Rand F Bool) := by unfold Rand.bool; infer_instance

instance consumes_ite (c : Prop) [Decidable c] (a b : Rand F α) [Consumes a] [Consumes b] :
    Consumes (if c then a else b) := by split <;> infer_instance

end Rand

/-- Go through the structure of a computation. -/
syntax "consumes" : tactic
macro_rules
  | `(tactic| consumes) =>
    `(tactic| repeat' (first
      | infer_instance
      | assumption
      | (refine @Rand.consumes_bind _ _ _ _ _ ?_ fun _ => ?_)
      | split
      | (intro _)
      | (dsimp (config := { zeta := true, failIfUnchanged := true }) only)))

section
variable {F α : Type}

instance (a b : Nat) : Rand.Consumes (usizeRangeInclusive a b : Rand F Nat) := by unfold usizeRangeInclusive; consumes

instance shuffleLoop_consumes (n : Nat) (l : List α) : Rand.Consumes (shuffleLoop n l : Rand F (List α)) := by
  induction n generalizing l with
  | zero => unfold shuffleLoop; consumes
  | succ n ih => unfold shuffleLoop; consumes

instance (l : List α) : Rand.Consumes (shuffle l : Rand F (List α)) := by unfold shuffle; consumes
instance (l : List α) : Rand.Consumes (choose l : Rand F (Option α)) := by unfold choose; consumes

instance rejectLoop_consumes (len take fuel : Nat) (out : List Nat) :
    Rand.Consumes (rejectLoop len take fuel out : Rand F (List Nat)) := by
  induction fuel generalizing out with
  | zero => unfold rejectLoop; consumes
  | succ n ih => unfold rejectLoop; consumes

instance partialShuffle_consumes (k i : Nat) (v : List Nat) : Rand.Consumes (partialShuffle k i v : Rand F (List Nat)) := by
  induction k generalizing i v with
  | zero => unfold partialShuffle; consumes
  | succ n ih => unfold partialShuffle; consumes

instance (fuel len n : Nat) : Rand.Consumes (sampleIndices fuel len n : Rand F (List Nat)) := by
  unfold sampleIndices; consumes

instance (s : Operators) (m : Nat) : Rand.Consumes (s.sampleArity m : Rand F Nat) := by
  unfold Operators.sampleArity; consumes
instance (s : Operators) (a : Nat) : Rand.Consumes (s.sampleOp a : Rand F OpId) := by
  unfold Operators.sampleOp; consumes
end

section
variable {F T : Type}

instance {α : Type} (l : List α) : Rand.Consumes (pick l : Rand F α) := by unfold pick; consumes
instance (normal : F → F → T) (nf : Nat) (cs : List T) : Rand.Consumes (randomLeaf normal nf cs) := by
  unfold randomLeaf; consumes

instance randomLeaves_consumes (normal : F → F → T) (nf k : Nat) (cs : List T) :
    Rand.Consumes (randomLeaves normal nf k cs) := by
  induction k generalizing cs with
  | zero => unfold randomLeaves; consumes
  | succ n ih => unfold randomLeaves; consumes

instance randomExprLoop_consumes (normal : F → F → T) (ops : Operators) (nf target fuel : Nat) (e : PostfixExpr T) :
    Rand.Consumes (randomExprLoop normal ops nf target fuel e) := by
  induction fuel generalizing e with
  | zero => unfold randomExprLoop; consumes
  | succ n ih => unfold randomExprLoop; consumes

instance (normal : F → F → T) (ops : Operators) (nf target : Nat) : Rand.Consumes (randomExpr normal ops nf target) := by
  unfold randomExpr; consumes

instance randomExprAppendLoop_consumes (normal : F → F → T) (ops : Operators) (nf m k : Nat) (e : PostfixExpr T) :
    Rand.Consumes (randomExprAppendLoop normal ops nf m k e) := by
  induction k generalizing e with
  | zero => unfold randomExprAppendLoop; consumes
  | succ n ih => unfold randomExprAppendLoop; consumes

instance (e : PostfixExpr T) : Rand.Consumes (compressR e : Rand F (PostfixExpr T)) := by unfold compressR; consumes
instance [Scalar T] (normal : F → F → T) (ops : Operators) (nf n m : Nat) :
    Rand.Consumes (randomExprAppendOps normal ops nf n m) := by unfold randomExprAppendOps; consumes
instance (A : FArith F) (cast : F → T) (mulT : T → T → T) (p t n : F) (e : PostfixExpr T) :
    Rand.Consumes (mutateConstant A cast mulT p t n e) := by unfold mutateConstant; consumes
instance (ops : Operators) (e : PostfixExpr T) : Rand.Consumes (mutateOperator ops e : Rand F _) := by
  unfold mutateOperator; consumes

instance mutateFeatureLoop_consumes (nf old i k : Nat) (e : PostfixExpr T) :
    Rand.Consumes (mutateFeatureLoop nf old i e k : Rand F _) := by
  induction k with
  | zero => unfold mutateFeatureLoop; consumes
  | succ n ih => unfold mutateFeatureLoop; consumes

instance (nf : Nat) (e : PostfixExpr T) : Rand.Consumes (mutateFeature nf e : Rand F _) := by unfold mutateFeature; consumes
instance (e : PostfixExpr T) : Rand.Consumes (swapOperands e : Rand F _) := by unfold swapOperands; consumes
instance (e : PostfixExpr T) : Rand.Consumes (rotateTree e : Rand F _) := by unfold rotateTree; consumes

instance carryLoop_consumes (normal : F → F → T) (nf carry : Nat) (old : List PNode) (k j : Nat) (cs : List T) :
    Rand.Consumes (carryLoop normal nf carry old k j cs) := by
  induction k generalizing j cs with
  | zero => unfold carryLoop; consumes
  | succ n ih => unfold carryLoop; consumes

instance (normal : F → F → T) (ops : Operators) (nf : Nat) (e : PostfixExpr T) :
    Rand.Consumes (insertRandomOp normal ops nf e) := by unfold insertRandomOp; consumes
instance (normal : F → F → T) (ops : Operators) (nf : Nat) (e : PostfixExpr T) :
    Rand.Consumes (prependRandomOp normal ops nf e) := by unfold prependRandomOp; consumes
instance (normal : F → F → T) (ops : Operators) (nf : Nat) (e : PostfixExpr T) :
    Rand.Consumes (appendRandomOp normal ops nf e) := by unfold appendRandomOp; consumes
instance (normal : F → F → T) (ops : Operators) (nf : Nat) (e : PostfixExpr T) :
    Rand.Consumes (addNode normal ops nf e) := by unfold addNode; consumes
instance (e : PostfixExpr T) : Rand.Consumes (deleteRandomOp e : Rand F _) := by unfold deleteRandomOp; consumes
instance (a b : PostfixExpr T) : Rand.Consumes (crossoverTrees a b : Rand F _) := by unfold crossoverTrees; consumes
end

section
variable {K : Type} [Field K] [LinearOrder K]

instance (R : Rounding K) (ws : List (Fl K)) : Rand.Consumes (weightedIndex R ws) := by unfold weightedIndex; consumes

instance knuthLoop_consumes (R : Rounding K) (limit : Fl K) (fuel k : Nat) (p : Fl K) :
    Rand.Consumes (knuthLoop R limit fuel k p) := by
  induction fuel generalizing k p with
  | zero => unfold knuthLoop; consumes
  | succ n ih => unfold knuthLoop; consumes

omit [Field K] [LinearOrder K] in
instance ptrsLoop_consumes (c : Fl K → Fl K → Option Nat) (fuel : Nat) : Rand.Consumes (ptrsLoop c fuel) := by
  induction fuel with
  | zero => unfold ptrsLoop; consumes
  | succ n ih => unfold ptrsLoop; consumes

instance (R : Rounding K) (lib : Libm K) (c : Fl K → Fl K → Fl K → Option Nat) (fuel : Nat) (mean : Fl K) :
    Rand.Consumes (poissonSample R lib c fuel mean) := by unfold poissonSample; consumes

instance (R : Rounding K) (n : Nat) (p : Fl K) : Rand.Consumes (sampleTournamentPlace R n p) := by
  unfold sampleTournamentPlace; consumes
instance (R : Rounding K) (S : SortBy) (lib : Libm K) (fuel : Nat) (o : TourOptions K) (s : Stats K) (p : Population K) :
    Rand.Consumes (bestOfSample R S lib fuel o s p) := by unfold bestOfSample; consumes

omit [Field K] [LinearOrder K] in
instance migrateLoop_consumes {F : Type} (ms : List (Member K)) (n : Nat) (dst : Population K) (c : Counters) :
    Rand.Consumes (migrateLoop ms n dst c : Rand F _) := by
  induction n generalizing dst c with
  | zero => unfold migrateLoop; consumes
  | succ n ih => unfold migrateLoop; consumes

instance (R : Rounding K) (poisson : Fl K → Rand (Fl K) Nat) [∀ m, Rand.Consumes (poisson m)] (dst : Population K)
    (ms : List (Member K)) (frac : Fl K) (c : Counters) : Rand.Consumes (migrateInto R poisson dst ms frac c) := by
  unfold migrateInto; consumes
end

section
variable {K : Type} [Field K] [LinearOrder K] [E : Env K]
variable (o : SOptions K) (d : Dataset K)

instance perturb_consumes (vs : List (Fl K)) : Rand.Consumes (perturb vs) := by
  induction vs with
  | nil => unfold perturb; consumes
  | cons v vs ih => unfold perturb; consumes

instance restarts_consumes (plan : EvalPlan) (e : PostfixExpr (Fl K)) (ev : Evaluator K) (x0 : List (Fl K)) (n : Nat)
    (b : BestPoint K) (ctx : DContext (Fl K)) : Rand.Consumes (restarts o d plan e ev x0 n b ctx) := by
  induction n generalizing b ctx with
  | zero => unfold restarts; consumes
  | succ n ih => unfold restarts; consumes

instance (ev : Evaluator K) (ctx : DContext (Fl K)) (nb : Nat) (m : Member K) :
    Rand.Consumes (optimizeConstants o d ev ctx nb m) := by unfold optimizeConstants; consumes
instance (w : MutWeights K) : Rand.Consumes (sampleMutation w) := by unfold sampleMutation; consumes
instance apply_consumes (cur : Nat) (t : Fl K) (m : Member K) (ev : Evaluator K) (choice : Mutation) :
    Rand.Consumes (choice.apply o d cur t m ev) := by
  cases choice <;> unfold Mutation.apply <;> consumes

instance attemptLoop_consumes (cur : Nat) (t : Fl K) (m : Member K) (choice : Mutation) (k evals : Nat) (ev : Evaluator K) :
    Rand.Consumes (attemptLoop o d cur t m choice k evals ev) := by
  induction k generalizing evals ev with
  | zero => unfold attemptLoop; consumes
  | succ n ih => unfold attemptLoop; consumes

instance (cur : Nat) (t : Fl K) (s : Stats K) (ev : Evaluator K) (c : Counters) (m : Member K) (choice : Mutation) :
    Rand.Consumes (generationWith o d cur t s ev c m choice) := by unfold generationWith; consumes
instance (cur : Nat) (t : Fl K) (s : Stats K) (ev : Evaluator K) (c : Counters) (m : Member K) :
    Rand.Consumes (nextGeneration o d cur t s ev c m) := by unfold nextGeneration; consumes

instance crossLoop_consumes (cur : Nat) (ev : Evaluator K) (c : Counters) (m1 m2 : Member K) (k : Nat) :
    Rand.Consumes (crossLoop o d cur ev c m1 m2 k) := by
  induction k with
  | zero => unfold crossLoop; consumes
  | succ n ih => unfold crossLoop; consumes

instance (cur : Nat) (ev : Evaluator K) (c : Counters) (m1 m2 : Member K) :
    Rand.Consumes (crossoverGeneration o d cur ev c m1 m2) := by unfold crossoverGeneration; consumes
instance (cur : Nat) (t : Fl K) (s : Stats K) (st : EvolState K) : Rand.Consumes (mutationStep o d cur t s st) := by
  unfold mutationStep; consumes
instance (cur : Nat) (s : Stats K) (st : EvolState K) : Rand.Consumes (crossoverStep o d cur s st) := by
  unfold crossoverStep; consumes
instance (cur : Nat) (t : Fl K) (s : Stats K) (st : EvolState K) : Rand.Consumes (evolStep o d cur t s st) := by
  unfold evolStep; consumes

instance evolLoop_consumes (cur : Nat) (t : Fl K) (s : Stats K) (k : Nat) (st : EvolState K) :
    Rand.Consumes (evolLoop o d cur t s k st) := by
  induction k generalizing st with
  | zero => unfold evolLoop; consumes
  | succ n ih => unfold evolLoop; consumes

instance (cur : Nat) (t : Fl K) (s : Stats K) (st : EvolState K) : Rand.Consumes (regEvolCycle o d cur t s st) := by
  unfold regEvolCycle; consumes

instance srLoop_consumes (cur : Nat) (s : Stats K) (n k : Nat) (st : EvolState K) (best : Hall K) :
    Rand.Consumes (srLoop o d cur s n k st best) := by
  induction k generalizing st best with
  | zero => unfold srLoop; consumes
  | succ n ih => unfold srLoop; consumes

instance (cur : Nat) (s : Stats K) (st : EvolState K) : Rand.Consumes (srCycle o d cur s st) := by unfold srCycle; consumes

instance optimizeAll_consumes (p : Population K) (st : OptState K) : Rand.Consumes (optimizeAll o d p st) := by
  induction p generalizing st with
  | nil => unfold optimizeAll; consumes
  | cons m ms ih => unfold optimizeAll; consumes

instance (ctx : DContext (Fl K)) (st : EvolState K) : Rand.Consumes (optimizePhase o d ctx st) := by
  unfold optimizePhase; consumes
instance (full : Dataset K) (ctx : DContext (Fl K)) (st : EvolState K) :
    Rand.Consumes (optimizeAndSimplify o full d ctx st) := by unfold optimizeAndSimplify; consumes

omit [Field K] [LinearOrder K] E in
instance resampleLoop_consumes (full : Dataset K) (k dst : Nat) (b : Dataset K) :
    Rand.Consumes (resampleLoop full k dst b) := by
  induction k generalizing dst b with
  | zero => unfold resampleLoop; consumes
  | succ n ih => unfold resampleLoop; consumes

omit [Field K] [LinearOrder K] E in
instance (full b : Dataset K) : Rand.Consumes (resampleFrom full b) := by unfold resampleFrom; consumes
instance (b : Option (Dataset K)) : Rand.Consumes (phaseDataset o d b) := by unfold phaseDataset; consumes
instance (t : Task K) : Rand.Consumes (taskBody o d t) := by unfold taskBody; consumes

instance (dst : Population K) (ms : List (Member K)) (frac : Fl K) (c : Counters) :
    Rand.Consumes (migrate dst ms frac c) := by unfold migrate; consumes
instance (a b : List (Member K)) (p : Population K) (c : Counters) : Rand.Consumes (migrations o a b p c) := by
  unfold migrations; consumes
instance (st : InitState K) : Rand.Consumes (initMember o d st) := by unfold initMember; consumes

instance initMembers_consumes (k : Nat) (st : InitState K) : Rand.Consumes (initMembers o d k st) := by
  induction k generalizing st with
  | zero => unfold initMembers; consumes
  | succ n ih => unfold initMembers; consumes
end

end SR
