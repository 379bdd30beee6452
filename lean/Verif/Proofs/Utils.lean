import Verif.Model.Utils
import Mathlib.Data.List.Basic
import Verif.Spec.Consts
import Verif.Proofs.Postfix
/-
Constants access, compression, algebraic composition.
-/
namespace SR
variable {T : Type}

theorem setConstsLoop_range (v : List T) : ∀ (k : Nat) (consts : List T),
    consts.length = v.length → k ≤ v.length →
    setConstsLoop v (List.range' k (v.length - k)) k consts = some (consts.take k ++ v.drop k) := by
  intro k consts hl hk
  induction hn : v.length - k generalizing k consts with
  | zero =>
    have : k = v.length := by omega
    subst this
    simp [setConstsLoop, ← hl]
  | succ n ih =>
    have hkv : k < v.length := by omega
    simp only [List.range'_succ, setConstsLoop]
    rw [List.getElem?_eq_getElem hkv]
    simp only
    rw [if_pos (by omega), ih (k + 1) _ (by simpa using hl) (by omega) (by omega)]
    congr 1
    rw [List.take_add_one, List.take_set_of_le (by omega), List.getElem?_set_self (by omega),
      List.append_assoc]
    congr 1
    rw [List.drop_eq_getElem_cons hkv]; rfl

/-- First occurrences of a list, in order. -/
def addNew (u : List Nat) (c : Nat) : List Nat := if c ∈ u then u else u ++ [c]
def firstUses (cs : List Nat) : List Nat := cs.foldl addNew []

theorem foldl_addNew_prefix (cs : List Nat) : ∀ u, ∃ w, cs.foldl addNew u = u ++ w := by
  induction cs with
  | nil => intro u; exact ⟨[], by simp⟩
  | cons c cs ih =>
    intro u
    obtain ⟨w, hw⟩ := ih (addNew u c)
    by_cases h : c ∈ u
    · exact ⟨w, by rw [List.foldl_cons, hw]; simp [addNew, h]⟩
    · exact ⟨c :: w, by rw [List.foldl_cons, hw]; simp [addNew, h]⟩

theorem mem_foldl_addNew (cs : List Nat) : ∀ u c, c ∈ cs.foldl addNew u ↔ c ∈ u ∨ c ∈ cs := by
  induction cs with
  | nil => intro u c; simp
  | cons d cs ih =>
    intro u c
    rw [List.foldl_cons, ih]
    by_cases h : d ∈ u
    · simp only [addNew, if_pos h, List.mem_cons]
      constructor
      · rintro (h1 | h1)
        · exact Or.inl h1
        · exact Or.inr (Or.inr h1)
      · rintro (h1 | rfl | h1)
        · exact Or.inl h1
        · exact Or.inl h
        · exact Or.inr h1
    · simp [addNew, if_neg h, or_assoc]

theorem mem_firstUses (cs : List Nat) (c : Nat) : c ∈ firstUses cs ↔ c ∈ cs := by
  simp [firstUses, mem_foldl_addNew]

theorem nodup_foldl_addNew (cs : List Nat) : ∀ u, u.Nodup → (cs.foldl addNew u).Nodup := by
  induction cs with
  | nil => intro u h; simpa
  | cons d cs ih =>
    intro u h
    rw [List.foldl_cons]
    apply ih
    by_cases hd : d ∈ u
    · simpa [addNew, hd]
    · simp only [addNew, if_neg hd]
      rw [List.nodup_append]
      exact ⟨h, by simp, by intro a ha b hb; simp at hb; subst hb; rintro rfl; exact hd ha⟩

theorem firstUses_nodup (cs : List Nat) : (firstUses cs).Nodup :=
  nodup_foldl_addNew cs [] (by simp)

theorem firstUses_length_le (cs : List Nat) : (firstUses cs).length ≤ cs.length := by
  have : ∀ (cs u : List Nat), (cs.foldl addNew u).length ≤ u.length + cs.length := by
    intro cs
    induction cs with
    | nil => intro u; simp
    | cons d cs ih =>
      intro u
      rw [List.foldl_cons]
      refine Nat.le_trans (ih _) ?_
      by_cases hd : d ∈ u <;> simp [addNew, hd] <;> omega
  simpa [firstUses] using this cs []

theorem mapM_some_of_forall {α β} {f : α → Option β} {g : α → β} {l : List α}
    (h : ∀ a ∈ l, f a = some (g a)) : l.mapM f = some (l.map g) := by
  induction l with
  | nil => simp
  | cons a l ih =>
    rw [List.mapM_cons, h a (by simp), ih fun b hb => h b (by simp [hb])]
    simp

/-- What `compress_constants` computes. -/
theorem compress_run (consts : List T) : ∀ (ns : List PNode) (u : List Nat) (st : CompressState T),
    (∀ c, c ∈ ns.filterMap PNode.constIdx? → c < consts.length) →
    ((ns.filterMap PNode.constIdx?).foldl addNew u).length ≤ u16Max →
    st.remap.length = consts.length →
    (∀ c, c < consts.length → st.remap[c]? = some (if c ∈ u then u.idxOf c else u16Max)) →
    (∀ c ∈ u, c < consts.length) →
    st.newConsts.length = u.length →
    (∀ (i c : Nat), u[i]? = some c → st.newConsts[i]? = consts[c]?) →
    ∃ st', ns.foldlM (compressStep consts) st = some st' ∧
      st'.nodes = st.nodes ++ ns.map (PNode.mapConst
        fun c => ((ns.filterMap PNode.constIdx?).foldl addNew u).idxOf c) ∧
      st'.newConsts.length = ((ns.filterMap PNode.constIdx?).foldl addNew u).length ∧
      (∀ (i c : Nat), ((ns.filterMap PNode.constIdx?).foldl addNew u)[i]? = some c →
        st'.newConsts[i]? = consts[c]?) ∧
      st'.changed = (st.changed || (ns.filterMap PNode.constIdx?).any fun c =>
        c != ((ns.filterMap PNode.constIdx?).foldl addNew u).idxOf c) := by
  intro ns
  induction ns with
  | nil =>
    intro u st _ _ _ _ _ h5 h6
    exact ⟨st, rfl, by simp, by simpa using h5, by simpa using h6, by simp⟩
  | cons n ns ih =>
    intro u st h1 h2 h3 h4 h4' h5 h6
    cases n with
    | var f =>
      obtain ⟨st', e, a, b, c, d⟩ := ih u { st with nodes := st.nodes ++ [.var f] }
        (by simpa [List.filterMap_cons, PNode.constIdx?] using h1)
        (by simpa [List.filterMap_cons, PNode.constIdx?] using h2) h3 h4 h4' h5 h6
      refine ⟨st', ?_, ?_, ?_, ?_, ?_⟩
      · simpa [compressStep] using e
      · simp [List.filterMap_cons, PNode.constIdx?, a, PNode.mapConst]
      · simpa [List.filterMap_cons, PNode.constIdx?] using b
      · simpa [List.filterMap_cons, PNode.constIdx?] using c
      · simpa [List.filterMap_cons, PNode.constIdx?] using d
    | op ar o =>
      obtain ⟨st', e, a, b, c, d⟩ := ih u { st with nodes := st.nodes ++ [.op ar o] }
        (by simpa [List.filterMap_cons, PNode.constIdx?] using h1)
        (by simpa [List.filterMap_cons, PNode.constIdx?] using h2) h3 h4 h4' h5 h6
      refine ⟨st', ?_, ?_, ?_, ?_, ?_⟩
      · simpa [compressStep] using e
      · simp [List.filterMap_cons, PNode.constIdx?, a, PNode.mapConst]
      · simpa [List.filterMap_cons, PNode.constIdx?] using b
      · simpa [List.filterMap_cons, PNode.constIdx?] using c
      · simpa [List.filterMap_cons, PNode.constIdx?] using d
    | const idx =>
      have hfm : (PNode.const idx :: ns).filterMap PNode.constIdx?
          = idx :: ns.filterMap PNode.constIdx? := by
        simp [List.filterMap_cons, PNode.constIdx?]
      rw [hfm] at h1 h2 ⊢
      rw [List.foldl_cons] at h2 ⊢
      have hidx : idx < consts.length := h1 idx (by simp)
      obtain ⟨w, hw⟩ := foldl_addNew_prefix (ns.filterMap PNode.constIdx?) (addNew u idx)
      have hidxOf : ∀ c ∈ addNew u idx, ((ns.filterMap PNode.constIdx?).foldl addNew
          (addNew u idx)).idxOf c = (addNew u idx).idxOf c := by
        intro c hc
        rw [hw, List.idxOf_append_of_mem hc]
      by_cases hu : idx ∈ u
      · have hne : u.idxOf idx ≠ u16Max := by
          have h' := List.idxOf_lt_length_iff.mpr hu
          have h'' : (addNew u idx).length ≤ u16Max := by
            rw [hw] at h2; simp at h2; omega
          simp only [addNew, if_pos hu] at h''
          omega
        have hstep : compressStep consts st (.const idx) = some { st with
            changed := st.changed || (idx != u.idxOf idx), nodes := st.nodes ++ [.const (u.idxOf idx)] } := by
          simp only [compressStep, h4 idx hidx, if_pos hu, if_neg hne]
        have hadd : addNew u idx = u := by simp [addNew, hu]
        rw [hadd] at h2 hw hidxOf ⊢
        obtain ⟨st', e, a, b, c, d⟩ := ih u
          ( { st with
            changed := st.changed || (idx != u.idxOf idx), nodes := st.nodes ++ [.const (u.idxOf idx)] }) (fun c hc => h1 c (List.mem_cons_of_mem _ hc)) h2 h3 h4 h4' h5 h6
        refine ⟨st', ?_, ?_, b, c, ?_⟩
        · rw [List.foldlM_cons, hstep]; exact e
        · rw [a]; simp [PNode.mapConst, hidxOf idx hu]
        · rw [d]; simp [hidxOf idx hu, Bool.or_assoc]
      · have hlt : u.length < u16Max := by
          have h'' : (addNew u idx).length ≤ u16Max := by
            rw [hw] at h2; simp at h2; omega
          simp only [addNew, if_neg hu] at h''
          simp at h''; omega
        have hstep : compressStep consts st (.const idx) = some
            { remap := st.remap.set idx u.length
              newConsts := st.newConsts ++ [consts[idx]]
              changed := st.changed || (idx != u.length)
              nodes := st.nodes ++ [.const u.length] } := by
          simp only [compressStep, h4 idx hidx, if_neg hu, if_true, h5,
            List.getElem?_eq_getElem hidx]
          rw [if_neg (by omega)]
        have hadd : addNew u idx = u ++ [idx] := by simp [addNew, hu]
        have hi : (addNew u idx).idxOf idx = u.length := by
          rw [hadd, List.idxOf_append_of_notMem hu]; simp
        obtain ⟨st', e, a, b, c, d⟩ := ih (addNew u idx) 
          { remap := st.remap.set idx u.length
            newConsts := st.newConsts ++ [consts[idx]]
            changed := st.changed || (idx != u.length)
            nodes := st.nodes ++ [.const u.length] } (fun c hc => h1 c (List.mem_cons_of_mem _ hc)) h2
          (by simpa using h3)
          (by
            intro c hc
            simp only
            by_cases hce : c = idx
            · subst hce
              rw [List.getElem?_set_self (by omega), if_pos (by simp [hadd]), hi]
            · rw [List.getElem?_set_ne (by omega), h4 c hc, hadd]
              simp only [List.mem_append, List.mem_singleton, hce, or_false]
              by_cases hcu : c ∈ u
              · rw [if_pos hcu, if_pos hcu, List.idxOf_append_of_mem hcu]
              · rw [if_neg hcu, if_neg hcu])
          (by
            intro c hc
            rw [hadd] at hc
            simp only [List.mem_append, List.mem_singleton] at hc
            rcases hc with hc | rfl
            · exact h4' c hc
            · exact hidx)
          (by simp [hadd, h5])
          (by
            intro i c hc
            rw [hadd] at hc
            by_cases hil : i < u.length
            · rw [List.getElem?_append_left hil] at hc
              simp only
              rw [List.getElem?_append_left (by omega)]
              exact h6 i c hc
            · rw [List.getElem?_append_right (by omega)] at hc
              have : i = u.length := by
                refine Decidable.byContradiction fun hne => ?_
                rw [List.getElem?_eq_none (by simp; omega)] at hc; simp at hc
              subst this
              simp at hc
              subst hc
              simp only
              rw [List.getElem?_append_right (by omega)]
              simp [h5, List.getElem?_eq_getElem hidx])
        refine ⟨st', ?_, ?_, b, c, ?_⟩
        · rw [List.foldlM_cons, hstep]; exact e
        · rw [a]; simp [PNode.mapConst, hidxOf idx (by simp [hadd]), hi]
        · rw [d]; simp [hidxOf idx (by simp [hadd]), hi, Bool.or_assoc]

theorem mapM_isSome_iff {α β} {f : α → Option β} {l : List α} :
    (l.mapM f).isSome ↔ ∀ a ∈ l, (f a).isSome := by
  induction l with
  | nil => simp
  | cons a l ih =>
    rw [List.mapM_cons]
    cases h : f a with
    | none => simp [h]
    | some b =>
      cases h2 : l.mapM f with
      | none =>
        rw [h2] at ih
        simp only [Option.isSome_none, Bool.false_eq_true, false_iff] at ih
        simp only [Option.bind_eq_bind, Option.bind_some, Option.bind_none, Option.isSome_none,
          Bool.false_eq_true, false_iff]
        intro hh
        exact ih fun x hx => hh x (by simp [hx])
      | some bs =>
        rw [h2] at ih
        simp only [Option.isSome_some, true_iff] at ih
        simp only [Option.bind_eq_bind, Option.bind_some, Option.pure_def, Option.isSome_some, true_iff]
        intro x hx
        rcases List.mem_cons.mp hx with rfl | hx
        · simp [h]
        · exact ih x hx

/-- `compress_constants` on a serialised tree. -/
theorem compressConstants_eq [Scalar T] (t : Tree) (consts : List T)
    (h1 : ∀ c ∈ t.constIdxs, c < consts.length)
    (h2 : (firstUses t.constIdxs).length ≤ u16Max) :
    compressConstants ⟨t.toPostfix, consts⟩ = some
      (⟨(t.mapConst fun c => (firstUses t.constIdxs).idxOf c).toPostfix,
        (firstUses t.constIdxs).map (constAt consts)⟩,
       (t.constIdxs.any fun c => c != (firstUses t.constIdxs).idxOf c) ||
        ((firstUses t.constIdxs).length != consts.length)) := by
  have hcs := constIdxs_toPostfix t
  obtain ⟨st', e, a, b, c, d⟩ := compress_run consts t.toPostfix []
    { remap := List.replicate consts.length u16Max, newConsts := [], changed := false, nodes := [] }
    (by rw [hcs]; exact h1) (by rw [hcs]; exact h2) (by simp) (by intro c hc; simp [hc]) (by simp) rfl
    (by simp)
  rw [hcs] at a b c d
  change st'.newConsts.length = (firstUses t.constIdxs).length at b
  change ∀ (i c : ℕ), (firstUses t.constIdxs)[i]? = some c → st'.newConsts[i]? = consts[c]? at c
  have hn : st'.newConsts = (firstUses t.constIdxs).map (constAt consts) := by
    apply List.ext_getElem?
    intro i
    cases hi : (firstUses t.constIdxs)[i]? with
    | none =>
      have := List.getElem?_eq_none_iff.mp hi
      rw [List.getElem?_eq_none (by omega), List.getElem?_eq_none (by simp; omega)]
    | some x =>
      have hx : x < consts.length :=
        h1 x ((mem_firstUses _ _).mp (List.mem_of_getElem? hi))
      rw [c i x hi]
      simp [hi, constAt, List.getElem?_eq_getElem hx]
  simp only [compressConstants, e, Option.map_some, Option.some.injEq, Prod.mk.injEq,
    PostfixExpr.mk.injEq]
  refine ⟨⟨?_, hn⟩, ?_⟩
  · rw [a, toPostfix_mapConst]; rfl
  · rw [d, b]; rfl

/-- The compressed indices are canonical: numbered in order of first use. -/
theorem firstUses_map_idxOf (cs : List Nat) :
    firstUses (cs.map fun c => (firstUses cs).idxOf c) = List.range (firstUses cs).length := by
  have key : ∀ (cs u : List Nat) (v : List Nat), u.Nodup →
      (cs.foldl addNew u <+: v) → v.Nodup →
      (cs.map fun c => v.idxOf c).foldl addNew (List.range u.length)
        = List.range (cs.foldl addNew u).length := by
    intro cs
    induction cs with
    | nil => intro u v _ _ _; simp
    | cons c cs ih =>
      intro u v hu hpre hv
      rw [List.map_cons, List.foldl_cons, List.foldl_cons]
      rw [List.foldl_cons] at hpre
      obtain ⟨w, hw⟩ := foldl_addNew_prefix cs (addNew u c)
      have hp2 : addNew u c <+: v := by
        refine List.IsPrefix.trans ?_ hpre
        rw [hw]; exact List.prefix_append _ _
      obtain ⟨z, hz⟩ := hp2
      have hmem : c ∈ addNew u c := by by_cases h : c ∈ u <;> simp [addNew, h]
      have hidx : v.idxOf c = (addNew u c).idxOf c := by
        rw [← hz, List.idxOf_append_of_mem hmem]
      have hnd : (addNew u c).Nodup := by
        have := nodup_foldl_addNew [c] u hu
        simpa using this
      have : addNew (List.range u.length) (v.idxOf c) = List.range (addNew u c).length := by
        rw [hidx]
        by_cases h : c ∈ u
        · have h1 : addNew u c = u := by simp [addNew, h]
          rw [h1]
          have := List.idxOf_lt_length_iff.mpr h
          simp [addNew, this]
        · have h1 : addNew u c = u ++ [c] := by simp [addNew, h]
          have h2 : (addNew u c).idxOf c = u.length := by
            rw [h1, List.idxOf_append_of_notMem h]; simp
          rw [h2, h1]
          simp [addNew, List.range_succ]
      rw [this]
      exact ih (addNew u c) v hnd hpre hv
  have := key cs [] (firstUses cs) (by simp) (List.prefix_refl _) (firstUses_nodup cs)
  simpa [firstUses] using this

end SR
