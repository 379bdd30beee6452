import Verif.Props.PageOptions
/-
C86: when the page and the session read the header switch alike.
-/
namespace SR

/-- C86: the page takes the first line as data exactly when the header switch is missing, null, false, zero, not a number or the empty text. -/
theorem C86_header_truth (o : JsObj) : o.pageHasHeaders = false ↔
    o.lookup "has_headers" = none ∨ o.lookup "has_headers" = some .null ∨ o.lookup "has_headers" = some (.bool false) ∨
      o.lookup "has_headers" = some (.num (.fin 0)) ∨ o.lookup "has_headers" = some (.num .nan) ∨
      o.lookup "has_headers" = some (.text []) := by
  unfold JsObj.pageHasHeaders
  cases o.lookup "has_headers" with
  | none => simp [jsBoolean]
  | some v => rcases v with v | b | s | _ | l | l
              · cases v <;> simp [jsBoolean]
              · simp [jsBoolean]
              · cases s <;> simp [jsBoolean]
              all_goals simp [jsBoolean]

/-- C86: the page and the session it starts agree on whether the first line is a heading exactly when the options suit the session and have the
switch, or when they do not suit (the session then uses its defaults) and the page takes the first line as a heading. -/
theorem C86_header_agree (o : JsObj) : o.pageHasHeaders = (JsObj.columns (effective o)).hasHeaders ↔
    (AllSuit o ∧ o.lookup "has_headers" ≠ none) ∨ (¬ AllSuit o ∧ o.pageHasHeaders = true) := by
  by_cases ho : AllSuit o
  · have he : effective o = o := by unfold effective; rw [if_pos ((C86_readable o).mpr ho)]
    rw [he]
    have hf := shows_flag o "has_headers" true
    have hc : o.columns.hasHeaders = o.flag "has_headers" true := rfl
    rw [hc]
    cases hl : o.lookup "has_headers" with
    | none =>
      rw [hf.1 hl]
      simp [JsObj.pageHasHeaders, hl, jsBoolean, ho]
    | some v =>
      have hs := ho "has_headers" .flag (by simp [webFields]) v hl
      cases hs with
      | flag =>
        rw [hf.2 _ hl]
        simp [JsObj.pageHasHeaders, hl, jsBoolean, ho]
  · have he : effective o = [] := by
      unfold effective
      rw [if_neg]
      rw [C86_readable]; exact ho
    rw [he]
    have : (JsObj.columns []).hasHeaders = true := rfl
    rw [this]
    simp [ho]

/-- Both kinds of options occur. -/
example : JsObj.pageHasHeaders [("has_headers", .bool false)] = (JsObj.columns (effective [("has_headers", .bool false)])).hasHeaders ∧
    JsObj.pageHasHeaders [("has_headers", .num (.fin 1))] = true ∧
    JsObj.pageHasHeaders [("has_headers", .num (.fin 0))] ≠ (JsObj.columns (effective [("has_headers", .num (.fin 0))])).hasHeaders := by
  refine ⟨by decide +kernel, by decide +kernel, by decide +kernel⟩

end SR
