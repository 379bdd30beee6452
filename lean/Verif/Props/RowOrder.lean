import Verif.Props.AccuracyMore
/-
C97: what the order of the rows can change in `f64`.
-/
namespace SR

theorem meanSquare_perm {rows rows' : List (ℚ × ℚ)} (h : rows.Perm rows') :
    meanSquare (rows.map Prod.fst) (rows.map Prod.snd) = meanSquare (rows'.map Prod.fst) (rows'.map Prod.snd) := by
  unfold meanSquare residuals
  rw [List.zipWith_map, List.zipWith_map, List.zipWith_self, List.zipWith_self, List.length_map, List.length_map, h.length_eq,
    ((h.map fun x => x.1 - x.2).map fun r => r ^ 2).sum_eq]

/-- C97: the order of the rows changes a mean squared error in `f64` by at most twice the bound: two finite losses of the same rows in
different orders differ by at most `2 (n + 4) / 2 ^ 52` times the exact mean. -/
theorem C97_row_order64 (lib : LossLib ℚ) {rows rows' : List (ℚ × ℚ)} (h : rows.Perm rows') (hne : rows ≠ [])
    (hn : rows.length + 4 ≤ 2 ^ 52) (hr : ∀ x ∈ rows, x.1 = x.2 ∨ pow2 (-484) ≤ |x.1 - x.2|) (l l' : ℚ)
    (hl : (LossKind.mean .squared).loss binary64 lib ((rows.map Prod.fst).map .fin) ((rows.map Prod.snd).map .fin) none = some (.fin l))
    (hl' : (LossKind.mean .squared).loss binary64 lib ((rows'.map Prod.fst).map .fin) ((rows'.map Prod.snd).map .fin) none = some (.fin l')) :
    |l - l'| ≤ 2 * (rows.length + 4 : Nat) * pow2 (-52) * meanSquare (rows.map Prod.fst) (rows.map Prod.snd) := by
  have res : ∀ rs : List (ℚ × ℚ), (∀ x ∈ rs, x.1 = x.2 ∨ pow2 (-484) ≤ |x.1 - x.2|) →
      Resolved (pow2 (-484)) (rs.map Prod.fst) (rs.map Prod.snd) := by
    intro rs hrs r hx
    unfold residuals at hx
    rw [List.zipWith_map, List.zipWith_self] at hx
    obtain ⟨x, hm, rfl⟩ := List.mem_map.mp hx
    rcases hrs x hm with e | e
    · exact .inl (sub_eq_zero.mpr e)
    · exact .inr e
  have hne' : rows' ≠ [] := fun e => hne (by rw [e] at h; exact List.perm_nil.mp h)
  have h1 := abs_le.mp (C97_mse64 lib _ _ (by simp) (by simpa using hne) (by simpa using hn) (res rows hr) l hl)
  have h2 := abs_le.mp (C97_mse64 lib _ _ (by simp) (by simpa using hne') (by simpa [← h.length_eq] using hn)
    (res rows' fun x hx => hr x (h.mem_iff.mpr hx)) l' hl')
  rw [← meanSquare_perm h] at h2
  simp only [List.length_map, ← h.length_eq] at h1 h2
  rw [abs_le]
  constructor <;> linarith [h1.1, h1.2, h2.1, h2.2]

/-- C97, the exception: it can change it, in `f64` the order of three rows does. -/
theorem C97_row_order_counts (lib : LossLib ℚ) :
    (LossKind.mean .squared).loss binary64 lib [.fin 134217728, .fin (3 / 2), .fin (3 / 2)] [.fin 0, .fin 0, .fin 0] none ≠
    (LossKind.mean .squared).loss binary64 lib [.fin (3 / 2), .fin (3 / 2), .fin 134217728] [.fin 0, .fin 0, .fin 0] none := by
  have h : (meanLoss binary64 (PointLoss.squared.loss binary64 (⟨id, id, id, fun a _ => a, id⟩ : LossLib ℚ)) [.fin 134217728, .fin (3 / 2), .fin (3 / 2)] [.fin 0, .fin 0, .fin 0] none) ≠
    (meanLoss binary64 (PointLoss.squared.loss binary64 (⟨id, id, id, fun a _ => a, id⟩ : LossLib ℚ)) [.fin (3 / 2), .fin (3 / 2), .fin 134217728] [.fin 0, .fin 0, .fin 0] none) := by decide +kernel
  exact h

end SR
