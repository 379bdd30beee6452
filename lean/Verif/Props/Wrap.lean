import Verif.Model.Progress
import Mathlib.Tactic.Linarith
/-
C54: wrapped output.
-/
namespace SR

theorem utf8_pos (c : Char) : 1 ≤ c.utf8Size ∧ c.utf8Size ≤ 4 := ⟨c.utf8Size_pos, c.utf8Size_le_four⟩

theorem byteLen_nil : byteLen [] = 0 := rfl
theorem byteLen_cons (c : Char) (s : List Char) : byteLen (c :: s) = c.utf8Size + byteLen s := rfl
theorem byteLen_append (a b : List Char) : byteLen (a ++ b) = byteLen a + byteLen b := by simp [byteLen]

theorem length_le_byteLen (s : List Char) : s.length ≤ byteLen s := by
  induction s with
  | nil => simp
  | cons c s ih => rw [byteLen_cons, List.length_cons]; have := (utf8_pos c).1; omega

/-- A boundary is the byte length of a prefix. -/
theorem isBoundary_iff (s : List Char) (k : Nat) : isBoundary s k = true ↔ ∃ a b, s = a ++ b ∧ byteLen a = k := by
  induction s generalizing k with
  | nil =>
    cases k with
    | zero => exact ⟨fun _ => ⟨[], [], rfl, rfl⟩, fun _ => rfl⟩
    | succ k =>
      simp only [isBoundary, Bool.false_eq_true, false_iff]
      rintro ⟨a, b, h, hk⟩
      have : a = [] := (List.append_eq_nil_iff.mp h.symm).1
      rw [this] at hk
      cases hk
  | cons c s ih =>
    cases k with
    | zero => exact ⟨fun _ => ⟨[], c :: s, rfl, rfl⟩, fun _ => rfl⟩
    | succ k =>
      simp only [isBoundary, Bool.and_eq_true, decide_eq_true_eq, ih]
      constructor
      · rintro ⟨h1, a, b, rfl, h2⟩
        exact ⟨c :: a, b, rfl, by rw [byteLen_cons]; omega⟩
      · rintro ⟨a, b, h, hk⟩
        cases a with
        | nil => cases hk
        | cons c' a =>
          simp only [List.cons_append, List.cons.injEq] at h
          obtain ⟨rfl, rfl⟩ := h
          rw [byteLen_cons] at hk
          exact ⟨by omega, a, b, rfl, by omega⟩

theorem takeBytes_append (a b : List Char) : takeBytes (a ++ b) (byteLen a) = some a := by
  induction a with
  | nil => cases b <;> rfl
  | cons c a ih =>
    rw [byteLen_cons]
    obtain ⟨n, hn⟩ : ∃ n, c.utf8Size + byteLen a = n + 1 := ⟨c.utf8Size + byteLen a - 1, by have := (utf8_pos c).1; omega⟩
    rw [hn, List.cons_append, takeBytes, ← hn, if_pos (by omega), show c.utf8Size + byteLen a - c.utf8Size = byteLen a by omega,
      ih]
    rfl

theorem dropBytes_append (a b : List Char) : dropBytes (a ++ b) (byteLen a) = some b := by
  induction a with
  | nil => cases b <;> rfl
  | cons c a ih =>
    rw [byteLen_cons]
    obtain ⟨n, hn⟩ : ∃ n, c.utf8Size + byteLen a = n + 1 := ⟨c.utf8Size + byteLen a - 1, by have := (utf8_pos c).1; omega⟩
    rw [hn, List.cons_append, dropBytes, ← hn, if_pos (by omega), show c.utf8Size + byteLen a - c.utf8Size = byteLen a by omega,
      ih]

theorem sliceBytes_append (a b c : List Char) :
    sliceBytes (a ++ b ++ c) (byteLen a) (byteLen a + byteLen b) = some b := by
  unfold sliceBytes
  rw [if_pos (by omega), ← byteLen_append, takeBytes_append, Option.bind_some, dropBytes_append]

/-- The boundary found is the greatest one that is at least `start`. -/
theorem boundaryBelow_spec (s : List Char) (start e : Nat) (hs : start ≤ e) (hb : isBoundary s start = true) :
    isBoundary s (boundaryBelow s start e) = true ∧ start ≤ boundaryBelow s start e ∧
      ∀ k, boundaryBelow s start e < k → k ≤ e → isBoundary s k = false := by
  induction e with
  | zero => exact ⟨by simp [boundaryBelow, isBoundary], by omega, fun k h1 h2 => by omega⟩
  | succ e ih =>
    unfold boundaryBelow
    split
    · next h =>
      obtain ⟨h1, h2, h3⟩ := ih (by omega)
      refine ⟨h1, h2, fun k k1 k2 => ?_⟩
      by_cases hk : k = e + 1
      · rw [hk]; exact h.2
      · exact h3 k k1 (by omega)
    · next h =>
      refine ⟨?_, hs, fun k k1 k2 => by omega⟩
      by_cases hlt : start < e + 1
      · cases hx : isBoundary s (e + 1) with
        | true => rfl
        | false => exact absurd ⟨hlt, hx⟩ h
      · rw [← show start = e + 1 by omega]; exact hb

/-- The lines shown for the chunks: all but the last are followed by dots. -/
def withDots : List (List Char) → List (List Char)
  | [] => []
  | [c] => [c]
  | c :: cs => (c ++ ['.', '.', '.']) :: withDots cs

/-- Chunks of a text: nothing is lost, no chunk is empty or longer than `avail` bytes, and each but the last is so
long that not even every character fits after it (greedy). -/
structure Chunks (s : List Char) (avail : Nat) (cs : List (List Char)) : Prop where
  complete : cs.flatten = s
  nonempty : ∀ c ∈ cs, c ≠ []
  fits : ∀ c ∈ cs, byteLen c ≤ avail
  full : ∀ c ∈ cs.dropLast, avail < byteLen c + 4

theorem wrapLoop_spec (s : List Char) (avail : Nat) (ha : 4 ≤ avail) :
    ∀ (n : Nat) (a b : List Char), b.length ≤ n → s = a ++ b →
      ∃ cs, wrapLoop s avail (byteLen a) = some (withDots cs) ∧ Chunks b avail cs := by
  intro n
  induction n with
  | zero =>
    intro a b hb hs
    have : b = [] := List.length_eq_zero_iff.mp (by omega)
    subst this
    rw [List.append_nil] at hs
    subst hs
    refine ⟨[], ?_, ⟨rfl, by simp, by simp, by simp⟩⟩
    rw [wrapLoop, dif_neg (by omega)]
    rfl
  | succ n ih =>
    intro a b hb hs
    cases b with
    | nil =>
      rw [List.append_nil] at hs
      subst hs
      refine ⟨[], ?_, ⟨rfl, by simp, by simp, by simp⟩⟩
      rw [wrapLoop, dif_neg (by omega)]
      rfl
    | cons x b =>
      have hlen : byteLen s = byteLen a + (x.utf8Size + byteLen b) := by rw [hs, byteLen_append, byteLen_cons]
      have hx := utf8_pos x
      have hlt : byteLen a < byteLen s := by omega
      have hba : isBoundary s (byteLen a) = true := (isBoundary_iff _ _).mpr ⟨a, x :: b, hs, rfl⟩
      obtain ⟨h1, h2, h3⟩ := boundaryBelow_spec s (byteLen a) (min (byteLen a + avail) (byteLen s)) (by omega) hba
      have h4 := boundaryBelow_le s (byteLen a) (min (byteLen a + avail) (byteLen s))
      generalize hstop : boundaryBelow s (byteLen a) (min (byteLen a + avail) (byteLen s)) = stop at h1 h2 h3 h4
      -- the first character fits, so the boundary is beyond `start`
      have hfirst : isBoundary s (byteLen a + x.utf8Size) = true :=
        (isBoundary_iff _ _).mpr ⟨a ++ [x], b, by rw [hs]; simp, by rw [byteLen_append, byteLen_cons, byteLen_nil]; omega⟩
      have hgt : byteLen a < stop := by
        by_contra hle
        have := h3 (byteLen a + x.utf8Size) (by omega) (by omega)
        rw [hfirst] at this
        cases this
      obtain ⟨p, q, hpq, hp⟩ := (isBoundary_iff _ _).mp h1
      -- the prefix extends `a`
      have hpre : ∃ c, c ≠ [] ∧ p = a ++ c ∧ x :: b = c ++ q := by
        rw [hs] at hpq
        rcases List.append_eq_append_iff.mp hpq with ⟨c, rfl, h⟩ | ⟨c, rfl, h⟩
        · refine ⟨c, ?_, rfl, h⟩
          rintro rfl
          rw [List.append_nil] at hp
          omega
        · rw [byteLen_append] at hgt
          omega
      obtain ⟨c, hc, rfl, hxb⟩ := hpre
      have hs' : s = a ++ c ++ q := by rw [hs, hxb, List.append_assoc]
      have hcl : byteLen c = stop - byteLen a := by rw [byteLen_append] at hp; omega
      obtain ⟨cs, e, hcs⟩ := ih (a ++ c) q (by
        have := congrArg List.length hxb
        rw [List.length_cons, List.length_append] at this
        have := List.length_pos_iff.mpr hc
        simp only [List.length_cons] at hb
        omega) hs'
      rw [hp] at e
      have hslice : sliceBytes s (byteLen a) stop = some c := by
        have := sliceBytes_append a c q
        rw [← hs', ← byteLen_append, hp] at this
        exact this
      have hq : stop < byteLen s ↔ cs ≠ [] := by
        rw [hs', byteLen_append, hp, ← hcs.complete]
        constructor
        · rintro h rfl
          simp [byteLen_nil] at h
        · intro h
          obtain ⟨y, ys, rfl⟩ := List.exists_cons_of_ne_nil h
          have := hcs.nonempty y (by simp)
          have := List.length_pos_iff.mpr this
          have := length_le_byteLen y
          rw [List.flatten_cons, byteLen_append]
          omega
      refine ⟨c :: cs, ?_, ⟨?_, ?_, ?_, ?_⟩⟩
      · rw [wrapLoop, dif_pos hlt]
        simp only [hstop]
        rw [dif_neg (by omega), hslice, e]
        simp only [Option.bind_eq_bind, Option.bind_some, Option.some.injEq, addDots]
        by_cases hne : cs = []
        · rw [if_neg (fun h => (hq.mp h) hne), hne]; rfl
        · rw [if_pos (hq.mpr hne)]
          obtain ⟨y, ys, rfl⟩ := List.exists_cons_of_ne_nil hne
          rfl
      · rw [List.flatten_cons, hcs.complete, hxb]
      · intro y hy
        rcases List.mem_cons.mp hy with rfl | hy
        · exact hc
        · exact hcs.nonempty y hy
      · intro y hy
        rcases List.mem_cons.mp hy with rfl | hy
        · omega
        · exact hcs.fits y hy
      · intro y hy
        cases hcs0 : cs with
        | nil => rw [hcs0] at hy; simp at hy
        | cons z zs =>
          rw [hcs0, List.dropLast_cons_of_ne_nil (by simp), List.mem_cons] at hy
          rcases hy with rfl | hy
          · -- the next character would have fitted otherwise
            by_contra hle
            have hqne : q ≠ [] := by
              rintro rfl
              have := hcs.complete
              rw [hcs0] at this
              exact hcs.nonempty z (by rw [hcs0]; simp) (List.flatten_eq_nil_iff.mp this z (by simp))
            obtain ⟨w, q', rfl⟩ := List.exists_cons_of_ne_nil hqne
            have hw := utf8_pos w
            have hlen' : byteLen s = stop + (w.utf8Size + byteLen q') := by
              rw [hs', byteLen_append, hp, byteLen_cons]
            have hnext : isBoundary s (stop + w.utf8Size) = true :=
              (isBoundary_iff _ _).mpr ⟨a ++ y ++ [w], q', by rw [hs']; simp,
                by rw [byteLen_append, hp, byteLen_cons, byteLen_nil]; omega⟩
            have := h3 (stop + w.utf8Size) (by omega) (by omega)
            rw [hnext] at this
            cases this
          · exact hcs.full y (by rw [hcs0]; exact hy)

/-- C54: wrapping never panics, and the lines are the text cut into pieces, all but the last followed by dots: no
character is lost or added, no piece is empty, and every piece has at most `max(width - 1 - left - 3, 10)` bytes, the
most that fit being used. -/
theorem C54_wrap (s : List Char) (width left : Nat) :
    ∃ cs, wrapEquation s width left = some (withDots cs) ∧ Chunks s (max (width - 1 - left - 3) 10) cs :=
  wrapLoop_spec s _ (by unfold wrapAvail; omega) s.length [] s (Nat.le_refl _) rfl

theorem mem_withDots {cs : List (List Char)} {l : List Char} (h : l ∈ withDots cs) :
    ∃ c ∈ cs, l = c ∨ l = c ++ ['.', '.', '.'] := by
  induction cs with
  | nil => simp [withDots] at h
  | cons c cs ih =>
    cases cs with
    | nil =>
      simp only [withDots, List.mem_singleton] at h
      exact ⟨c, by simp, .inl h⟩
    | cons c' cs =>
      rw [withDots, List.mem_cons] at h
      · rcases h with h | h
        · exact ⟨c, by simp, .inr h⟩
        · obtain ⟨x, hx, h⟩ := ih h
          exact ⟨x, by simp [hx], h⟩
      · simp

/-- The lines of a row: the left columns (blank from the second line on) before each line of the wrapped equation. -/
def layout (stats : List Char) : List (List Char) → List (List Char)
  | [] => [stats]
  | first :: rest => (stats ++ first) :: rest.map (List.replicate stats.length ' ' ++ ·)

/-- C54: if the left columns leave room for ten characters and the dots, the row of an equation shows it completely:
truncation to the width removes nothing, and every line is shorter than the width. -/
theorem C54_row (width : Nat) (stats eqn : List Char) (h : stats.length + 14 ≤ width) :
    ∃ cs, rowLines width stats eqn = some (layout stats (withDots cs)) ∧ cs.flatten = eqn ∧
      ∀ l ∈ layout stats (withDots cs), l.length < width := by
  obtain ⟨cs, e, hc⟩ := C54_wrap eqn width stats.length
  have hline : ∀ l ∈ withDots cs, stats.length + l.length ≤ width - 1 := by
    intro l hl
    obtain ⟨c, hm, hx⟩ := mem_withDots hl
    have h1 := hc.fits c hm
    have h2 := length_le_byteLen c
    rcases hx with rfl | rfl
    · omega
    · simp only [List.length_append, List.length_cons, List.length_nil]; omega
  have htr : ∀ x : List Char, x.length ≤ width - 1 → truncateToWidth x width = x := fun x hx => by
    rw [truncateToWidth, if_pos hx]
  refine ⟨cs, ?_, hc.complete, ?_⟩
  · unfold rowLines
    rw [e, Option.map_some]
    congr 1
    generalize withDots cs = ls at hline
    cases ls with
    | nil => simp only [layout]; rw [htr _ (by omega)]
    | cons first rest =>
      simp only [layout]
      rw [htr _ (by rw [List.length_append]; exact hline first (by simp))]
      congr 1
      refine List.map_congr_left fun l hl => htr _ ?_
      rw [List.length_append, List.length_replicate]
      exact hline l (by simp [hl])
  · intro l hl
    generalize withDots cs = ls at hline hl
    cases ls with
    | nil =>
      simp only [layout, List.mem_singleton] at hl
      rw [hl]; omega
    | cons first rest =>
      simp only [layout, List.mem_cons, List.mem_map] at hl
      rcases hl with rfl | ⟨x, hx, rfl⟩
      · have := hline first (by simp)
        rw [List.length_append]; omega
      · have := hline x (by simp [hx])
        rw [List.length_append, List.length_replicate]; omega

/-- C54: whatever the width and the left columns, printing the row does not panic, and each printed line is the line of
the complete row cut to `width - 1` characters. -/
theorem C54_row_cut (width : Nat) (stats eqn : List Char) :
    ∃ cs, rowLines width stats eqn = some ((layout stats (withDots cs)).map (List.take (width - 1))) ∧ cs.flatten = eqn ∧
      ∀ l ∈ (layout stats (withDots cs)).map (List.take (width - 1)), l.length ≤ width - 1 := by
  obtain ⟨cs, e, hc⟩ := C54_wrap eqn width stats.length
  have htr : ∀ x : List Char, truncateToWidth x width = x.take (width - 1) := fun x => by
    rw [truncateToWidth]
    split
    · next h => rw [List.take_of_length_le h]
    · rfl
  refine ⟨cs, ?_, hc.complete, ?_⟩
  · unfold rowLines
    rw [e, Option.map_some]
    cases withDots cs with
    | nil => simp only [layout, htr, List.map_cons, List.map_nil]
    | cons first rest => simp only [layout, htr, List.map_cons, List.map_map]; rfl
  · intro l hl
    obtain ⟨x, -, rfl⟩ := List.mem_map.mp hl
    rw [List.length_take]; omega

/-- A line that is cut. -/
example : rowLines 12 "0123456789".toList "abc".toList = some ["0123456789a".toList] := by decide +kernel

theorem toString_length_le (n : Nat) (k : Nat) (hk : 0 < k) (h : n < 10 ^ k) : (toString n).toList.length ≤ k := by
  have : (toString n).toList.length = (Nat.toDigits 10 n).length := by
    simp [toString, Nat.repr]
  rw [this]
  exact (Nat.length_toDigits_le_iff (by omega) hk).mpr h

theorem statsText_length (c : Nat) (loss : List Char) (hc : c ≤ usizeMax) (hl : loss.length ≤ 11) :
    (statsText c loss).length ≤ 35 := by
  have h1 := toString_length_le c 20 (by omega) (by unfold usizeMax at hc; omega)
  unfold statsText padRight10
  simp only [List.length_append, List.length_replicate, List.length_cons, List.length_nil]
  omega

/-- C54: the table of the hall of fame, for every terminal width and every list of members (`usize::MAX` entries are asked for) (whose loss is written with
at most 11 characters, as `{:.3e}` does): printing does not panic; the table is the border, the header, the rows of
the members in order, and the border; every row shows its equation completely; and no line reaches the width (at
least 80). -/
theorem C54_table (terminalWidth : Nat) (rows : List (Nat × List Char × List Char))
    (hlen : rows.length ≤ usizeMax) (hrows : ∀ r ∈ rows, r.1 ≤ usizeMax ∧ r.2.1.length ≤ 11) :
    ∃ (chunks : List (List (List Char))) (out : List (List Char)),
      formatHall terminalWidth usizeMax rows = some out ∧
      chunks.map List.flatten = rows.map (·.2.2) ∧
      out = List.replicate (max terminalWidth 80 - 1) '─' ::
        "Complexity  Loss        Equation".toList ::
        ((List.zipWith (fun r cs => layout (statsText r.1 r.2.1) (withDots cs)) rows chunks).flatten ++
          [List.replicate (max terminalWidth 80 - 1) '─']) ∧
      ∀ l ∈ out, l.length < max terminalWidth 80 := by
  have key : ∃ chunks : List (List (List Char)),
      (rows).mapM (fun r => rowLines (max terminalWidth 80) (statsText r.1 r.2.1) r.2.2) =
        some (List.zipWith (fun r cs => layout (statsText r.1 r.2.1) (withDots cs)) rows chunks) ∧
      chunks.map List.flatten = rows.map (·.2.2) ∧
      ∀ ls ∈ List.zipWith (fun r cs => layout (statsText r.1 r.2.1) (withDots cs)) rows chunks, ∀ l ∈ ls,
        l.length < max terminalWidth 80 := by
    clear hlen
    induction rows with
    | nil => exact ⟨[], rfl, rfl, by simp⟩
    | cons r rows ih =>
      obtain ⟨cs, h1, h2, h3⟩ := ih fun x hx => hrows x (by simp [hx])
      obtain ⟨c, e1, e2, e3⟩ := C54_row (max terminalWidth 80) (statsText r.1 r.2.1) r.2.2 (by
        have := statsText_length r.1 r.2.1 (hrows r (by simp)).1 (hrows r (by simp)).2
        omega)
      refine ⟨c :: cs, ?_, ?_, ?_⟩
      · rw [List.mapM_cons, e1, h1]; rfl
      · rw [List.map_cons, List.map_cons, e2, h2]
      · intro ls hls
        rw [List.zipWith_cons_cons, List.mem_cons] at hls
        rcases hls with rfl | hls
        · exact e3
        · exact h3 ls hls
  obtain ⟨chunks, h1, h2, h3⟩ := key
  refine ⟨chunks, _, ?_, h2, rfl, ?_⟩
  · unfold formatHall
    rw [List.take_of_length_le hlen]
    simp only [h1, Option.bind_eq_bind, Option.bind_some, Option.some.injEq, List.cons.injEq, true_and, and_true]
    have : padRight10 "Complexity".toList ++ [' ', ' '] ++ padRight10 "Loss".toList ++ [' ', ' '] ++ "Equation".toList =
        "Complexity  Loss        Equation".toList := by decide
    rw [this, truncateToWidth, if_pos]
    have : "Complexity  Loss        Equation".toList.length = 32 := by decide
    omega
  · intro l hl
    rcases List.mem_cons.mp hl with rfl | hl
    · rw [List.length_replicate]; omega
    rcases List.mem_cons.mp hl with rfl | hl
    · have : "Complexity  Loss        Equation".toList.length = 32 := by decide
      omega
    rcases List.mem_append.mp hl with hl | hl
    · obtain ⟨ls, hls, hl⟩ := List.mem_flatten.mp hl
      exact h3 ls hls l hl
    · rw [List.mem_singleton.mp hl, List.length_replicate]; omega

/-- A concrete table: the equation is wrapped into three lines. -/
example : (formatHall 0 usizeMax [(17, "1.234e-1".toList, (List.replicate 120 'x'))]).map (·.map List.length) =
    some [79, 32, 79, 79, 40, 79] := by decide +kernel

/-- A wrap inside a non-ASCII text does not cut a character. -/
example : wrapEquation "ααααααα".toList 0 0 = some ["ααααα...".toList, "αα".toList] := by decide +kernel

end SR
