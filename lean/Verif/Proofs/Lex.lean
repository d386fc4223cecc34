import Verif.Proofs.TreeParse
import Verif.Proofs.StrSem

/-! Lexical lemmas: white space, number tokens, strings. -/

namespace Verif.Njson
open Verif Verif.Spec

theorem isSpace_iff : ∀ c : UInt8, isSpace c = true ↔ (c = 0x20 ∨ c = 0x09 ∨ c = 0x0A ∨ c = 0x0D) :=
  forall_byte (by decide +kernel)
theorem isDigit_iff' : ∀ c : UInt8, isDigit c = true ↔ (48 ≤ c.toNat ∧ c.toNat ≤ 57) :=
  forall_byte (by decide +kernel)
theorem isDigit_iff (c : UInt8) : isDigit c = true ↔ IsDigitByte c := isDigit_iff' c
theorem isNumberEnd_iff : ∀ c : UInt8, isNumberEnd c = true ↔
    (c = 0x20 ∨ c = 0x09 ∨ c = 0x0A ∨ c = 0x0D ∨ c = 44 ∨ c = 93 ∨ c = 125) :=
  forall_byte (by decide +kernel)

/-! ### white space -/

theorem IsWs.nil : IsWs [] := by intro b hb; simp at hb
theorem IsWs.append {w w' : Bytes} (h : IsWs w) (h' : IsWs w') : IsWs (w ++ w') := by
  intro b hb
  rcases List.mem_append.1 hb with hb | hb
  · exact h b hb
  · exact h' b hb

theorem skipSpace_sound {pos : Nat} {s : Bytes} {pos' : Nat} {s' : Bytes} (h : skipSpace pos s = (pos', s')) :
    ∃ w, s = w ++ s' ∧ IsWs w ∧ pos' = pos + w.length ∧ ∀ c r, s' = c :: r → isSpace c = false := by
  induction s generalizing pos with
  | nil =>
    simp only [skipSpace, Prod.mk.injEq] at h
    obtain ⟨rfl, rfl⟩ := h
    exact ⟨[], rfl, IsWs.nil, by simp, by simp⟩
  | cons c r ih =>
    unfold skipSpace at h
    split at h
    · rename_i hc
      obtain ⟨w, rfl, hw, rfl, hs⟩ := ih h
      refine ⟨c :: w, rfl, ?_, by simp; omega, hs⟩
      intro b hb
      rcases List.mem_cons.1 hb with rfl | hb
      · exact (isSpace_iff _).1 hc
      · exact hw b hb
    · rename_i hc
      simp only [Prod.mk.injEq] at h
      obtain ⟨rfl, rfl⟩ := h
      refine ⟨[], rfl, IsWs.nil, by simp, ?_⟩
      intro c' r' he
      simp only [List.cons.injEq] at he
      obtain ⟨rfl, rfl⟩ := he
      simpa using hc

theorem skipSpace_stop {c : UInt8} {r : Bytes} {pos : Nat} (h : isSpace c = false) :
    skipSpace pos (c :: r) = (pos, c :: r) := by simp [skipSpace, h]

theorem skipSpace_ws {w : Bytes} (s : Bytes) (pos : Nat) (h : IsWs w) :
    skipSpace pos (w ++ s) = skipSpace (pos + w.length) s := by
  induction w generalizing pos with
  | nil => rfl
  | cons c w ih =>
    have hc : isSpace c = true := (isSpace_iff c).2 (h c (by simp))
    rw [List.cons_append, skipSpace, if_pos hc, ih _ (fun b hb => h b (by simp [hb]))]
    simp; congr 1; omega

theorem skipSpace_app {pos pos' : Nat} {s : Bytes} {c : UInt8} {r : Bytes} (h : skipSpace pos s = (pos', c :: r))
    (x : Bytes) : skipSpace pos (s ++ x) = (pos', c :: (r ++ x)) := by
  obtain ⟨w, rfl, hw, rfl, hs⟩ := skipSpace_sound h
  rw [List.append_assoc, skipSpace_ws _ _ hw]
  exact skipSpace_stop (hs c r rfl)

/-- what `skipSpace` returns on white space followed by a non-space byte -/
theorem skipSpace_at {w : Bytes} {c : UInt8} {r : Bytes} (pos : Nat) (hw : IsWs w) (hc : isSpace c = false) :
    skipSpace pos (w ++ c :: r) = (pos + w.length, c :: r) := by
  rw [skipSpace_ws _ _ hw, skipSpace_stop hc]

/-! ### numbers -/

theorem numberLen_sound (s : Bytes) : numberLen s ≤ s.length ∧ (∀ b ∈ s.take (numberLen s), ¬ NumberEnd b) ∧
    (s.drop (numberLen s) = [] ∨ ∃ b r, s.drop (numberLen s) = b :: r ∧ NumberEnd b) := by
  induction s with
  | nil => simp [numberLen]
  | cons c r ih =>
    unfold numberLen
    split
    · rename_i hc
      refine ⟨by simp, by simp, Or.inr ⟨c, r, rfl, (isNumberEnd_iff c).1 hc⟩⟩
    · rename_i hc
      obtain ⟨h1, h2, h3⟩ := ih
      refine ⟨by simp; omega, ?_, h3⟩
      intro b hb
      rw [List.take_succ_cons, List.mem_cons] at hb
      rcases hb with rfl | hb
      · intro hn; exact hc ((isNumberEnd_iff b).2 hn)
      · exact h2 b hb

theorem numberLen_complete {raw r : Bytes} (h : ∀ b ∈ raw, ¬ NumberEnd b)
    (hr : r = [] ∨ ∃ b r', r = b :: r' ∧ NumberEnd b) : numberLen (raw ++ r) = raw.length := by
  induction raw with
  | nil =>
    rcases hr with rfl | ⟨b, r', rfl, hb⟩
    · rfl
    · have := (isNumberEnd_iff b).2 hb
      simp [numberLen, this]
  | cons c raw ih =>
    have hc : isNumberEnd c = false := by
      cases he : isNumberEnd c
      · rfl
      · exact absurd ((isNumberEnd_iff c).1 he) (h c (by simp))
    rw [List.cons_append, numberLen, hc, ih (fun b hb => h b (by simp [hb]))]
    simp

/-! ### strings -/

theorem scanQuote_cons (c : UInt8) (r : Bytes) (i : Nat) : scanQuote (c :: r) i =
    if c = 34 then some i
    else if c = 92 then (match r with | [] => none | _ :: r' => scanQuote r' (i + 2))
    else scanQuote r (i + 1) := by
  cases r <;> simp [scanQuote]

theorem scanQuote_sound : ∀ (n : Nat) (s : Bytes) (i j : Nat), s.length ≤ n → scanQuote s i = some j →
    ∃ q r, s = q ++ 34 :: r ∧ EscBody q ∧ j = i + q.length
  | 0, s, i, j, hn, h => by
    have : s = [] := List.length_eq_zero_iff.1 (by omega)
    subst this; simp [scanQuote] at h
  | n + 1, [], i, j, hn, h => by simp [scanQuote] at h
  | n + 1, c :: r, i, j, hn, h => by
    rw [scanQuote_cons] at h
    split at h
    · rename_i hc; subst hc
      simp at h; subst h
      exact ⟨[], r, rfl, .nil, by simp⟩
    · rename_i hc
      split at h
      · rename_i hb; subst hb
        match r with
        | [] => simp at h
        | d :: r =>
          simp only at h
          obtain ⟨q, r, rfl, hq, rfl⟩ := scanQuote_sound n r _ _ (by simp at hn; omega) h
          exact ⟨92 :: d :: q, r, rfl, .esc d hq, by simp; omega⟩
      · rename_i hb
        obtain ⟨q, r, rfl, hq, rfl⟩ := scanQuote_sound n r _ _ (by simp at hn; omega) h
        exact ⟨c :: q, r, rfl, .plain hc hb hq, by simp; omega⟩

theorem scanQuote_complete {q : Bytes} (h : EscBody q) (r : Bytes) (i : Nat) :
    scanQuote (q ++ 34 :: r) i = some (i + q.length) := by
  induction h generalizing i with
  | nil => simp [scanQuote_cons]
  | plain h1 h2 _ ih => rw [List.cons_append, scanQuote_cons, if_neg h1, if_neg h2, ih]; simp; omega
  | esc c _ ih =>
    rw [List.cons_append, List.cons_append, scanQuote_cons, if_neg (by decide), if_pos rfl]
    simp only
    rw [ih]; simp; omega

/-- an unterminated string can be completed -/
theorem scanQuote_none : ∀ (n : Nat) (s : Bytes) (i : Nat), s.length ≤ n → scanQuote s i = none →
    ∃ x q, s ++ x = q ++ [34] ∧ EscBody q
  | 0, s, i, hn, h => by
    have : s = [] := List.length_eq_zero_iff.1 (by omega)
    subst this; exact ⟨[34], [], rfl, .nil⟩
  | n + 1, [], i, hn, h => ⟨[34], [], rfl, .nil⟩
  | n + 1, c :: r, i, hn, h => by
    rw [scanQuote_cons] at h
    split at h
    · simp at h
    · rename_i hc
      split at h
      · rename_i hb; subst hb
        match r with
        | [] => exact ⟨[34, 34], [92, 34], rfl, .esc 34 .nil⟩
        | d :: r =>
          simp only at h
          obtain ⟨x, q, he, hq⟩ := scanQuote_none n r _ (by simp at hn; omega) h
          exact ⟨x, 92 :: d :: q, by simp [he], .esc d hq⟩
      · rename_i hb
        obtain ⟨x, q, he, hq⟩ := scanQuote_none n r _ (by simp at hn; omega) h
        exact ⟨x, c :: q, by simp [he], .plain hc hb hq⟩

theorem indexByte_eq {p : Bytes} {c : UInt8} (r : Bytes) (h : c ∉ p) : StrJson.indexByte (p ++ c :: r) c = some p.length := by
  unfold StrJson.indexByte
  rw [List.findIdx?_append]
  have : List.findIdx? (fun x => x == c) p = none := by
    rw [List.findIdx?_eq_none_iff]
    intro x hx
    simp; rintro rfl; exact h hx
  rw [this]
  simp [List.findIdx?_cons]

theorem indexByte_split {s : Bytes} {c : UInt8} {i : Nat} (h : StrJson.indexByte s c = some i) :
    ∃ p r, s = p ++ c :: r ∧ c ∉ p ∧ p.length = i := by
  induction s generalizing i with
  | nil => simp [StrJson.indexByte] at h
  | cons d s ih =>
    unfold StrJson.indexByte at h ih
    rw [List.findIdx?_cons] at h
    split at h
    · rename_i hd
      simp at hd h
      subst hd h
      exact ⟨[], s, rfl, by simp, rfl⟩
    · rename_i hd
      simp at hd
      cases hs : List.findIdx? (fun x => x == c) s with
      | none => rw [hs] at h; simp at h
      | some k =>
        rw [hs] at h; simp at h
        obtain ⟨p, r, rfl, hp, rfl⟩ := ih hs
        exact ⟨d :: p, r, rfl, by simp [hp]; exact fun h => hd h.symm, by simp [h]⟩

theorem scanString_sound {s : Bytes} {j : Nat} (h : scanString s = some j) :
    ∃ raw r, s = raw ++ 34 :: r ∧ LenientStr raw ∧ j = raw.length := by
  unfold scanString at h
  cases hi : StrJson.indexByte s 34 with
  | none => rw [hi] at h; simp at h
  | some i =>
    obtain ⟨p, r, rfl, hp, rfl⟩ := indexByte_split hi
    rw [hi] at h
    rcases List.eq_nil_or_concat p with rfl | ⟨a, b, rfl⟩
    · simp at h; subst h
      exact ⟨[], r, rfl, Or.inl ⟨by simp, by simp⟩, rfl⟩
    · rw [List.concat_eq_append] at *
      rw [List.length_append] at h
      simp only [List.length_cons, List.length_nil] at h
      have hat : StrJson.at' (a ++ [b] ++ 34 :: r) a.length = b := by simp [StrJson.at']
      rw [hat] at h
      split at h
      · rename_i hb; subst hb
        have hd : (a ++ [92] ++ 34 :: r).drop (a.length + 2) = r := by
          rw [show a ++ [92] ++ 34 :: r = (a ++ [92, 34]) ++ r by simp]
          rw [List.drop_left' (by simp)]
        rw [hd] at h
        obtain ⟨q, r', rfl, hq, rfl⟩ := scanQuote_sound _ _ _ _ (Nat.le_refl _) h
        refine ⟨a ++ [92, 34] ++ q, r', by simp, Or.inr ⟨a, q, rfl, ?_, hq⟩, by simp; omega⟩
        intro hm; exact hp (by simp [hm])
      · rename_i hb
        simp at h; subst h
        refine ⟨a ++ [b], r, by simp, Or.inl ⟨hp, by simpa using hb⟩, by simp⟩

theorem scanString_complete {raw : Bytes} (h : LenientStr raw) (r : Bytes) :
    scanString (raw ++ 34 :: r) = some raw.length := by
  unfold scanString
  rcases h with ⟨h1, h2⟩ | ⟨p, q, rfl, hp, hq⟩
  · rw [indexByte_eq _ h1]
    rcases List.eq_nil_or_concat raw with rfl | ⟨a, b, rfl⟩
    · rfl
    · rw [List.concat_eq_append] at *
      rw [List.length_append]
      simp only [List.length_cons, List.length_nil]
      have hat : StrJson.at' (a ++ [b] ++ 34 :: r) a.length = b := by simp [StrJson.at']
      rw [hat, if_neg (by simpa using h2)]
  · have hp' : (34 : UInt8) ∉ p ++ [92] := by simp [hp]
    rw [show p ++ [92, 34] ++ q ++ 34 :: r = (p ++ [92]) ++ 34 :: (q ++ 34 :: r) by simp, indexByte_eq _ hp']
    rw [List.length_append]
    simp only [List.length_cons, List.length_nil]
    have hat : StrJson.at' (p ++ [92] ++ 34 :: (q ++ 34 :: r)) p.length = 92 := by simp [StrJson.at']
    rw [hat, if_pos rfl]
    have hd : (p ++ [92] ++ 34 :: (q ++ 34 :: r)).drop (p.length + 2) = q ++ 34 :: r := by
      rw [show p ++ [92] ++ 34 :: (q ++ 34 :: r) = (p ++ [92, 34]) ++ (q ++ 34 :: r) by simp]
      rw [List.drop_left' (by simp)]
    rw [hd, scanQuote_complete hq]
    simp; omega

theorem scanString_none {s : Bytes} (h : scanString s = none) : ∃ x raw, s ++ x = raw ++ [34] ∧ LenientStr raw := by
  unfold scanString at h
  cases hi : StrJson.indexByte s 34 with
  | none =>
    have hn : (34 : UInt8) ∉ s := fun hm => StrJson.indexByte_none hi 34 hm rfl
    by_cases hl : s.getLast? = some 92
    · rcases List.eq_nil_or_concat s with rfl | ⟨a, b, rfl⟩
      · simp at hl
      · rw [List.concat_eq_append] at *
        simp at hl; subst hl
        exact ⟨[34, 34], a ++ [92, 34] ++ [], by simp, Or.inr ⟨a, [], rfl, fun hm => hn (by simp [hm]), .nil⟩⟩
    · exact ⟨[34], s, rfl, Or.inl ⟨hn, hl⟩⟩
  | some i =>
    obtain ⟨p, r, rfl, hp, rfl⟩ := indexByte_split hi
    rw [hi] at h
    rcases List.eq_nil_or_concat p with rfl | ⟨a, b, rfl⟩
    · simp at h
    · rw [List.concat_eq_append] at *
      rw [List.length_append] at h
      simp only [List.length_cons, List.length_nil] at h
      have hat : StrJson.at' (a ++ [b] ++ 34 :: r) a.length = b := by simp [StrJson.at']
      rw [hat] at h
      split at h
      · rename_i hb; subst hb
        have hd : (a ++ [92] ++ 34 :: r).drop (a.length + 2) = r := by
          rw [show a ++ [92] ++ 34 :: r = (a ++ [92, 34]) ++ r by simp]
          rw [List.drop_left' (by simp)]
        rw [hd] at h
        obtain ⟨x, q, he, hq⟩ := scanQuote_none _ _ _ (Nat.le_refl _) h
        refine ⟨x, a ++ [92, 34] ++ q, by simp [he], Or.inr ⟨a, q, rfl, ?_, hq⟩⟩
        intro hm; exact hp (by simp [hm])
      · simp at h

end Verif.Njson
