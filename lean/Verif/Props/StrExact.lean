import Verif.Proofs.StrExact

/-!
# C112, C113: what `Escaped` and `Unescaped` return for every byte string
-/

namespace Verif.Props
open Verif Verif.Spec Verif.StrJson

/-! ## C112 -/

/-- **C112**: `Escaped` returns exactly the text that `Escapes` describes: characters that need no escape unchanged,
two-character escapes where there is one, `\uXXXX` in lower case for the rest, `\ufffd` for bytes that start no
character. -/
theorem C112_escaped (s : Bytes) (html : Bool) (t : Bytes) : escaped s html false = t ↔ Escapes html s t := by
  rw [escaped_eq, escapes_iff]

/-- Text in which every character may stay is returned unchanged, and no other text is. -/
theorem C112_unchanged (s : Bytes) (html : Bool) :
    escaped s html false = s ↔ ∃ cs : List Char, s = cs.flatMap enc ∧ ∀ c ∈ cs, Kept html c := by
  constructor
  · intro h
    have hE := (C112_escaped s html s).1 h
    have key : ∀ {s t : Bytes}, Escapes html s t → s.length ≤ t.length ∧
        (t.length ≤ s.length → ∃ cs : List Char, s = cs.flatMap enc ∧ ∀ c ∈ cs, Kept html c) := by
      intro s t h
      induction h with
      | nil => exact ⟨by simp, fun _ => ⟨[], by simp, by simp⟩⟩
      | @kept c s t hk _ ih =>
        refine ⟨by have := ih.1; simp; omega, fun hl => ?_⟩
        obtain ⟨cs, h1, h2⟩ := ih.2 (by simp at hl; omega)
        exact ⟨c :: cs, by simp [h1], by simpa using ⟨hk, h2⟩⟩
      | short he _ ih =>
        refine ⟨by have := ih.1; simp; omega, fun hl => ?_⟩
        have := ih.1
        simp at hl
        omega
      | hex c hk hs _ ih =>
        have hl4 : (enc c).length ≤ 4 := by rw [← encodeRune_char]; exact encodeRune_length_le _
        have := ih.1
        have h6 : (uEscape c.toNat).length = 6 := rfl
        refine ⟨by simp only [List.length_append]; omega, fun hl => ?_⟩
        simp only [List.length_append] at hl
        omega
      | bad b hn _ ih =>
        have := ih.1
        have h6 : (uEscape 0xFFFD).length = 6 := rfl
        refine ⟨by simp only [List.length_append, List.length_cons]; omega, fun hl => ?_⟩
        simp only [List.length_append, List.length_cons] at hl
        omega
    exact (key hE).2 (Nat.le_refl _)
  · rintro ⟨cs, rfl, hk⟩
    refine (C112_escaped _ html _).2 ?_
    induction cs with
    | nil => exact .nil
    | cons c cs ih =>
      simp only [List.flatMap_cons]
      exact .kept c (hk c (by simp)) (ih fun x hx => hk x (by simp [hx]))

/-- The escaped text is at least as long as the text and at most six times as long. -/
theorem C112_length (s : Bytes) (html : Bool) :
    s.length ≤ (escaped s html false).length ∧ (escaped s html false).length ≤ 6 * s.length := by
  have hE := (C112_escaped s html _).1 rfl
  generalize escaped s html false = t at hE
  induction hE with
  | nil => simp
  | kept c hk _ ih => simp only [List.length_append]; omega
  | short he _ ih => simp only [List.length_cons]; omega
  | hex c hk hs _ ih =>
    have hl4 : (enc c).length ≤ 4 := by rw [← encodeRune_char]; exact encodeRune_length_le _
    have hl0 := List.length_pos_iff.2 (enc_ne_nil c)
    have h6 : (uEscape c.toNat).length = 6 := rfl
    simp only [List.length_append]
    omega
  | bad b hn _ ih =>
    have h6 : (uEscape 0xFFFD).length = 6 := rfl
    simp only [List.length_append, List.length_cons]
    omega

-- a newline, a control character, an HTML character, U+2028 and a bad byte
example : Escapes true ([10, 1, 60] ++ [0xE2, 0x80, 0xA8] ++ [0xFF, 65]) b!"\\n\\u0001\\u003c\\u2028\\ufffdA" :=
  (C112_escaped _ true _).1 (by decide +kernel)
example : escaped b!"naïve 𝄞 <b>" false false = b!"naïve 𝄞 <b>" := by decide +kernel

/-! ## C113 -/

/-- **C113**, exactly: what `Unescaped` returns for every byte string, with malformed escapes or without. -/
theorem C113_exact (s t : Bytes) : unescaped s = t ↔ Unescapes s t := by
  rw [unescaped_eq, unescapes_iff]

/-- **C113**, the part that holds: a backslash at the end, a backslash before a byte that starts no escape, and `\u` with
fewer than four bytes after it are kept as they are, and what follows is unescaped as if it stood alone. Missing: `\u`
with four or more bytes after it that are not hexadecimal digits (`C113_false`, `C113_never`). -/
theorem C113_kept_partial (p s : Bytes) (hp : ∀ b ∈ p, b ≠ 92) :
    unescaped (p ++ [92]) = p ++ [92] ∧
    (∀ e, e ≠ 117 → (∀ q ∈ shortEscapes, e ≠ q.1) → unescaped (p ++ 92 :: e :: s) = p ++ 92 :: e :: unescaped s) ∧
    (s.length < 4 → unescaped (p ++ 92 :: 117 :: s) = p ++ 92 :: 117 :: unescaped s) := by
  simp only [unescaped_eq]
  rw [unesc_append _ hp]
  refine ⟨congrArg _ (unescapes_unesc .last), fun e h1 h2 => ?_, fun h => ?_⟩
  · rw [unesc_append _ hp]
    exact congrArg _ (unescapes_unesc (.unknown e h1 h2 ((unescapes_iff s _).2 rfl)))
  · rw [unesc_append _ hp]
    exact congrArg _ (unescapes_unesc (.few h ((unescapes_iff s _).2 rfl)))

/-- **C113 is false as stated**: `\u00g0` is not kept, and `\u12\"5` eats the escaped quote. -/
theorem C113_false : unescaped b!"\\u00g0" = b!"Ā" ∧ unescaped b!"x\\u12\\\"5" = b!"x" ++ [0xE1, 0xBF, 0xBF] ++ b!"5" := by
  decide +kernel

/-- In general, `\u` and four bytes are never kept, whatever the bytes are. -/
theorem C113_never (a b c d : UInt8) (s : Bytes) :
    ∃ x : Bytes, x.length ≤ 4 ∧ (∃ k, unescaped (92 :: 117 :: a :: b :: c :: d :: s) = x ++ unescaped (s.drop k)) := by
  have h := (C113_exact (92 :: 117 :: a :: b :: c :: d :: s) _).1 rfl
  generalize unescaped (92 :: 117 :: a :: b :: c :: d :: s) = t at h
  have hl4 : ∀ c : Char, (enc c).length ≤ 4 := fun c => by rw [← encodeRune_char]; exact encodeRune_length_le _
  cases h with
  | plain _ h => exact absurd rfl h
  | short he => simp [shortEscapes] at he
  | unknown _ h => exact absurd rfl h
  | few h => simp at h; omega
  | code x _ ht => exact ⟨enc x, hl4 x, 0, by rw [← (C113_exact _ _).2 ht]; rfl⟩
  | pair x _ _ _ ht => exact ⟨enc x, hl4 x, 6, by rw [← (C113_exact _ _).2 ht]; rfl⟩
  | swallow _ _ ht => exact ⟨replacement, by decide, 6, by rw [← (C113_exact _ _).2 ht]; rfl⟩
  | lone _ _ ht => exact ⟨replacement, by decide, 0, by rw [← (C113_exact _ _).2 ht]; rfl⟩

example : unescaped b!"a\\qb\\u12" = b!"a\\qb\\u12" := by decide +kernel
example : Unescapes b!"\\ud834\\udd1e\\x\\" b!"𝄞\\x\\" := (C113_exact _ _).1 (by decide +kernel)

end Verif.Props
