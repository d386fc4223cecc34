import Verif.Proofs.StrSpec
import Verif.Proofs.StrShort

/-!
# Properties C01–C08: package `strjson`
-/

namespace Verif.Props
open Verif Verif.Spec Verif.StrJson

/-! ## C01, C02 -/

/-- **C02**: for every byte string and both HTML settings, unescaping the escaped text gives the sanitized
input (and `Sanitized` is a function, so this pins the result exactly). -/
theorem C02_unescape_escape (s : Bytes) (html : Bool) (t : Bytes) :
    Sanitized s t ↔ unescaped (escaped s html false) = t := by
  rw [escaped_eq, unescaped_eq]
  constructor
  · intro h; exact sanitized_unique (sanitized_esc html s) h
  · rintro rfl; exact sanitized_esc html s

/-- **C01**: for every valid UTF-8 text, unescape ∘ escape is the identity. -/
theorem C01_roundtrip (s : Bytes) (html : Bool) (h : ValidUtf8 s) : unescaped (escaped s html false) = s :=
  (C02_unescape_escape s html s).1 (sanitized_valid h)

-- the hypothesis of C01 holds of a text with every kind of character (ASCII, control, quote, 2, 3, 4 bytes)
example : ValidUtf8 b!"a\n\"<é漢𝄞" := ⟨['a', '\n', '"', '<', 'é', '漢', '𝄞'], by decide +kernel⟩
-- C02 on a truncated sequence followed by a letter
example : Sanitized [0xE6, 0xBC, 97] (replacement ++ (replacement ++ [97])) :=
  (C02_unescape_escape _ false _).2 (by decide +kernel)
example : escaped b!"a<\n/é" false false = b!"a<\\n\\/é" := by decide +kernel
example : escaped b!"a<\n/é" true true = b!"\"a\\u003c\\n\\/é\"" := by decide +kernel

/-! ## C03 -/

/-- **C03**: for every byte string the escaped text is a legal RFC 8259 string body, it is valid UTF-8, and
its characters exclude control characters, DEL, U+2028, U+2029 and, with HTML set, `<`, `>`, `&`. -/
theorem C03_escaped_legal (s : Bytes) (html : Bool) :
    RfcBody (escaped s html false) ∧
    ∃ cs : List Char, escaped s html false = cs.flatMap enc ∧ ∀ c ∈ cs, EscapedChar html c := by
  rw [escaped_eq]
  induction hn : s.length using Nat.strongRecOn generalizing s with
  | _ n ih =>
    match s, hn with
    | [], _ => exact ⟨by simpa using RfcBody.nil, [], by simp, by simp⟩
    | b :: r, hn =>
      rw [esc_step (by simp)]
      have hcase := eStep_case html b r
      have hsz := eStep_size html b r
      have ih' := ih ((b :: r).drop (eStep html (b :: r)).2).length (by simp at hn hsz ⊢; omega) _ rfl
      revert ih'
      generalize (eStep html (b :: r)).2 = k at hcase
      generalize (eStep html (b :: r)).1 = o at hcase
      intro ih'
      clear hsz ih hn
      generalize b :: r = full at hcase ih' ⊢
      obtain ⟨ihR, cs, ihE, ihC⟩ := ih'
      cases hcase with
      | plain c t hu h1 h2 h3 h4 =>
        rw [List.drop_left' rfl] at ihR ihE ⊢
        refine ⟨RfcBody.char c hu ihR, c :: cs, by simp [ihE], ?_⟩
        intro x hx
        simp at hx
        rcases hx with rfl | hx
        · refine ⟨hu.1, h1, h2, h3, fun h => ?_⟩
          have := h4 h
          refine ⟨?_, ?_, ?_⟩ <;> rintro rfl
          · exact this.1 rfl
          · exact this.2.1 rfl
          · exact this.2.2 rfl
        · exact ihC x hx
      | short e c v t he hv _ =>
        rw [List.drop_left' rfl] at ihR ihE ⊢
        obtain ⟨ds, hd1, hd2⟩ := short_chars he html
        refine ⟨RfcBody.short he ihR, ds ++ cs, by simp only [List.flatMap_append, ← hd1, ihE], ?_⟩
        intro x hx
        simp at hx
        rcases hx with hx | hx
        · exact hd2 x hx
        · exact ihC x hx
      | hex h c t hh =>
        rw [List.drop_left' rfl] at ihR ihE ⊢
        obtain ⟨ds, hd1, hd2⟩ := hex_chars hh html
        refine ⟨RfcBody.hex hh ihR, ds ++ cs, by simp only [List.flatMap_append, ← hd1, ihE], ?_⟩
        intro x hx
        simp at hx
        rcases hx with hx | hx
        · exact hd2 x hx
        · exact ihC x hx
      | bad h b' t hn hh =>
        simp only [List.drop_succ_cons, List.drop_zero] at ihR ihE ⊢
        obtain ⟨ds, hd1, hd2⟩ := hex_chars hh html
        refine ⟨RfcBody.hex hh ihR, ds ++ cs, by simp only [List.flatMap_append, ← hd1, ihE], ?_⟩
        intro x hx
        simp at hx
        rcases hx with hx | hx
        · exact hd2 x hx
        · exact ihC x hx

example : escaped [0x7F, 0xE2, 0x80, 0xA8, 0xFF, 38] true false = b!"\\u007f\\u2028\\ufffd\\u0026" := by decide +kernel

/-! ## C04 -/

/-- **C04**: `AppendEscaped` appends what `Escaped` returns; quoting only adds the quotes. -/
theorem C04_append_escaped (dst s : Bytes) (html : Bool) :
    appendEscaped dst s html = dst ++ escaped s html false ∧
    escaped s html true = [34] ++ escaped s html false ++ [34] := by
  rw [appendEscaped_eq, escaped_eq, escaped_quoted_eq]
  simp

example : appendEscaped b!"x=" b!"\"q\"" false = b!"x=\\\"q\\\"" := by decide +kernel

/-! ## C05, C06, C08 -/

/-- **C05**: with a buffer at least as long as the input, `Unescape` does not panic (`some`), leaves the
buffer length alone, returns `n ≤ len(s)`, writes `Unescaped(s)` in `dst[:n]` and leaves `dst[n:]` alone. -/
theorem C05_unescape_buffer (dst s : Bytes) (h : s.length ≤ dst.length) :
    ∃ dst' n, unescape dst s = some (dst', n) ∧ n ≤ s.length ∧ dst'.length = dst.length ∧
      dst'.take n = unescaped s ∧ dst'.drop n = dst.drop n := by
  refine ⟨_, _, unescape_eq dst s h, unesc_length_le s, ?_, ?_, ?_⟩
  · have := unesc_length_le s
    simp; omega
  · rw [unescaped_eq, List.take_left' rfl]
  · rw [List.drop_left' rfl]

example : unescape b!"zzzzzzzzzzzzzz" b!"\\u00e9\\x\\ud834" = some ([0xC3, 0xA9, 92, 120, 0xEF, 0xBF, 0xBD] ++ b!"zzzzzzz", 7) := by
  decide +kernel

/-- **C06**: `AppendUnescaped` appends what `Unescaped` returns, for every spare capacity and content. -/
theorem C06_append_unescaped (dst spare s : Bytes) : appendUnescaped dst spare s = some (dst ++ unescaped s) := by
  rw [appendUnescaped_eq, unescaped_eq]

example : appendUnescaped b!"ab" b!"????????????" b!"\\n\\u0041" = some b!"ab\nA" := by decide +kernel

/-- **C08**: unescaping never grows the text, and is the identity on text without backslashes. -/
theorem C08_length (s : Bytes) : (unescaped s).length ≤ s.length ∧ ((∀ b ∈ s, b ≠ 92) → unescaped s = s) := by
  rw [unescaped_eq]
  refine ⟨unesc_length_le s, fun h => ?_⟩
  have := unesc_append (p := s) [] h
  simpa using this

example : unescaped b!"plain" = b!"plain" := (C08_length _).2 (by decide)

/-! ## C57 -/

/-- **C57**: `Unescape` with a buffer of any length, also one that is too short: when it returns, the buffer has kept its
length, the count is at most that length and the bytes after the count are untouched; an empty buffer never makes it
panic. -/
theorem C57_any_buffer (dst s dst' : Bytes) (n : Nat) (h : unescape dst s = some (dst', n)) :
    dst'.length = dst.length ∧ n ≤ dst.length ∧ dst'.drop n = dst.drop n := by
  unfold unescape at h
  split at h
  · simp at h; obtain ⟨rfl, rfl⟩ := h; simp
  · obtain ⟨h1, _, h3, h4, _⟩ := unescapeLoop_within s _ _ _ _ _ _ (Nat.zero_le _) h
    exact ⟨h1, h3, h4⟩

theorem C57_empty_buffer (s : Bytes) : unescape [] s = some ([], 0) := by
  unfold unescape
  split
  · rfl
  · exact unescapeLoop_empty s _ _ _

/-- A short buffer can make `Unescape` panic: one byte left for a two-byte rune. With no byte left it does not. -/
theorem C57_short_panics : unescape [0] b!"\\u00e9" = none ∧ unescape [0] b!"a\\u00e9" = some (b!"a", 1) := by decide +kernel

example : unescape b!"zz" b!"a\\nbcd" = some (b!"a\n", 2) := by decide +kernel

/-! ## C07 -/

/-- Unescaping follows the JSON semantics for every body in which a lone surrogate escape is not directly
followed by another `\u` escape. -/
theorem C07_unescape_semantics_partial (s t : Bytes) (h : Denotes (fun _ rest => ¬ [92, 117] <+: rest) s t) :
    unescaped s = t := by
  rw [unescaped_eq]
  induction h with
  | nil => simp
  | char c hu _ ih => rw [unesc_enc _ (by have := hu.2.2; simpa using this), ih]
  | short he _ ih => rw [unesc_short _ he, ih]
  | hex c hh _ ih => rw [unesc_hex hh, ih]
  | pair c h1 h2 h3 h4 h5 _ ih => rw [unesc_pair h1 h2 h3 h4 h5, ih]
  | lone hh hs hf _ ih => rw [unesc_lone hh hs hf, ih]

/-- The restricted relation is part of the full semantics. -/
theorem denotes_restrict {s t : Bytes} (h : Denotes (fun _ rest => ¬ [92, 117] <+: rest) s t) : JsonDenotes s t := by
  induction h with
  | nil => exact .nil
  | char c hu _ ih => exact .char c hu ih
  | short he _ ih => exact .short he ih
  | hex c hh _ ih => exact .hex c hh ih
  | pair c h1 h2 h3 h4 h5 _ ih => exact .pair c h1 h2 h3 h4 h5 ih
  | lone hh hs hf _ ih =>
    refine .lone hh hs ?_ ih
    rintro ⟨_, h, n, t, rfl, _⟩
    exact hf (by simp)

/-- **C07 is false as stated**: `\ud800A` denotes U+FFFD followed by `A`, but the code swallows the
second escape. -/
theorem C07_unescape_semantics_false : ∃ s t, JsonDenotes s t ∧ unescaped s ≠ t := by
  refine ⟨b!"\\ud800\\u0041", replacement ++ (enc 'A' ++ []), ?_, by decide +kernel⟩
  refine Denotes.lone isHex4_d800 (Or.inl (by unfold HighSurr; omega)) ?_ (Denotes.hex (h := b!"0041") 'A' isHex4_0041 .nil)
  rintro ⟨_, h, n, t, e, h1, h2⟩
  simp only [List.cons.injEq, true_and] at e
  obtain ⟨_, rfl, _⟩ := isHex4_unique (h := b!"0041") isHex4_0041 h1 e
  unfold LowSurr at h2
  omega

/-- What the code does instead, for every such input: a surrogate escape followed by another `\u` escape
with which it does not form a pair yields one U+FFFD for both. -/
theorem C07_swallow {h₁ h₂ : Bytes} {n m : Nat} (hh₁ : IsHex4 h₁ n) (hh₂ : IsHex4 h₂ m)
    (hs : HighSurr n ∨ LowSurr n) (hp : ¬ (HighSurr n ∧ LowSurr m)) (s : Bytes) :
    unescaped (92 :: 117 :: (h₁ ++ 92 :: 117 :: (h₂ ++ s))) = replacement ++ unescaped s := by
  rw [unescaped_eq, unescaped_eq]
  unfold HighSurr LowSurr at *
  have l1 := IsHex4.length hh₁
  have l2 := IsHex4.length hh₂
  have hl : (h₁ ++ 92 :: 117 :: (h₂ ++ s)).length > 3 := by simp; omega
  have h4 := hex4_isHex4 hh₁ (92 :: 117 :: (h₂ ++ s))
  rw [unesc_step (by simp), uStep_uRune hl (by rw [h4]; simp [runeSelf]; omega), h4]
  have hsur : isSurrogate n = true := by simp [isSurrogate]; omega
  have h5 : at' (117 :: (h₁ ++ 92 :: 117 :: (h₂ ++ s))) 5 = 92 := by cases hh₁; rfl
  have h6 : at' (117 :: (h₁ ++ 92 :: 117 :: (h₂ ++ s))) 6 = 117 := by cases hh₁; rfl
  have hlen : (117 :: (h₁ ++ 92 :: 117 :: (h₂ ++ s))).length > 10 := by simp; omega
  have : unescapeRune (117 :: (h₁ ++ 92 :: 117 :: (h₂ ++ s))) 0 n = (runeError, 11) := by
    simp only [unescapeRune, hsur, if_true, h5, h6, hlen, hex4_second hh₁ hh₂]
    simp only [utf16DecodeRune, and_self, if_true]
    rw [if_neg (by omega)]
  rw [this]
  simp only
  rw [pair_drop hh₁ hh₂]
  rfl

-- a surrogate pair, a short escape and a lone surrogate at the end meet the hypothesis of the partial theorem
example : unescaped b!"\\ud834\\udd1e\\n\\udc00" = b!"𝄞\n" ++ replacement := by decide +kernel

end Verif.Props
