import Verif.Proofs.StrJson

/-! Meaning of single steps of `unesc` and `esc` in terms of the string specification. -/

namespace Verif.StrJson
open Verif Verif.Spec

theorem hexVal_fromHex : ∀ b : UInt8, (hexVal b).all (fun v => (fromHex b).toNat == v && v < 16) = true :=
  forall_byte (by decide +kernel)

theorem hexVal_some {b : UInt8} {v : Nat} (h : hexVal b = some v) : (fromHex b).toNat = v ∧ v < 16 := by
  have := hexVal_fromHex b
  rw [h] at this
  simpa using this

theorem or4 {a b c d : Nat} (hb : b < 16) (hc : c < 16) (hd : d < 16) :
    (a <<< 12) ||| (b <<< 8) ||| (c <<< 4) ||| d = a * 4096 + b * 256 + c * 16 + d := by
  have h1 : (a <<< 12) ||| (b <<< 8) = ((a <<< 4) + b) <<< 8 := by
    rw [Nat.shiftLeft_add_eq_or_of_lt (b := b) (i := 4) (by omega), Nat.shiftLeft_or_distrib, ← Nat.shiftLeft_add]
  have h2 : ((a <<< 4) + b) <<< 8 ||| (c <<< 4) = ((((a <<< 4) + b) <<< 4) + c) <<< 4 := by
    rw [Nat.shiftLeft_add_eq_or_of_lt (b := c) (i := 4) (by omega), Nat.shiftLeft_or_distrib, ← Nat.shiftLeft_add]
  rw [h1, h2, ← Nat.shiftLeft_add_eq_or_of_lt (b := d) (i := 4) (by omega)]
  simp only [Nat.shiftLeft_eq]
  omega

theorem IsHex4.length {h : Bytes} {n : Nat} (hh : IsHex4 h n) : h.length = 4 := by
  cases hh; rfl

theorem IsHex4.lt {h : Bytes} {n : Nat} (hh : IsHex4 h n) : n < 65536 := by
  cases hh with
  | mk ha hb hc hd =>
    have := hexVal_some ha; have := hexVal_some hb; have := hexVal_some hc; have := hexVal_some hd
    omega

theorem hex4_isHex4 {h : Bytes} {n : Nat} (hh : IsHex4 h n) (s : Bytes) : hex4 (117 :: (h ++ s)) 1 = n := by
  cases hh with
  | mk ha hb hc hd =>
    have ha := hexVal_some ha; have hb := hexVal_some hb; have hc := hexVal_some hc; have hd := hexVal_some hd
    simp only [hex4, at', List.cons_append, List.nil_append]
    simp only [List.getD_cons_succ, List.getD_cons_zero, ha.1, hb.1, hc.1, hd.1]
    exact or4 hb.2 hc.2 hd.2

theorem hex4_second {h h₂ : Bytes} {n m : Nat} (hh : IsHex4 h n) (hh₂ : IsHex4 h₂ m) (s : Bytes) :
    hex4 (117 :: (h ++ 92 :: 117 :: (h₂ ++ s))) 7 = m := by
  have := hex4_isHex4 hh₂ s
  cases hh with
  | mk ha hb hc hd =>
    simp only [hex4, at', List.cons_append, List.nil_append] at this ⊢
    simpa only [List.getD_cons_succ, List.getD_cons_zero] using this

theorem encodeRune_lt {n : Nat} (h : n < 0x80) : encodeRune n = [runeByte n] := by
  rw [encodeRune_1 (by omega)]; rfl

theorem unesc_enc {c : Char} (s : Bytes) (h : c.toNat ≠ 92) : unesc (enc c ++ s) = enc c ++ unesc s := by
  apply unesc_append
  intro b hb
  rw [← encodeRune_char] at hb
  by_cases hc : c.toNat ≤ 0x7F
  · rw [encodeRune_1 hc] at hb
    simp only [List.mem_singleton] at hb
    subst hb
    intro h2
    have := congrArg UInt8.toNat h2
    rw [toNat_ofNat_lt (by omega)] at this
    exact h this
  · have := encodeRune_high _ (by omega) b hb
    intro h2; subst h2; simp at this

theorem shortEscapes_simple : ∀ e v : UInt8, (e, v) ∈ shortEscapes → simpleEscape e = some v := by
  intro e v h
  simp [shortEscapes] at h
  rcases h with ⟨rfl, rfl⟩ | ⟨rfl, rfl⟩ | ⟨rfl, rfl⟩ | ⟨rfl, rfl⟩ | ⟨rfl, rfl⟩ | ⟨rfl, rfl⟩ | ⟨rfl, rfl⟩ |
    ⟨rfl, rfl⟩ <;> decide

theorem unesc_short {e v : UInt8} (s : Bytes) (h : (e, v) ∈ shortEscapes) : unesc (92 :: e :: s) = v :: unesc s := by
  rw [unesc_step (by simp), uStep_simple _ (shortEscapes_simple e v h)]
  simp

theorem drop_hex {h : Bytes} {n : Nat} (hh : IsHex4 h n) (s : Bytes) :
    (92 :: 117 :: (h ++ s)).drop 6 = s := by
  cases hh; rfl

theorem unesc_hex {h : Bytes} {c : Char} (hh : IsHex4 h c.toNat) (s : Bytes) :
    unesc (92 :: 117 :: (h ++ s)) = enc c ++ unesc s := by
  have hl : (h ++ s).length > 3 := by have := IsHex4.length hh; simp; omega
  have h4 := hex4_isHex4 hh s
  rw [unesc_step (by simp), ← encodeRune_char]
  by_cases hlt : c.toNat < 0x80
  · rw [uStep_uAscii hl (by rw [h4]; exact hlt), h4, drop_hex hh, encodeRune_lt hlt]
  · have hc := char_cases c
    rw [uStep_uRune hl (by rw [h4]; exact hlt), h4]
    have hns : isSurrogate c.toNat = false := by simp [isSurrogate]; omega
    have : unescapeRune (117 :: (h ++ s)) 0 c.toNat = (c.toNat, 5) := by
      simp [unescapeRune, hns]
    rw [this]
    simp only
    rw [drop_hex hh]

theorem pair_drop {h₁ h₂ : Bytes} {n m : Nat} (hh₁ : IsHex4 h₁ n) (hh₂ : IsHex4 h₂ m) (s : Bytes) :
    (92 :: 117 :: (h₁ ++ 92 :: 117 :: (h₂ ++ s))).drop 12 = s := by
  cases hh₁; cases hh₂; rfl

theorem unesc_pair {h₁ h₂ : Bytes} {hi lo : Nat} {c : Char} (hh₁ : IsHex4 h₁ hi) (hh₂ : IsHex4 h₂ lo)
    (hhi : HighSurr hi) (hlo : LowSurr lo)
    (hc : c.toNat = 0x10000 + (hi - 0xD800) * 0x400 + (lo - 0xDC00)) (s : Bytes) :
    unesc (92 :: 117 :: (h₁ ++ 92 :: 117 :: (h₂ ++ s))) = enc c ++ unesc s := by
  unfold HighSurr at hhi
  unfold LowSurr at hlo
  have l1 := IsHex4.length hh₁
  have l2 := IsHex4.length hh₂
  have hl : (h₁ ++ 92 :: 117 :: (h₂ ++ s)).length > 3 := by simp; omega
  have h4 := hex4_isHex4 hh₁ (92 :: 117 :: (h₂ ++ s))
  rw [unesc_step (by simp), ← encodeRune_char, uStep_uRune hl (by rw [h4]; simp [runeSelf]; omega), h4]
  have hsur : isSurrogate hi = true := by simp [isSurrogate]; omega
  have h5 : at' (117 :: (h₁ ++ 92 :: 117 :: (h₂ ++ s))) 5 = 92 := by cases hh₁; rfl
  have h6 : at' (117 :: (h₁ ++ 92 :: 117 :: (h₂ ++ s))) 6 = 117 := by cases hh₁; rfl
  have hlen : (117 :: (h₁ ++ 92 :: 117 :: (h₂ ++ s))).length > 10 := by simp; omega
  have : unescapeRune (117 :: (h₁ ++ 92 :: 117 :: (h₂ ++ s))) 0 hi = (c.toNat, 11) := by
    simp only [unescapeRune, hsur, if_true, h5, h6, hlen, hex4_second hh₁ hh₂]
    simp only [utf16DecodeRune, and_self, if_true]
    rw [if_pos (by omega), hc]
    simp; omega
  rw [this]
  simp only
  rw [pair_drop hh₁ hh₂]

theorem unesc_lone {h : Bytes} {n : Nat} (hh : IsHex4 h n) (hs : HighSurr n ∨ LowSurr n) {s : Bytes}
    (hf : ¬ [92, 117] <+: s) : unesc (92 :: 117 :: (h ++ s)) = replacement ++ unesc s := by
  have l1 := IsHex4.length hh
  have hl : (h ++ s).length > 3 := by simp; omega
  have h4 := hex4_isHex4 hh s
  unfold HighSurr LowSurr at hs
  rw [unesc_step (by simp), uStep_uRune hl (by rw [h4]; simp [runeSelf]; omega), h4]
  have hsur : isSurrogate n = true := by simp [isSurrogate]; omega
  have hneg : ¬ ((117 :: (h ++ s)).length > 10 ∧ at' (117 :: (h ++ s)) 5 = 92 ∧ at' (117 :: (h ++ s)) 6 = 117) := by
    intro ⟨g1, g2, g3⟩
    cases hh with
    | mk =>
      simp at g1
      match s, g1 with
      | a :: b :: t, _ =>
        simp [at'] at g2 g3
        exact hf (by simp [g2, g3])
  have : unescapeRune (117 :: (h ++ s)) 0 n = (runeError, 5) := by
    simp only [unescapeRune, hsur, if_true, if_neg hneg]
  rw [this]
  simp only
  rw [drop_hex hh]
  rfl

/-- What one escaping step does, in specification terms. -/
inductive EscCase (html : Bool) : Bytes → Bytes → Nat → Prop
  | plain (c : Char) (t : Bytes) : Unescapable c → c.toNat ≠ 0x7F → c.toNat ≠ 0x2028 → c.toNat ≠ 0x2029 →
      (html = true → c.toNat ≠ 0x3C ∧ c.toNat ≠ 0x3E ∧ c.toNat ≠ 0x26) →
      EscCase html (enc c ++ t) (enc c) (enc c).length
  | short (e : UInt8) (c : Char) (v : UInt8) (t : Bytes) : (e, v) ∈ shortEscapes → enc c = [v] → e.toNat ≠ 0x7F →
      EscCase html (enc c ++ t) [92, e] (enc c).length
  | hex (h : Bytes) (c : Char) (t : Bytes) : IsHex4 h c.toNat → EscCase html (enc c ++ t) (92 :: 117 :: h) (enc c).length
  | bad (h : Bytes) (b : UInt8) (t : Bytes) : (∀ c : Char, ¬ enc c <+: b :: t) → IsHex4 h 0xFFFD →
      EscCase html (b :: t) (92 :: 117 :: h) 1

theorem toJSON_ascii : ∀ b : UInt8, (b.toNat < 0x80 ↔ toJSON b ≠ 0xff) :=
  forall_byte (by decide +kernel)

theorem toJSON_80 : ∀ b : UInt8, toJSON b = 0x80 → 0x20 ≤ b.toNat ∧ b.toNat < 0x7F ∧ b.toNat ≠ 0x22 ∧ b.toNat ≠ 0x5C ∧
    b.toNat ≠ 0x3C ∧ b.toNat ≠ 0x3E ∧ b.toNat ≠ 0x26 :=
  forall_byte (by decide +kernel)

theorem toJSON_1 : ∀ b : UInt8, toJSON b = 1 → b.toNat = 0x3C ∨ b.toNat = 0x3E ∨ b.toNat = 0x26 :=
  forall_byte (by decide +kernel)

theorem toJSON_92 : ∀ b : UInt8, toJSON b = 92 → (b, b) ∈ shortEscapes :=
  forall_byte (by decide +kernel)

theorem toJSON_other : ∀ b : UInt8, toJSON b = 0x80 ∨ toJSON b = 0xff ∨ toJSON b = 1 ∨ toJSON b = 92 ∨ toJSON b = 0 ∨
    (toJSON b, b) ∈ shortEscapes :=
  forall_byte (by decide +kernel)

theorem shortEscapes_ne_del : ∀ e : UInt8, ∀ v, (e, v) ∈ shortEscapes → e.toNat ≠ 0x7F := by
  intro e v h
  simp [shortEscapes] at h
  rcases h with ⟨rfl, rfl⟩ | ⟨rfl, rfl⟩ | ⟨rfl, rfl⟩ | ⟨rfl, rfl⟩ | ⟨rfl, rfl⟩ | ⟨rfl, rfl⟩ | ⟨rfl, rfl⟩ |
    ⟨rfl, rfl⟩ <;> decide

theorem escapeByte_hex : ∀ b : UInt8, (hexVal (toHex (b >>> 4))) = some (b.toNat / 16) ∧
    hexVal (toHex (b &&& 0x0F)) = some (b.toNat % 16) :=
  forall_byte (by decide +kernel)

theorem byteHex4 (b : UInt8) : IsHex4 [48, 48, toHex (b >>> 4), toHex (b &&& 0x0F)] b.toNat := by
  have h := escapeByte_hex b
  have h0 : hexVal 48 = some 0 := by decide
  have := IsHex4.mk h0 h0 h.1 h.2
  have hb := byte_lt b
  have e : 0 * 4096 + 0 * 256 + b.toNat / 16 * 16 + b.toNat % 16 = b.toNat := by omega
  rwa [e] at this

theorem ascii_char (b : UInt8) (h : b.toNat < 0x80) : ∃ c : Char, c.toNat = b.toNat ∧ enc c = [b] := by
  refine ⟨mkChar b.toNat (by omega), mkChar_val _ _, ?_⟩
  rw [enc_mkChar, encodeRune_1 (by omega)]
  simp

theorem hexVal_e : hexVal (toHex (runeByte (0xFFFD >>> 12))) = some 15 ∧
    hexVal (toHex (runeByte (0xFFFD >>> 8) &&& 0x0F)) = some 15 ∧
    hexVal (toHex (runeByte 0xFFFD >>> 4)) = some 15 ∧ hexVal (toHex (runeByte 0xFFFD &&& 0x0F)) = some 13 := by
  decide +kernel

theorem escapeUTF8_hex (r : Nat) (h : r = runeError ∨ r = 0x2028 ∨ r = 0x2029) :
    ∃ hx, escapeUTF8 [] r = 92 :: 117 :: hx ∧ IsHex4 hx r := by
  refine ⟨_, rfl, ?_⟩
  rcases h with rfl | rfl | rfl
  · exact @IsHex4.mk _ _ _ _ 15 15 15 13 (by decide +kernel) (by decide +kernel) (by decide +kernel) (by decide +kernel)
  · exact @IsHex4.mk _ _ _ _ 2 0 2 8 (by decide +kernel) (by decide +kernel) (by decide +kernel) (by decide +kernel)
  · exact @IsHex4.mk _ _ _ _ 2 0 2 9 (by decide +kernel) (by decide +kernel) (by decide +kernel) (by decide +kernel)

theorem eStep_case (html : Bool) (b : UInt8) (s : Bytes) :
    EscCase html (b :: s) (eStep html (b :: s)).1 (eStep html (b :: s)).2 := by
  rw [eStep_cons]
  have hascii : b.toNat < 0x80 ↔ toJSON b ≠ 0xff := toJSON_ascii b
  split
  · rename_i h
    have h80 := toJSON_80 b h
    obtain ⟨c, hc, he⟩ := ascii_char b (by omega)
    have := EscCase.plain (html := html) c s ⟨by omega, by omega, by omega⟩ (by omega) (by omega) (by omega)
      (fun _ => by omega)
    rw [he] at this
    exact this
  · split
    · rename_i h80 hff
      have hb : ¬ b.toNat < 0x80 := by rw [hascii]; simp [hff]
      rcases decodeRune_spec b s with ⟨c, t, h1, h2⟩ | ⟨hn, h2⟩
      · rw [h2]
        simp only
        split
        · rename_i hr
          obtain ⟨hx, e1, e2⟩ := escapeUTF8_hex _ hr
          rw [e1, h1]
          exact EscCase.hex hx c t e2
        · rename_i hr
          simp only [not_or] at hr
          have hc : 0x7F < c.toNat := by
            rcases Nat.lt_or_ge 0x7F c.toNat with h | h
            · exact h
            · exfalso
              rw [← encodeRune_char, encodeRune_1 h] at h1
              simp at h1
              have := congrArg UInt8.toNat h1.1
              rw [toNat_ofNat_lt (by omega)] at this
              omega
          rw [h1, List.take_left' rfl]
          exact EscCase.plain c t ⟨by omega, by omega, by omega⟩ (by omega) hr.2.1 hr.2.2
            (fun _ => by omega)
      · rw [h2]
        simp only
        rw [if_pos (by simp)]
        obtain ⟨hx, e1, e2⟩ := escapeUTF8_hex runeError (Or.inl rfl)
        rw [e1]
        exact EscCase.bad hx b s hn e2
    · rename_i h80 hff
      have hb : b.toNat < 0x80 := hascii.2 hff
      obtain ⟨c, hc, he⟩ := ascii_char b hb
      split
      · rename_i h1
        have h3 := toJSON_1 b h1.1
        have := EscCase.plain (html := html) c s ⟨by omega, by omega, by omega⟩ (by omega) (by omega) (by omega)
          (fun h => by simp [h1.2] at h)
        rw [he] at this
        exact this
      · rename_i h1
        by_cases hn1 : toJSON b = 1
        · simp only [if_pos hn1]
          have := EscCase.hex (html := html) _ c s (hc ▸ byteHex4 b)
          rw [he] at this
          exact this
        · simp only [if_neg hn1]
          split
          · rename_i h92
            have hs := toJSON_92 b h92
            have := EscCase.short (html := html) b c b s hs he (shortEscapes_ne_del _ _ hs)
            rw [he] at this
            exact this
          · rename_i h92
            split
            · have := EscCase.hex (html := html) _ c s (hc ▸ byteHex4 b)
              rw [he] at this
              exact this
            · rename_i h0
              have hs : (toJSON b, b) ∈ shortEscapes := by
                have := toJSON_other b
                simpa only [h80, hff, hn1, h92, h0, false_or] using this
              have := EscCase.short (html := html) _ c b s hs he (shortEscapes_ne_del _ _ hs)
              rw [he] at this
              exact this

end Verif.StrJson
