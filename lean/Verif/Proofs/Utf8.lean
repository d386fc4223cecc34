import Verif.Model.Utf8
import Verif.Spec.Utf8

/-! Lemmas linking the model of Go's UTF-8 decoder/encoder to Lean's `String.utf8EncodeChar`. -/

namespace Verif
open Verif.Spec

theorem ofNat_toNat_eq {n : Nat} (b : UInt8) (h : b.toNat = n) : UInt8.ofNat n = b := by
  subst h; simp

theorem ofNat_eq_of {n : Nat} (b : UInt8) (h : n = b.toNat) : UInt8.ofNat n = b := by
  subst h; simp

theorem char_cases (c : Char) : c.toNat < 0xD800 ∨ (0xDFFF < c.toNat ∧ c.toNat < 0x110000) := by
  have := c.valid
  simpa [UInt32.isValidChar, Nat.isValidChar] using this

theorem inRange_iff (lo hi : Nat) (b : UInt8) : inRange lo hi b = true ↔ lo ≤ b.toNat ∧ b.toNat ≤ hi := by
  simp [inRange]

theorem encodeRune_1 {v : Nat} (h : v ≤ 0x7F) : encodeRune v = [UInt8.ofNat v] := by
  simp [encodeRune, h]
theorem encodeRune_2 {v : Nat} (h : ¬ v ≤ 0x7F) (h2 : v ≤ 0x7FF) :
    encodeRune v = [UInt8.ofNat (0xC0 + v / 64), UInt8.ofNat (0x80 + v % 64)] := by
  simp [encodeRune, h, h2]
theorem encodeRune_3 {v : Nat} (h2 : ¬ v ≤ 0x7FF) (hs : v < 0xD800 ∨ 0xDFFF < v) (h3 : v ≤ 0xFFFF) :
    encodeRune v = [UInt8.ofNat (0xE0 + v / 4096), UInt8.ofNat (0x80 + v / 64 % 64), UInt8.ofNat (0x80 + v % 64)] := by
  have : ¬ (0x10FFFF < v ∨ isSurrogate v = true) := by simp [isSurrogate]; omega
  have h1 : ¬ v ≤ 0x7F := by omega
  simp only [encodeRune, if_neg h1, if_neg h2, if_neg this, if_pos h3]
theorem encodeRune_4 {v : Nat} (h3 : ¬ v ≤ 0xFFFF) (h4 : v < 0x110000) :
    encodeRune v = [UInt8.ofNat (0xF0 + v / 262144), UInt8.ofNat (0x80 + v / 4096 % 64),
     UInt8.ofNat (0x80 + v / 64 % 64), UInt8.ofNat (0x80 + v % 64)] := by
  have : ¬ (0x10FFFF < v ∨ isSurrogate v = true) := by simp [isSurrogate]; omega
  have h1 : ¬ v ≤ 0x7F := by omega
  have h2 : ¬ v ≤ 0x7FF := by omega
  simp only [encodeRune, if_neg h1, if_neg h2, if_neg this, if_neg h3]

/-- Go's `EncodeRune` writes a scalar value the way Lean encodes it. -/
theorem encodeRune_char (c : Char) : encodeRune c.toNat = enc c := by
  have hc := char_cases c
  simp only [enc, String.utf8EncodeChar, Char.toNat] at hc ⊢
  generalize c.val.toNat = v at hc ⊢
  by_cases h1 : v ≤ 0x7F
  · rw [encodeRune_1 h1, if_pos h1]
  by_cases h2 : v ≤ 0x7FF
  · rw [encodeRune_2 h1 h2, if_neg h1, if_pos h2]
    have : v / 64 % 32 = v / 64 := by omega
    rw [this]; simp only [Nat.add_comm]
  by_cases h3 : v ≤ 0xFFFF
  · rw [encodeRune_3 h2 (by omega) h3, if_neg h1, if_neg h2, if_pos h3]
    have : v / 4096 % 16 = v / 4096 := by omega
    rw [this]; simp only [Nat.add_comm]
  · rw [encodeRune_4 h3 (by omega), if_neg h1, if_neg h2, if_neg h3]
    have : v / 262144 % 8 = v / 262144 := by omega
    rw [this]; simp only [Nat.add_comm]

def mkChar (n : Nat) (h : n < 0xD800 ∨ (0xDFFF < n ∧ n < 0x110000)) : Char :=
  Char.ofNatAux n (by simpa [Nat.isValidChar] using h)

theorem mkChar_val (n h) : (mkChar n h).toNat = n := by
  rfl

theorem enc_mkChar (n h) : enc (mkChar n h) = encodeRune n := by
  rw [← encodeRune_char, mkChar_val]

theorem enc_ne_nil (c : Char) : enc c ≠ [] := by
  rw [← encodeRune_char]
  simp only [encodeRune]
  split
  · simp
  · split
    · simp
    · split
      · simp
      · split <;> simp

theorem encodeRune_length_le (r : Nat) : (encodeRune r).length ≤ 4 := by
  simp only [encodeRune]
  split
  · simp
  · split
    · simp
    · split
      · simp
      · split <;> simp

theorem encodeRune_length_pos (r : Nat) : 0 < (encodeRune r).length := by
  simp only [encodeRune]
  split
  · simp
  · split
    · simp
    · split
      · simp
      · split <;> simp

/-- bytes of a non-ASCII encoding are all ≥ 0x80 -/
theorem encodeRune_high (r : Nat) (h : 0x7F < r) : ∀ b ∈ encodeRune r, 0x80 ≤ b.toNat := by
  intro b hb
  simp only [encodeRune] at hb
  split at hb
  · omega
  · split at hb
    · simp at hb
      rcases hb with hb | hb <;> subst hb <;> simp <;> omega
    · split at hb
      · simp at hb
        rcases hb with hb | hb | hb <;> subst hb <;> decide
      · rename_i h3
        simp [isSurrogate] at h3
        split at hb
        · simp at hb
          rcases hb with hb | hb | hb <;> subst hb <;> simp <;> omega
        · simp at hb
          rcases hb with hb | hb | hb | hb <;> subst hb <;> simp <;> omega

theorem decodeRune_2 (b0 b1 : UInt8) (s : Bytes) (h0 : 0xC2 ≤ b0.toNat) (h0' : b0.toNat < 0xE0)
    (h1 : 0x80 ≤ b1.toNat ∧ b1.toNat ≤ 0xBF) :
    decodeRune (b0 :: b1 :: s) = (b0.toNat % 32 * 64 + b1.toNat % 64, 2) := by
  have a1 : ¬ b0.toNat < 0x80 := by omega
  have a2 : ¬ b0.toNat < 0xC2 := by omega
  simp only [decodeRune, if_neg a1, if_neg a2, if_pos h0', if_pos ((inRange_iff _ _ _).2 h1)]

theorem decodeRune_3 (b0 b1 b2 : UInt8) (s : Bytes) (h0 : 0xE0 ≤ b0.toNat) (h0' : b0.toNat < 0xF0)
    (h1 : acceptLo b0.toNat ≤ b1.toNat ∧ b1.toNat ≤ acceptHi b0.toNat)
    (h2 : 0x80 ≤ b2.toNat ∧ b2.toNat ≤ 0xBF) :
    decodeRune (b0 :: b1 :: b2 :: s) = (b0.toNat % 16 * 4096 + b1.toNat % 64 * 64 + b2.toNat % 64, 3) := by
  have a1 : ¬ b0.toNat < 0x80 := by omega
  have a2 : ¬ b0.toNat < 0xC2 := by omega
  have a3 : ¬ b0.toNat < 0xE0 := by omega
  simp only [decodeRune, if_neg a1, if_neg a2, if_neg a3, if_pos h0', (inRange_iff _ _ _).2 h1,
    (inRange_iff _ _ _).2 h2, Bool.and_self, if_true]

theorem decodeRune_4 (b0 b1 b2 b3 : UInt8) (s : Bytes) (h0 : 0xF0 ≤ b0.toNat) (h0' : b0.toNat < 0xF5)
    (h1 : acceptLo b0.toNat ≤ b1.toNat ∧ b1.toNat ≤ acceptHi b0.toNat)
    (h2 : 0x80 ≤ b2.toNat ∧ b2.toNat ≤ 0xBF) (h3 : 0x80 ≤ b3.toNat ∧ b3.toNat ≤ 0xBF) :
    decodeRune (b0 :: b1 :: b2 :: b3 :: s) =
      (b0.toNat % 8 * 262144 + b1.toNat % 64 * 4096 + b2.toNat % 64 * 64 + b3.toNat % 64, 4) := by
  have a1 : ¬ b0.toNat < 0x80 := by omega
  have a2 : ¬ b0.toNat < 0xC2 := by omega
  have a3 : ¬ b0.toNat < 0xE0 := by omega
  have a4 : ¬ b0.toNat < 0xF0 := by omega
  simp only [decodeRune, if_neg a1, if_neg a2, if_neg a3, if_neg a4, if_pos h0', (inRange_iff _ _ _).2 h1,
    (inRange_iff _ _ _).2 h2, (inRange_iff _ _ _).2 h3, Bool.and_self, if_true]

theorem acceptLo_le {n m : Nat} (h : 0x80 ≤ m) (h1 : n = 0xE0 → 0xA0 ≤ m) (h2 : n = 0xF0 → 0x90 ≤ m) :
    acceptLo n ≤ m := by
  unfold acceptLo; split
  · omega
  · split <;> omega
theorem le_acceptHi {n m : Nat} (h : m ≤ 0xBF) (h1 : n = 0xED → m ≤ 0x9F) (h2 : n = 0xF4 → m ≤ 0x8F) :
    m ≤ acceptHi n := by
  unfold acceptHi; split
  · omega
  · split <;> omega

theorem toNat_ofNat_lt {n : Nat} (h : n < 256) : (UInt8.ofNat n).toNat = n := by
  simp; omega

/-- decoding what was encoded, for a valid scalar -/
theorem decodeRune_enc (c : Char) (s : Bytes) : decodeRune (enc c ++ s) = (c.toNat, (enc c).length) := by
  have hc := char_cases c
  rw [← encodeRune_char]
  generalize c.toNat = v at hc
  by_cases h1 : v ≤ 0x7F
  · rw [encodeRune_1 h1]
    have e1 : (UInt8.ofNat v).toNat = v := toNat_ofNat_lt (by omega)
    have : v < 0x80 := by omega
    simp only [List.cons_append, List.nil_append, decodeRune, e1, if_pos this, List.length_cons, List.length_nil]
  by_cases h2 : v ≤ 0x7FF
  · rw [encodeRune_2 h1 h2]
    have e1 : (UInt8.ofNat (0xC0 + v / 64)).toNat = 0xC0 + v / 64 := toNat_ofNat_lt (by omega)
    have e2 : (UInt8.ofNat (0x80 + v % 64)).toNat = 0x80 + v % 64 := toNat_ofNat_lt (by omega)
    simp only [List.cons_append, List.nil_append]
    rw [decodeRune_2 _ _ _ (by omega) (by omega) (by omega), e1, e2]
    simp; omega
  by_cases h3 : v ≤ 0xFFFF
  · rw [encodeRune_3 h2 (by omega) h3]
    have e1 : (UInt8.ofNat (0xE0 + v / 4096)).toNat = 0xE0 + v / 4096 := toNat_ofNat_lt (by omega)
    have e2 : (UInt8.ofNat (0x80 + v / 64 % 64)).toNat = 0x80 + v / 64 % 64 := toNat_ofNat_lt (by omega)
    have e3 : (UInt8.ofNat (0x80 + v % 64)).toNat = 0x80 + v % 64 := toNat_ofNat_lt (by omega)
    simp only [List.cons_append, List.nil_append]
    rw [decodeRune_3 _ _ _ _ (by omega) (by omega) ⟨acceptLo_le ?_ ?_ ?_, le_acceptHi ?_ ?_ ?_⟩ (by omega), e1, e2, e3]
    · simp; omega
    all_goals omega
  · rw [encodeRune_4 h3 (by omega)]
    have e1 : (UInt8.ofNat (0xF0 + v / 262144)).toNat = 0xF0 + v / 262144 := toNat_ofNat_lt (by omega)
    have e2 : (UInt8.ofNat (0x80 + v / 4096 % 64)).toNat = 0x80 + v / 4096 % 64 := toNat_ofNat_lt (by omega)
    have e3 : (UInt8.ofNat (0x80 + v / 64 % 64)).toNat = 0x80 + v / 64 % 64 := toNat_ofNat_lt (by omega)
    have e4 : (UInt8.ofNat (0x80 + v % 64)).toNat = 0x80 + v % 64 := toNat_ofNat_lt (by omega)
    simp only [List.cons_append, List.nil_append]
    rw [decodeRune_4 _ _ _ _ _ (by omega) (by omega) ⟨acceptLo_le ?_ ?_ ?_, le_acceptHi ?_ ?_ ?_⟩ (by omega)
      (by omega), e1, e2, e3, e4]
    · simp; omega
    all_goals omega

theorem byte_lt (b : UInt8) : b.toNat < 256 := b.toNat_lt

/-- The decoder's verdict on a non-empty string: either a well-formed character is at the front and is
returned with its width, or none is and the result is `(RuneError, 1)`. -/
theorem decodeRune_spec (b : UInt8) (s : Bytes) :
    (∃ (c : Char) (t : Bytes), b :: s = enc c ++ t ∧ decodeRune (b :: s) = (c.toNat, (enc c).length)) ∨
    ((∀ c : Char, ¬ enc c <+: b :: s) ∧ decodeRune (b :: s) = (runeError, 1)) := by
  by_cases h : ∃ (c : Char) (t : Bytes), b :: s = enc c ++ t
  · left
    obtain ⟨c, t, h⟩ := h
    exact ⟨c, t, h, by rw [h, decodeRune_enc]⟩
  · right
    refine ⟨fun c ⟨t, ht⟩ => h ⟨c, t, ht.symm⟩, ?_⟩
    -- if the decoder accepts, exhibit the character
    have key : ∀ (n : Nat) (hn : n < 0xD800 ∨ (0xDFFF < n ∧ n < 0x110000)) (t : Bytes),
        b :: s = encodeRune n ++ t → False := by
      intro n hn t ht
      exact h ⟨mkChar n hn, t, by rw [enc_mkChar]; exact ht⟩
    have hb := byte_lt b
    unfold decodeRune
    simp only
    split
    · exfalso
      refine key b.toNat (by omega) s ?_
      rw [encodeRune_1 (by omega)]
      simp
    · split
      · rfl
      · split
        · split
          · rename_i b1 t
            split
            · rename_i h1
              simp [inRange] at h1
              exfalso
              refine key (b.toNat % 32 * 64 + b1.toNat % 64) (by omega) t ?_
              rw [encodeRune_2 (by omega) (by omega)]
              simp only [List.cons_append, List.nil_append, List.cons.injEq, and_true]
              refine ⟨(ofNat_eq_of b ?_).symm, (ofNat_eq_of b1 ?_).symm⟩ <;> omega
            · rfl
          · rfl
        · split
          · split
            · rename_i b1 b2 t
              split
              · rename_i h1
                simp [inRange] at h1
                have hlo : (b.toNat = 0xE0 → 0xA0 ≤ b1.toNat) ∧ 0x80 ≤ b1.toNat := by
                  simp only [acceptLo] at h1
                  have := h1.1.1
                  split at this
                  · omega
                  · split at this <;> omega
                have hhi : (b.toNat = 0xED → b1.toNat ≤ 0x9F) ∧ b1.toNat ≤ 0xBF := by
                  simp only [acceptHi] at h1
                  have := h1.1.2
                  split at this
                  · omega
                  · split at this <;> omega
                exfalso
                refine key (b.toNat % 16 * 4096 + b1.toNat % 64 * 64 + b2.toNat % 64) (by omega) t ?_
                rw [encodeRune_3 (by omega) (by omega) (by omega)]
                simp only [List.cons_append, List.nil_append, List.cons.injEq, and_true]
                refine ⟨(ofNat_eq_of b ?_).symm, (ofNat_eq_of b1 ?_).symm, (ofNat_eq_of b2 ?_).symm⟩ <;> omega
              · rfl
            · rfl
          · split
            · split
              · rename_i b1 b2 b3 t
                split
                · rename_i h1
                  simp [inRange] at h1
                  have hlo : (b.toNat = 0xF0 → 0x90 ≤ b1.toNat) ∧ 0x80 ≤ b1.toNat := by
                    simp only [acceptLo] at h1
                    have := h1.1.1.1
                    split at this
                    · omega
                    · split at this <;> omega
                  have hhi : (b.toNat = 0xF4 → b1.toNat ≤ 0x8F) ∧ b1.toNat ≤ 0xBF := by
                    simp only [acceptHi] at h1
                    have := h1.1.1.2
                    split at this
                    · omega
                    · split at this <;> omega
                  exfalso
                  refine key (b.toNat % 8 * 262144 + b1.toNat % 64 * 4096 + b2.toNat % 64 * 64 + b3.toNat % 64)
                    (by omega) t ?_
                  rw [encodeRune_4 (by omega) (by omega)]
                  simp only [List.cons_append, List.nil_append, List.cons.injEq, and_true]
                  refine ⟨(ofNat_eq_of b ?_).symm, (ofNat_eq_of b1 ?_).symm, (ofNat_eq_of b2 ?_).symm,
                    (ofNat_eq_of b3 ?_).symm⟩ <;> omega
                · rfl
              · rfl
            · rfl

end Verif
