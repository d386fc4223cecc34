import Verif.Proofs.StrSem
import Verif.Proofs.StrSpec
import Verif.Spec.StrExact

/-! `unesc` and `esc` are the relations of `Spec/StrExact.lean`. -/

namespace Verif.StrJson
open Verif Verif.Spec

theorem looseDigit_fromHex : ∀ b : UInt8, (fromHex b).toNat = looseDigit b := forall_byte (by decide +kernel)

theorem looseCode_hex4 (a b c d : UInt8) (s : Bytes) : hex4 (117 :: a :: b :: c :: d :: s) 1 = looseCode a b c d := by
  simp only [hex4, at', List.getD_cons_succ, List.getD_cons_zero, looseDigit_fromHex, looseCode, Nat.shiftLeft_eq]

theorem looseCode_hex4_second (x y z w a b c d : UInt8) (s : Bytes) :
    hex4 (117 :: x :: y :: z :: w :: 92 :: 117 :: a :: b :: c :: d :: s) 7 = looseCode a b c d := by
  simp only [hex4, at', List.getD_cons_succ, List.getD_cons_zero, looseDigit_fromHex, looseCode, Nat.shiftLeft_eq]

theorem looseDigit_lt (b : UInt8) : looseDigit b < 256 := by
  rw [← looseDigit_fromHex]; exact UInt8.toNat_lt _

theorem looseCode_lt (a b c d : UInt8) : looseCode a b c d < 2 ^ 20 := by
  have ha := looseDigit_lt a; have hb := looseDigit_lt b; have hc := looseDigit_lt c; have hd := looseDigit_lt d
  unfold looseCode
  refine Nat.or_lt_two_pow (Nat.or_lt_two_pow (Nat.or_lt_two_pow ?_ ?_) ?_) ?_ <;> omega

theorem simple_short : ∀ e : UInt8, (simpleEscape e).all (fun v => decide ((e, v) ∈ shortEscapes)) = true :=
  forall_byte (by decide +kernel)

theorem simple_short' {e v : UInt8} (h : simpleEscape e = some v) : (e, v) ∈ shortEscapes := by
  have := simple_short e
  rw [h] at this
  simpa using this

theorem simple_none {e : UInt8} : simpleEscape e = none ↔ ∀ p ∈ shortEscapes, e ≠ p.1 := by
  constructor
  · rintro h ⟨e', v⟩ hp rfl
    rw [shortEscapes_simple _ _ hp] at h
    exact absurd h (by simp)
  · intro h
    cases hs : simpleEscape e with
    | none => rfl
    | some v => exact absurd rfl (h _ (simple_short' hs))

theorem isSurr_iff {n : Nat} : isSurrogate n = true ↔ HighSurr n ∨ LowSurr n := by
  unfold HighSurr LowSurr
  simp only [isSurrogate, decide_eq_true_eq]
  omega

theorem unesc_code {a b c d : UInt8} {x : Char} (h : looseCode a b c d = x.toNat) (s : Bytes) :
    unesc (92 :: 117 :: a :: b :: c :: d :: s) = enc x ++ unesc s := by
  have hl : (a :: b :: c :: d :: s).length > 3 := by simp
  have h4 := looseCode_hex4 a b c d s
  rw [unesc_step (by simp), ← encodeRune_char]
  by_cases hlt : x.toNat < 0x80
  · rw [uStep_uAscii hl (by rw [h4, h]; exact hlt), h4, h, encodeRune_lt hlt]
    rfl
  · have hc := char_cases x
    rw [uStep_uRune hl (by rw [h4, h]; exact hlt), h4, h]
    have hns : isSurrogate x.toNat = false := by simp [isSurrogate]; omega
    have : unescapeRune (117 :: a :: b :: c :: d :: s) 0 x.toNat = (x.toNat, 5) := by
      simp [unescapeRune, hns]
    rw [this]
    rfl

theorem unesc_two {a b c d a' b' c' d' : UInt8} (hs : HighSurr (looseCode a b c d) ∨ LowSurr (looseCode a b c d))
    (s : Bytes) : unesc (92 :: 117 :: a :: b :: c :: d :: 92 :: 117 :: a' :: b' :: c' :: d' :: s) =
      encodeRune (utf16DecodeRune (looseCode a b c d) (looseCode a' b' c' d')) ++ unesc s := by
  have hl : (a :: b :: c :: d :: 92 :: 117 :: a' :: b' :: c' :: d' :: s).length > 3 := by simp
  have h4 := looseCode_hex4 a b c d (92 :: 117 :: a' :: b' :: c' :: d' :: s)
  have h7 := looseCode_hex4_second a b c d a' b' c' d' s
  have hsur := isSurr_iff.2 hs
  have hge : ¬ looseCode a b c d < runeSelf := by unfold HighSurr LowSurr at hs; simp only [runeSelf]; omega
  rw [unesc_step (by simp), uStep_uRune hl (by rw [h4]; exact hge), h4]
  have : unescapeRune (117 :: a :: b :: c :: d :: 92 :: 117 :: a' :: b' :: c' :: d' :: s) 0 (looseCode a b c d) =
      (utf16DecodeRune (looseCode a b c d) (looseCode a' b' c' d'), 11) := by
    simp only [unescapeRune, hsur, if_true, h7]
    rw [if_pos ⟨by simp, rfl, rfl⟩]
  rw [this]
  rfl

theorem unesc_loneU {a b c d : UInt8} (hs : HighSurr (looseCode a b c d) ∨ LowSurr (looseCode a b c d))
    {s : Bytes} (hf : ¬ StartsU s) : unesc (92 :: 117 :: a :: b :: c :: d :: s) = replacement ++ unesc s := by
  have hl : (a :: b :: c :: d :: s).length > 3 := by simp
  have h4 := looseCode_hex4 a b c d s
  have hsur := isSurr_iff.2 hs
  have hge : ¬ looseCode a b c d < runeSelf := by unfold HighSurr LowSurr at hs; simp only [runeSelf]; omega
  rw [unesc_step (by simp), uStep_uRune hl (by rw [h4]; exact hge), h4]
  have hneg : ¬ ((117 :: a :: b :: c :: d :: s).length > 10 ∧ at' (117 :: a :: b :: c :: d :: s) 5 = 92 ∧
      at' (117 :: a :: b :: c :: d :: s) 6 = 117) := by
    rintro ⟨g1, g2, g3⟩
    match s, g1 with
    | p :: q :: t, g1 =>
      simp [at'] at g2 g3
      subst g2 g3
      exact hf ⟨by simp, by simp at g1 ⊢; omega⟩
    | [], g1 => simp at g1
    | [_], g1 => simp at g1
  have : unescapeRune (117 :: a :: b :: c :: d :: s) 0 (looseCode a b c d) = (runeError, 5) := by
    simp only [unescapeRune, hsur, if_true, if_neg hneg]
  rw [this]
  rfl

theorem unescapes_unesc {s t : Bytes} (h : Unescapes s t) : unesc s = t := by
  induction h with
  | nil => simp
  | plain b hb _ ih => rw [unesc_cons _ hb, ih]
  | short he _ ih => rw [unesc_short _ he, ih]
  | last => rw [unesc_step (by simp)]; simp [uStep]
  | unknown e hu hk _ ih =>
    rw [unesc_step (by simp), uStep_bad _ (simple_none.2 hk) hu]
    simp [ih]
  | few hl _ ih =>
    rw [unesc_step (by simp), uStep_uShort (by omega)]
    simp [ih]
  | code x hx _ ih => rw [unesc_code hx, ih]
  | pair x h1 h2 hx _ ih =>
    rw [unesc_two (Or.inl h1), ih, ← encodeRune_char, hx]
    unfold HighSurr at h1
    unfold LowSurr at h2
    simp only [utf16DecodeRune]
    rw [if_pos (by omega)]
    refine congrArg (fun n => encodeRune n ++ _) ?_
    omega
  | swallow hs hp _ ih =>
    rw [unesc_two hs, ih]
    simp only [utf16DecodeRune]
    rw [if_neg (by unfold HighSurr LowSurr at hp; omega)]
    rfl
  | lone hs hf _ ih => rw [unesc_loneU hs hf, ih]

theorem char_of {n : Nat} (h : n < 0x110000) (hs : ¬ (HighSurr n ∨ LowSurr n)) : ∃ x : Char, n = x.toNat := by
  have hv : n.isValidChar := by
    unfold HighSurr LowSurr at hs
    unfold Nat.isValidChar
    omega
  refine ⟨Char.ofNat n, ?_⟩
  simp [Char.ofNat, hv, Char.toNat, Char.ofNatAux, UInt32.toNat]

theorem unescapes_total (s : Bytes) : ∃ t, Unescapes s t := by
  induction hn : s.length using Nat.strongRecOn generalizing s with
  | _ n ih =>
    match s, hn with
    | [], _ => exact ⟨_, .nil⟩
    | b :: s, hn =>
      simp only [List.length_cons] at hn
      by_cases hb : b = 92
      · subst hb
        match s, hn with
        | [], _ => exact ⟨_, .last⟩
        | e :: s, hn =>
          simp only [List.length_cons] at hn
          obtain ⟨t, ht⟩ := ih s.length (by omega) s rfl
          cases hs : simpleEscape e with
          | some v => exact ⟨_, .short (simple_short' hs) ht⟩
          | none =>
            by_cases hu : e = 117
            · subst hu
              by_cases hl : s.length < 4
              · exact ⟨_, .few hl ht⟩
              · match s, hl, hn with
                | a :: b :: c :: d :: s, _, hn =>
                  simp only [List.length_cons] at hn
                  obtain ⟨t, ht⟩ := ih s.length (by omega) s rfl
                  by_cases hsur : HighSurr (looseCode a b c d) ∨ LowSurr (looseCode a b c d)
                  · by_cases hf : StartsU s
                    · obtain ⟨⟨r, rfl⟩, hlen⟩ := hf
                      match r, hlen, hn with
                      | a' :: b' :: c' :: d' :: s, _, hn =>
                        simp only [List.length_cons, List.cons_append, List.nil_append] at hn
                        obtain ⟨t, ht⟩ := ih s.length (by omega) s rfl
                        by_cases hp : HighSurr (looseCode a b c d) ∧ LowSurr (looseCode a' b' c' d')
                        · obtain ⟨h1, h2⟩ := hp
                          obtain ⟨x, hx⟩ := char_of (n := 0x10000 + (looseCode a b c d - 0xD800) * 0x400 +
                            (looseCode a' b' c' d' - 0xDC00)) (by unfold HighSurr LowSurr at *; omega)
                            (by unfold HighSurr LowSurr at *; omega)
                          exact ⟨_, .pair x h1 h2 hx.symm ht⟩
                        · exact ⟨_, .swallow hsur hp ht⟩
                      | [], h, _ => simp at h
                      | [_], h, _ => simp at h
                      | [_, _], h, _ => simp at h
                      | [_, _, _], h, _ => simp at h
                    · exact ⟨_, .lone hsur hf ht⟩
                  · obtain ⟨x, hx⟩ := char_of (by have := looseCode_lt a b c d; omega) hsur
                    exact ⟨_, .code x hx ht⟩
                | [], h, _ => simp at h
                | [_], h, _ => simp at h
                | [_, _], h, _ => simp at h
                | [_, _, _], h, _ => simp at h
            · exact ⟨_, .unknown e hu (simple_none.1 hs) ht⟩
      · obtain ⟨t, ht⟩ := ih s.length (by omega) s rfl
        exact ⟨_, .plain b hb ht⟩

theorem unescapes_iff (s t : Bytes) : Unescapes s t ↔ unesc s = t := by
  refine ⟨unescapes_unesc, ?_⟩
  rintro rfl
  obtain ⟨t, ht⟩ := unescapes_total s
  rw [unescapes_unesc ht]
  exact ht

/-! ## escape -/

/-- `Kept` for one-byte characters. -/
def keptB (html : Bool) (b : UInt8) : Bool :=
  decide (0x20 ≤ b.toNat ∧ b.toNat ≠ 34 ∧ b.toNat ≠ 92 ∧ b.toNat ≠ 47 ∧ b.toNat ≠ 0x7F ∧
    (html = true → b.toNat ≠ 60 ∧ b.toNat ≠ 62 ∧ b.toNat ≠ 38))

theorem char_ne_iff (c d : Char) : c ≠ d ↔ c.toNat ≠ d.toNat := by
  refine not_congr ⟨fun h => by rw [h], fun h => ?_⟩
  exact Char.ext (UInt32.toNat_inj.mp h)

theorem kept_ascii {html : Bool} {c : Char} {b : UInt8} (h : c.toNat = b.toNat) (hb : b.toNat < 0x80) :
    Kept html c ↔ keptB html b = true := by
  have e1 : '<'.toNat = 60 := rfl
  have e2 : '>'.toNat = 62 := rfl
  have e3 : '&'.toNat = 38 := rfl
  have e4 : '"'.toNat = 34 := rfl
  have e5 : '\\'.toNat = 92 := rfl
  have e6 : '/'.toNat = 47 := rfl
  simp only [Kept, keptB, char_ne_iff, h, e1, e2, e3, e4, e5, e6, decide_eq_true_eq]
  constructor
  · rintro ⟨h1, h2, h3, h4, h5, _, _, _, h6⟩; exact ⟨h1, h2, h3, h4, h5, h6⟩
  · rintro ⟨h1, h2, h3, h4, h5, h6⟩; exact ⟨h1, h2, h3, h4, h5, by omega, by omega, by omega, h6⟩

/-- What the table says about one byte. -/
def asciiOut (html : Bool) (b : UInt8) : Bytes :=
  if keptB html b then [b]
  else match shortEscapes.find? (fun p => p.2 == b) with
    | some (e, _) => [92, e]
    | none => uEscape b.toNat

theorem eStep_table (html : Bool) : ∀ b : UInt8, (if b.toNat < 0x80 then
      toJSON b != 0xff && decide ((eStep html [b]) = (asciiOut html b, 1)) else toJSON b == 0xff) = true := by
  cases html
  · exact forall_byte (by decide +kernel)
  · exact forall_byte (by decide +kernel)

theorem eStep_low {html : Bool} {b : UInt8} (h : b.toNat < 0x80) (r : Bytes) : eStep html (b :: r) = (asciiOut html b, 1) := by
  have := eStep_table html b
  rw [if_pos h] at this
  simp only [Bool.and_eq_true, bne_iff_ne, ne_eq, decide_eq_true_eq] at this
  obtain ⟨h1, h2⟩ := this
  rw [← h2, eStep_cons, eStep_cons, if_neg h1, if_neg h1]

theorem toJSON_high {b : UInt8} (h : ¬ b.toNat < 0x80) : toJSON b = 0xff := by
  have := eStep_table true b
  rw [if_neg h] at this
  simpa using this

theorem asciiOut_short : ∀ (e v : UInt8), (e, v) ∈ shortEscapes → v.toNat < 0x80 ∧ ∀ html, asciiOut html v = [92, e] := by
  intro e v h
  simp [shortEscapes] at h
  rcases h with ⟨rfl, rfl⟩ | ⟨rfl, rfl⟩ | ⟨rfl, rfl⟩ | ⟨rfl, rfl⟩ | ⟨rfl, rfl⟩ | ⟨rfl, rfl⟩ | ⟨rfl, rfl⟩ |
    ⟨rfl, rfl⟩ <;> exact ⟨by decide, fun html => by cases html <;> decide⟩

theorem asciiOut_none {html : Bool} {b : UInt8} (hk : keptB html b = false) (hs : ∀ p ∈ shortEscapes, b.toNat ≠ p.2.toNat) :
    asciiOut html b = uEscape b.toNat := by
  unfold asciiOut
  rw [hk]
  have : shortEscapes.find? (fun p => p.2 == b) = none := by
    rw [List.find?_eq_none]
    intro p hp h
    exact hs p hp (by rw [beq_iff_eq.1 h])
  rw [this]
  rfl

theorem enc_byte {c : Char} (h : c.toNat < 0x80) : ∃ b : UInt8, b.toNat = c.toNat ∧ enc c = [b] := by
  refine ⟨UInt8.ofNat c.toNat, by simp; omega, ?_⟩
  rw [← encodeRune_char, encodeRune_1 (by omega)]

theorem enc_big {c : Char} (h : ¬ c.toNat < 0x80) : ∃ b r, enc c = b :: r ∧ ¬ b.toNat < 0x80 := by
  cases he : enc c with
  | nil => exact absurd he (enc_ne_nil c)
  | cons b r =>
    refine ⟨b, r, rfl, ?_⟩
    have := encodeRune_high c.toNat (by omega) b (by rw [encodeRune_char, he]; simp)
    omega

theorem esc_big {html : Bool} {c : Char} (h : ¬ c.toNat < 0x80) (s : Bytes) : eStep html (enc c ++ s) =
    if c.toNat = runeError ∨ c.toNat = 0x2028 ∨ c.toNat = 0x2029 then (escapeUTF8 [] c.toNat, (enc c).length)
    else (enc c, (enc c).length) := by
  obtain ⟨b, r, he, hb⟩ := enc_big h
  have hd := decodeRune_enc c s
  rw [he, List.cons_append] at hd ⊢
  rw [eStep_cons, toJSON_high hb, if_neg (by decide), if_pos rfl, hd]
  simp only
  rw [← List.cons_append, List.take_left' rfl]

theorem escapes_esc {html : Bool} {s t : Bytes} (h : Escapes html s t) : esc html s = t := by
  induction h with
  | nil => simp
  | @kept c s t hk _ ih =>
    by_cases hc : c.toNat < 0x80
    · obtain ⟨b, hb, he⟩ := enc_byte hc
      rw [he, List.cons_append, esc_step (by simp), eStep_low (by omega)]
      have := (kept_ascii hb.symm (by omega)).1 hk
      simp [asciiOut, this, ih]
    · rw [esc_step (by simp), esc_big hc, if_neg (by simp only [runeError]; exact by have := hk; unfold Kept at this; omega)]
      simp only
      rw [List.drop_left' rfl, ih]
  | @short e v s t he _ ih =>
    obtain ⟨h1, h2⟩ := asciiOut_short e v he
    rw [esc_step (by simp), eStep_low h1, h2]
    simp [ih]
  | @hex c s t hk hs _ ih =>
    by_cases hc : c.toNat < 0x80
    · obtain ⟨b, hb, he⟩ := enc_byte hc
      rw [he, List.cons_append, esc_step (by simp), eStep_low (by omega), asciiOut_none, hb]
      · simp [ih]
      · cases hkb : keptB html b with
        | false => rfl
        | true => exact absurd ((kept_ascii hb.symm (by omega)).2 hkb) hk
      · rw [hb]; exact hs
    · have e1 : '<'.toNat = 60 := rfl
      have e2 : '>'.toNat = 62 := rfl
      have e3 : '&'.toNat = 38 := rfl
      have e4 : '"'.toNat = 34 := rfl
      have e5 : '\\'.toNat = 92 := rfl
      have e6 : '/'.toNat = 47 := rfl
      have hx : c.toNat = runeError ∨ c.toNat = 0x2028 ∨ c.toNat = 0x2029 := by
        refine Decidable.byContradiction fun hn => ?_
        simp only [runeError] at hn
        refine hk ?_
        simp only [Kept, char_ne_iff, e1, e2, e3, e4, e5, e6]
        refine ⟨by omega, by omega, by omega, by omega, by omega, by omega, by omega, by omega, fun _ => ?_⟩
        omega
      rw [esc_step (by simp), esc_big hc, if_pos hx]
      simp only
      rw [List.drop_left' rfl, ih]
      congr 1
      rcases hx with hx | hx | hx <;> rw [hx] <;> decide +kernel
  | @bad b s t hn _ ih =>
    have hb : ¬ b.toNat < 0x80 := by
      intro h
      obtain ⟨c, _, he⟩ := ascii_char b h
      exact hn c (by rw [he]; simp)
    rcases decodeRune_spec b s with ⟨c, t', h1, h2⟩ | ⟨_, h2⟩
    · exact absurd ⟨t', h1.symm⟩ (hn c)
    · rw [esc_step (by simp), eStep_cons, toJSON_high hb, if_neg (by decide), if_pos rfl, h2]
      simp only [true_or, if_true, List.drop_succ_cons, List.drop_zero, ih]
      congr 1

theorem escapes_total (html : Bool) (s : Bytes) : ∃ t, Escapes html s t := by
  induction hn : s.length using Nat.strongRecOn generalizing s with
  | _ n ih =>
    match s, hn with
    | [], _ => exact ⟨_, .nil⟩
    | b :: s, hn =>
      simp only [List.length_cons] at hn
      rcases decodeRune_spec b s with ⟨c, t', h1, _⟩ | ⟨h1, _⟩
      · have hl := congrArg List.length h1
        have hp := List.length_pos_iff.2 (enc_ne_nil c)
        simp only [List.length_cons, List.length_append] at hl
        obtain ⟨t, ht⟩ := ih t'.length (by omega) t' rfl
        rw [h1]
        by_cases hk : Kept html c
        · exact ⟨_, .kept c hk ht⟩
        · by_cases hs : ∀ p ∈ shortEscapes, c.toNat ≠ p.2.toNat
          · exact ⟨_, .hex c hk hs ht⟩
          · obtain ⟨⟨e, v⟩, hp, he⟩ : ∃ p ∈ shortEscapes, c.toNat = p.2.toNat := by
              refine Decidable.byContradiction fun hx => hs fun p hp he => hx ⟨p, hp, he⟩
            simp only at he
            have hv := (asciiOut_short e v hp).1
            obtain ⟨b', hb', hb2⟩ := enc_byte (c := c) (by omega)
            have : b' = v := UInt8.toNat_inj.mp (by omega)
            subst this
            rw [hb2]
            exact ⟨_, .short hp ht⟩
      · obtain ⟨t, ht⟩ := ih s.length (by omega) s rfl
        exact ⟨_, .bad b h1 ht⟩

theorem escapes_iff (html : Bool) (s t : Bytes) : Escapes html s t ↔ esc html s = t := by
  refine ⟨escapes_esc, ?_⟩
  rintro rfl
  obtain ⟨t, ht⟩ := escapes_total html s
  rw [escapes_esc ht]
  exact ht

end Verif.StrJson
