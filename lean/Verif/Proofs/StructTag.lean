import Verif.Model.StructTag
import Verif.Spec.StructTag
import Verif.Proofs.Utf8
import Verif.Proofs.UnTags

/-! # Lemmas on struct tags as texts -/

namespace Verif.StructTag
open Verif Verif.Spec Verif.Unjson

/-! ## Hexadecimal digits -/

theorem unhex_eq (c : UInt8) : unhex c = hexVal c := by
  revert c
  apply forall_byte
  decide +kernel

theorem hexNum_mem {h : Bytes} {n : Nat} (hh : HexNum h n) : ∀ c ∈ h, hexVal c ≠ none := by
  induction hh with
  | nil => simp
  | snoc h1 h2 ih =>
    intro c hc
    rcases List.mem_append.1 hc with hc | hc
    · exact ih c hc
    · simp only [List.mem_singleton] at hc; subst hc; rw [h2]; simp

theorem hexNum_fun {h : Bytes} {n m : Nat} (h1 : HexNum h n) (h2 : HexNum h m) : n = m := by
  induction h1 generalizing m with
  | nil => generalize e : ([] : Bytes) = l at h2; cases h2 with
    | nil => rfl
    | snoc => simp at e
  | snoc a b ih =>
    rename_i h' n' v d
    generalize e : h' ++ [d] = l at h2
    cases h2 with
    | nil => simp at e
    | snoc a' b' =>
      have := List.append_inj' e rfl
      obtain ⟨e1, e2⟩ := this
      subst e1
      simp only [List.cons.injEq, and_true] at e2
      subst e2
      rw [b] at b'
      cases b'
      rw [ih a']

theorem hexDigits_iff (n : Nat) : ∀ {h0 : Bytes} {v0 v : Nat} {s r : Bytes}, HexNum h0 v0 →
    (hexDigits n v0 s = some (v, r) ↔ ∃ h, h.length = n ∧ s = h ++ r ∧ HexNum (h0 ++ h) v) := by
  induction n with
  | zero =>
    intro h0 v0 v s r h
    simp only [hexDigits, Option.some.injEq, Prod.mk.injEq]
    constructor
    · rintro ⟨rfl, rfl⟩; exact ⟨[], rfl, rfl, by simpa using h⟩
    · rintro ⟨h', h1, h2, h3⟩
      have := List.eq_nil_of_length_eq_zero h1
      subst this
      simp only [List.append_nil, List.nil_append] at h2 h3
      exact ⟨hexNum_fun h h3, h2⟩
  | succ n ih =>
    intro h0 v0 v s r h
    cases s with
    | nil =>
      simp only [hexDigits]
      constructor
      · intro h; cases h
      · rintro ⟨h', h1, h2, h3⟩
        cases h' with
        | nil => simp at h1
        | cons => simp at h2
    | cons c s =>
      simp only [hexDigits, unhex_eq]
      cases hx : hexVal c with
      | none =>
        simp only
        constructor
        · intro h; cases h
        · rintro ⟨h', h1, h2, h3⟩
          cases h' with
          | nil => simp at h1
          | cons d h' =>
            simp only [List.cons_append, List.cons.injEq] at h2
            obtain ⟨h2, _⟩ := h2; subst h2
            exact absurd hx (hexNum_mem h3 _ (by simp))
      | some x =>
        simp only
        have hn : HexNum (h0 ++ [c]) (v0 * 16 + x) := by rw [Nat.mul_comm]; exact .snoc h hx
        rw [ih hn]
        constructor
        · rintro ⟨h', h1, h2, h3⟩
          refine ⟨c :: h', by simp [h1], by rw [h2]; rfl, by simpa using h3⟩
        · rintro ⟨h', h1, h2, h3⟩
          cases h' with
          | nil => simp at h1
          | cons d h' =>
            simp only [List.cons_append, List.cons.injEq] at h2
            obtain ⟨h2, h4⟩ := h2; subst h2
            exact ⟨h', by simpa using h1, h4, by simpa using h3⟩

theorem hexDigits_iff0 {n v : Nat} {s r : Bytes} :
    hexDigits n 0 s = some (v, r) ↔ ∃ h, h.length = n ∧ s = h ++ r ∧ HexNum h v := by
  have := hexDigits_iff n (v := v) (s := s) (r := r) HexNum.nil
  simpa using this

theorem hexNum_lt {h : Bytes} {n : Nat} (hh : HexNum h n) : n < 16 ^ h.length := by
  induction hh with
  | nil => simp
  | snoc a b ih =>
    rename_i h' n' v d
    have : v < 16 := by
      revert b; unfold hexVal; simp only
      split
      · intro h; cases h; omega
      · split
        · intro h; cases h; omega
        · split
          · intro h; cases h; omega
          · intro h; cases h
    simp only [List.length_append, List.length_singleton, Nat.pow_succ]
    omega

/-! ## Characters -/

theorem enc_ascii {c : Char} (h : c.toNat < 0x80) : enc c = [UInt8.ofNat c.toNat] := by
  rw [← encodeRune_char, encodeRune_1 (by omega)]

theorem enc_high {c : Char} (h : 0x80 ≤ c.toNat) : ∀ b ∈ enc c, 0x80 ≤ b := by
  intro b hb
  rw [← encodeRune_char] at hb
  have := encodeRune_high c.toNat (by omega) b hb
  rw [UInt8.le_iff_toNat_le]
  exact this

theorem char_ext {c d : Char} (h : c.toNat = d.toNat) : c = d := by
  exact Char.toNat_inj.1 h

/-- The first byte of an encoding below 0x80 is the character. -/
theorem enc_head {c : Char} {b : UInt8} {q t : Bytes} (h : enc c ++ q = b :: t) (hb : b < 0x80) : b.toNat = c.toNat ∧ q = t := by
  by_cases hc : c.toNat < 0x80
  · rw [enc_ascii hc] at h
    simp only [List.cons_append, List.nil_append, List.cons.injEq] at h
    refine ⟨?_, h.2⟩
    rw [← h.1, toNat_ofNat_lt (by omega)]
  · exfalso
    cases he : enc c with
    | nil => exact enc_ne_nil c he
    | cons x xs =>
      have := enc_high (c := c) (by omega) x (by rw [he]; simp)
      rw [he] at h
      simp only [List.cons_append, List.cons.injEq] at h
      rw [h.1, UInt8.le_iff_toNat_le] at this
      rw [UInt8.lt_iff_toNat_lt] at hb
      omega

theorem replacement_enc : replacement = encodeRune runeError := by decide +kernel

/-! ## Unquote -/

theorem enc_plain {c : Char} (h1 : c ≠ '"') (h2 : c ≠ '\\') : ∀ b ∈ enc c, b ≠ 34 ∧ b ≠ 92 := by
  intro b hb
  by_cases hc : c.toNat < 0x80
  · rw [enc_ascii hc] at hb
    simp only [List.mem_singleton] at hb
    subst hb
    constructor
    · intro h
      apply h1; apply char_ext
      have := congrArg UInt8.toNat h
      rw [toNat_ofNat_lt (by omega)] at this
      exact this
    · intro h
      apply h2; apply char_ext
      have := congrArg UInt8.toNat h
      rw [toNat_ofNat_lt (by omega)] at this
      exact this
  · have := enc_high (by omega) b hb
    rw [UInt8.le_iff_toNat_le] at this
    constructor <;> · rintro rfl; revert this; decide

theorem hex_plain {c : UInt8} (h : hexVal c ≠ none) : c ≠ 34 ∧ c ≠ 92 ∧ c ≠ 10 := by
  revert c
  apply forall_byte
  decide +kernel

theorem ite_eq_ne {α : Type} {p : Prop} [Decidable p] {a b x : α} (h : (if p then a else b) = x) : (p ∧ a = x) ∨ (¬ p ∧ b = x) := by
  by_cases hp : p
  · rw [if_pos hp] at h; exact .inl ⟨hp, h⟩
  · rw [if_neg hp] at h; exact .inr ⟨hp, h⟩

theorem octal_byte {d : UInt8} (h : 48 ≤ d ∧ d ≤ 55) : ∃ a, a < 8 ∧ d = UInt8.ofNat (48 + a) ∧ d.toNat - 48 = a := by
  obtain ⟨h1, h2⟩ := h
  rw [UInt8.le_iff_toNat_le] at h1 h2
  refine ⟨d.toNat - 48, ?_, (ofNat_eq_of d ?_).symm, rfl⟩
  · change d.toNat ≤ 55 at h2; omega
  · change 48 ≤ d.toNat at h1; omega

theorem unquoteChar_sound {c : UInt8} {s b s' : Bytes} (h : unquoteChar (c :: s) = some (b, s')) (h10 : c ≠ 10) :
    (∃ p, p ≠ [] ∧ c :: s = p ++ s') ∧ ∀ v, Unq s' v → Unq (c :: s) (b ++ v) := by
  unfold unquoteChar at h
  replace h := ite_eq_ne h
  rcases h with ⟨_, h⟩ | ⟨h34, h⟩
  · cases h
  replace h := ite_eq_ne h
  rcases h with ⟨h80, h⟩ | ⟨h80, h⟩
  · simp only [Option.some.injEq, Prod.mk.injEq] at h
    obtain ⟨rfl, rfl⟩ := h
    rcases decodeRune_spec c s with ⟨ch, t, h1, h2⟩ | ⟨h1, h2⟩
    · rw [h2]
      simp only
      rw [h1, List.drop_left, encodeRune_char]
      refine ⟨⟨enc ch, enc_ne_nil ch, rfl⟩, fun v hv => ?_⟩
      have hhi : 0x80 ≤ ch.toNat := by
        rcases Nat.lt_or_ge ch.toNat 0x80 with hl | hl
        · exfalso
          rw [enc_ascii hl] at h1
          simp only [List.cons_append, List.nil_append, List.cons.injEq] at h1
          rw [h1.1, UInt8.le_iff_toNat_le, toNat_ofNat_lt (by omega)] at h80
          change 128 ≤ _ at h80
          omega
        · exact hl
      refine .char ch ?_ ?_ ?_ hv <;> · rintro rfl; revert hhi; decide
    · rw [h2]
      refine ⟨⟨[c], by simp, rfl⟩, fun v hv => ?_⟩
      simp only [List.drop_succ_cons, List.drop_zero] at hv ⊢
      rw [← replacement_enc]
      exact .bad c h1 hv
  replace h := ite_eq_ne h
  rcases h with ⟨h92, h⟩ | ⟨h92, h⟩
  · simp only [Option.some.injEq, Prod.mk.injEq] at h
    obtain ⟨rfl, rfl⟩ := h
    refine ⟨⟨[c], by simp, rfl⟩, fun v hv => ?_⟩
    have hlt : c.toNat < 128 := by
      rw [UInt8.le_iff_toNat_le] at h80
      change ¬ 128 ≤ _ at h80
      omega
    have e : enc (mkChar c.toNat (by omega)) = [c] := by
      rw [enc_mkChar, encodeRune_1 (by omega)]
      simp
    have := Unq.char (mkChar c.toNat (by omega)) (q := s) (v := v) ?_ ?_ ?_ hv
    · rw [e] at this; exact this
    all_goals
      intro hh
      have h2 := congrArg Char.toNat hh
      rw [mkChar_val] at h2
    · exact h34 (UInt8.toNat_inj.1 h2)
    · exact h92 (UInt8.toNat_inj.1 h2)
    · exact h10 (UInt8.toNat_inj.1 h2)
  have hc : c = 92 := Classical.not_not.1 h92
  subst hc
  cases s with
  | nil => cases h
  | cons d s =>
    simp only at h
    have simple : ∀ x, (d, x) ∈ litEscapes → some ([x], s) = some (b, s') →
        (∃ p, p ≠ [] ∧ 92 :: d :: s = p ++ s') ∧ ∀ v, Unq s' v → Unq (92 :: d :: s) (b ++ v) := by
      intro x hx he
      simp only [Option.some.injEq, Prod.mk.injEq] at he
      obtain ⟨rfl, rfl⟩ := he
      exact ⟨⟨[92, d], by simp, rfl⟩, fun v hv => .esc hx hv⟩
    iterate 7
      replace h := ite_eq_ne h
      rcases h with ⟨hd, h⟩ | ⟨_, h⟩
      · exact simple _ (by rw [hd]; decide) h
    replace h := ite_eq_ne h
    rcases h with ⟨hd, h⟩ | ⟨_, h⟩
    · subst hd
      split at h
      · rename_i n r hx
        simp only [Option.some.injEq, Prod.mk.injEq] at h
        obtain ⟨rfl, rfl⟩ := h
        obtain ⟨hh, h1, rfl, h3⟩ := hexDigits_iff0.1 hx
        have hl := hexNum_lt h3
        rw [h1] at hl
        refine ⟨⟨92 :: 120 :: hh, by simp, by simp⟩, fun v hv => .byte _ h1 ?_ hv⟩
        rw [toNat_ofNat_lt hl]; exact h3
      · cases h
    replace h := ite_eq_ne h
    rcases h with ⟨hd, h⟩ | ⟨_, h⟩
    · subst hd
      split at h
      · rename_i n r hx
        simp only [Option.some.injEq, Prod.mk.injEq] at h
        obtain ⟨rfl, rfl⟩ := h
        obtain ⟨hh, h1, rfl, h3⟩ := hexDigits_iff0.1 hx
        have hl := hexNum_lt h3
        rw [h1] at hl
        refine ⟨⟨92 :: 117 :: hh, by simp, by simp⟩, fun v hv => ?_⟩
        by_cases hs : 0xD800 ≤ n ∧ n < 0xE000
        · have : encodeRune n = replacement := by
            unfold encodeRune
            rw [if_neg (by omega), if_neg (by omega), if_pos (by right; simp [isSurrogate, hs])]; rfl
          rw [this]
          exact .surr (.inl ⟨rfl, h1⟩) h3 hs.1 hs.2 hv
        · have hn : n < 0xD800 ∨ (0xDFFF < n ∧ n < 0x110000) := by omega
          have := Unq.u (mkChar n hn) h1 (by rw [mkChar_val]; exact h3) hv
          rw [enc_mkChar] at this
          exact this
      · cases h
    replace h := ite_eq_ne h
    rcases h with ⟨hd, h⟩ | ⟨_, h⟩
    · subst hd
      split at h
      · rename_i n r hx
        obtain ⟨hh, h1, rfl, h3⟩ := hexDigits_iff0.1 hx
        have hp : ∃ p, p ≠ [] ∧ 92 :: 85 :: (hh ++ r) = p ++ r := ⟨92 :: 85 :: hh, by simp, by simp⟩
        replace h := ite_eq_ne h
        rcases h with ⟨hg, h⟩ | ⟨hg, h⟩
        · simp only [Option.some.injEq, Prod.mk.injEq] at h
          obtain ⟨rfl, rfl⟩ := h
          refine ⟨hp, fun v hv => ?_⟩
          have e : UInt8.ofNat n = UInt8.ofNat (n % 256) := by
            apply UInt8.toNat_inj.1; simp
          rw [e]
          exact .negative h1 h3 hg hv
        · replace h := ite_eq_ne h
          rcases h with ⟨hm, h⟩ | ⟨hm, h⟩
          · cases h
          · simp only [Option.some.injEq, Prod.mk.injEq] at h
            obtain ⟨rfl, rfl⟩ := h
            refine ⟨hp, fun v hv => ?_⟩
            by_cases hs : 0xD800 ≤ n ∧ n < 0xE000
            · have : encodeRune n = replacement := by
                unfold encodeRune
                rw [if_neg (by omega), if_neg (by omega), if_pos (by right; simp [isSurrogate, hs])]; rfl
              rw [this]
              exact .surr (.inr ⟨rfl, h1⟩) h3 hs.1 hs.2 hv
            · have hn : n < 0xD800 ∨ (0xDFFF < n ∧ n < 0x110000) := by omega
              have := Unq.U (mkChar n hn) h1 (by rw [mkChar_val]; exact h3) hv
              rw [enc_mkChar] at this
              exact this
      · cases h
    replace h := ite_eq_ne h
    rcases h with ⟨hd, h⟩ | ⟨_, h⟩
    · match s, h with
      | e :: f :: s, h =>
        replace h := ite_eq_ne h
        rcases h with ⟨ho, h⟩ | ⟨_, h⟩
        · replace h := ite_eq_ne h
          rcases h with ⟨_, h⟩ | ⟨hv, h⟩
          · cases h
          simp only [Option.some.injEq, Prod.mk.injEq] at h
          obtain ⟨rfl, rfl⟩ := h
          obtain ⟨a, ha, rfl, ea⟩ := octal_byte hd
          obtain ⟨b, hb, rfl, eb⟩ := octal_byte ⟨ho.1, ho.2.1⟩
          obtain ⟨c, hc, rfl, ec⟩ := octal_byte ho.2.2
          rw [ea, eb, ec] at hv
          rw [ea, eb, ec]
          refine ⟨⟨[92, UInt8.ofNat (48 + a), UInt8.ofNat (48 + b), UInt8.ofNat (48 + c)], by simp, rfl⟩, fun v hv' => ?_⟩
          exact .octal (h := [UInt8.ofNat (48 + a), UInt8.ofNat (48 + b), UInt8.ofNat (48 + c)]) _
            ⟨a, b, c, ha, hb, hc, rfl, by rw [toNat_ofNat_lt (by omega)]; omega⟩ hv'
        · cases h
      | [], h => cases h
      | [_], h => cases h
    iterate 2
      replace h := ite_eq_ne h
      rcases h with ⟨hd, h⟩ | ⟨_, h⟩
      · exact simple _ (by rw [hd]; decide) h
    cases h

theorem unquoteLoop_sound (fuel : Nat) : ∀ (q v : Bytes), 10 ∉ q → unquoteLoop fuel q = some v → Unq q v := by
  induction fuel with
  | zero =>
    intro q v h10 h
    cases q with
    | nil => simp [unquoteLoop] at h; subst h; exact .nil
    | cons => simp [unquoteLoop] at h
  | succ fuel ih =>
    intro q v h10 h
    cases q with
    | nil => simp [unquoteLoop] at h; subst h; exact .nil
    | cons c s =>
      unfold unquoteLoop at h
      split at h
      · cases h
      · rename_i b s' hx
        simp only [List.mem_cons, not_or] at h10
        obtain ⟨⟨p, _, hp⟩, hu⟩ := unquoteChar_sound hx (fun e => h10.1 e.symm)
        split at h
        · rename_i t ht
          simp only [Option.some.injEq] at h
          subst h
          refine hu t (ih s' t ?_ ht)
          intro hm
          have : (10 : UInt8) ∈ c :: s := by rw [hp]; exact List.mem_append_right _ hm
          simp only [List.mem_cons] at this
          rcases this with h | h
          · exact h10.1 h
          · exact h10.2 h
        · cases h

theorem unq_ten {q v : Bytes} (h : Unq q v) : 10 ∉ q := by
  have hexc : ∀ {h : Bytes} {n : Nat}, HexNum h n → (10 : UInt8) ∉ h := by
    intro h n hh hm
    exact (hex_plain (hexNum_mem hh _ hm)).2.2 rfl
  induction h with
  | nil => simp
  | char c h1 h2 h3 _ ih =>
    simp only [List.mem_append, not_or]
    refine ⟨fun hm => ?_, ih⟩
    by_cases hc : c.toNat < 0x80
    · rw [enc_ascii hc] at hm
      simp only [List.mem_singleton] at hm
      apply h3; apply char_ext
      have := congrArg UInt8.toNat hm
      rw [toNat_ofNat_lt (by omega)] at this
      exact this.symm
    · have := enc_high (by omega) _ hm
      exact absurd this (by decide)
  | bad b h1 _ ih =>
    simp only [List.mem_cons, not_or]
    refine ⟨?_, ih⟩
    rintro rfl
    rename_i q _ _
    refine h1 '\n' ⟨q, ?_⟩
    rw [enc_ascii (by decide)]
    rfl
  | esc he _ ih =>
    simp only [List.mem_cons, not_or]
    refine ⟨by decide, ?_, ih⟩
    rintro rfl
    revert he
    simp [litEscapes]
  | byte b h1 h2 _ ih => simp only [List.mem_cons, List.mem_append, not_or]; exact ⟨by decide, by decide, hexc h2, ih⟩
  | octal b h1 _ ih =>
    obtain ⟨x, y, z, hx, hy, hz, rfl, _⟩ := h1
    have key : ∀ n, n < 8 → ¬ (10 : UInt8) = UInt8.ofNat (48 + n) := by
      intro n hn; revert n; decide
    simp only [List.mem_cons, List.mem_append, not_or, List.not_mem_nil]
    exact ⟨by decide, ⟨key x hx, key y hy, key z hz, by simp⟩, ih⟩
  | u c h1 h2 _ ih => simp only [List.mem_cons, List.mem_append, not_or]; exact ⟨by decide, by decide, hexc h2, ih⟩
  | U c h1 h2 _ ih => simp only [List.mem_cons, List.mem_append, not_or]; exact ⟨by decide, by decide, hexc h2, ih⟩
  | surr hl h2 _ _ _ ih =>
    simp only [List.mem_cons, List.mem_append, not_or]
    refine ⟨by decide, ?_, hexc h2, ih⟩
    rcases hl with ⟨rfl, _⟩ | ⟨rfl, _⟩ <;> decide
  | negative h1 h2 _ _ ih => simp only [List.mem_cons, List.mem_append, not_or]; exact ⟨by decide, by decide, hexc h2, ih⟩

theorem unquoteChar_enc {c : Char} {q : Bytes} (h1 : c ≠ '"') (h2 : c ≠ '\\') : unquoteChar (enc c ++ q) = some (enc c, q) := by
  cases he : enc c with
  | nil => exact absurd he (enc_ne_nil c)
  | cons b t =>
    have hp := enc_plain h1 h2 b (by rw [he]; simp)
    by_cases hc : c.toNat < 0x80
    · rw [enc_ascii hc] at he
      simp only [List.cons.injEq] at he
      obtain ⟨rfl, rfl⟩ := he
      have : ¬ (0x80 : UInt8) ≤ UInt8.ofNat c.toNat := by
        rw [UInt8.le_iff_toNat_le, toNat_ofNat_lt (by omega)]; change ¬ 128 ≤ _; omega
      simp only [unquoteChar, List.cons_append, List.nil_append]
      rw [if_neg hp.1, if_neg this, if_pos hp.2]
    · have hb := enc_high (c := c) (by omega) b (by rw [he]; simp)
      have hd := decodeRune_enc c q
      rw [he] at hd
      simp only [List.cons_append] at hd ⊢
      simp only [unquoteChar]
      rw [if_neg hp.1, if_pos hb]
      simp only [hd]
      have : (b :: (t ++ q)).drop (b :: t).length = q := by simp
      rw [this, encodeRune_char, he]

theorem unquoteChar_bad {b : UInt8} {q : Bytes} (h : ∀ c : Char, ¬ enc c <+: b :: q) : unquoteChar (b :: q) = some (replacement, q) := by
  have hb : 0x80 ≤ b := by
    rw [UInt8.le_iff_toNat_le]
    change 128 ≤ _
    rcases Nat.lt_or_ge b.toNat 128 with hl | hl
    · exfalso
      refine h (mkChar b.toNat (by omega)) ⟨q, ?_⟩
      rw [enc_mkChar, encodeRune_1 (by omega)]
      simp
    · exact hl
  have h34 : b ≠ 34 := by rintro rfl; revert hb; decide
  rcases decodeRune_spec b q with ⟨c, t, h1, _⟩ | ⟨_, h2⟩
  · exact absurd ⟨t, h1.symm⟩ (h c)
  · simp only [unquoteChar]
    rw [if_neg h34, if_pos hb, h2]
    simp only [List.drop_succ_cons, List.drop_zero]
    rw [replacement_enc]

theorem encodeRune_surr {n : Nat} (h1 : 0xD800 ≤ n) (h2 : n < 0xE000) : encodeRune n = replacement := by
  unfold encodeRune
  rw [if_neg (by omega), if_neg (by omega), if_pos (by right; simp [isSurrogate, h1, h2])]; rfl

theorem unquoteLoop_complete {q v : Bytes} (h : Unq q v) : ∀ fuel, q.length ≤ fuel → unquoteLoop fuel q = some v := by
  have step : ∀ {q s b v : Bytes}, unquoteChar q = some (b, s) → s.length < q.length → (∀ fuel, s.length ≤ fuel → unquoteLoop fuel s = some v) →
      ∀ fuel, q.length ≤ fuel → unquoteLoop fuel q = some (b ++ v) := by
    intro q s b v h hl ih fuel hf
    cases q with
    | nil => simp at hl
    | cons c q =>
      cases fuel with
      | zero => simp at hf
      | succ fuel =>
        unfold unquoteLoop
        rw [h]
        simp only
        rw [ih fuel (by simp only [List.length_cons] at hf hl; omega)]
  have hex : ∀ {h q : Bytes} {n k : Nat}, h.length = k → HexNum h n → hexDigits k 0 (h ++ q) = some (n, q) :=
    fun h1 h2 => hexDigits_iff0.2 ⟨_, h1, rfl, h2⟩
  induction h with
  | nil => intro fuel _; unfold unquoteLoop; rfl
  | char c h1 h2 h3 _ ih =>
    refine step (unquoteChar_enc h1 h2) ?_ ih
    have := List.length_pos_iff.2 (enc_ne_nil c)
    simp only [List.length_append]; omega
  | bad b h1 _ ih => exact step (unquoteChar_bad h1) (by simp) ih
  | esc he _ ih =>
    rename_i e b q v _
    refine step (b := [b]) ?_ (by simp only [List.length_cons]; omega) ih
    simp only [litEscapes, List.mem_cons, Prod.mk.injEq, List.not_mem_nil, or_false] at he
    rcases he with ⟨rfl, rfl⟩ | ⟨rfl, rfl⟩ | ⟨rfl, rfl⟩ | ⟨rfl, rfl⟩ | ⟨rfl, rfl⟩ | ⟨rfl, rfl⟩ | ⟨rfl, rfl⟩ | ⟨rfl, rfl⟩ | ⟨rfl, rfl⟩ <;> rfl
  | byte b h1 h2 _ ih =>
    refine step (b := [b]) ?_ (by simp only [List.length_cons, List.length_append]; omega) ih
    show (match hexDigits 2 0 _ with | some (v, s) => some ([UInt8.ofNat v], s) | none => none) = _
    rw [hex h1 h2]; simp
  | octal b h1 _ ih =>
    obtain ⟨x, y, z, hx, hy, hz, rfl, hn⟩ := h1
    rename_i q v _
    refine step (b := [b]) ?_ (by simp; omega) ih
    have hb := byte_lt b
    have key : ∀ n, n < 8 → (48 ≤ UInt8.ofNat (48 + n) ∧ UInt8.ofNat (48 + n) ≤ 55) ∧ (UInt8.ofNat (48 + n)).toNat - 48 = n ∧
      UInt8.ofNat (48 + n) ≠ 97 ∧ UInt8.ofNat (48 + n) ≠ 98 ∧ UInt8.ofNat (48 + n) ≠ 102 ∧ UInt8.ofNat (48 + n) ≠ 110 ∧
      UInt8.ofNat (48 + n) ≠ 114 ∧ UInt8.ofNat (48 + n) ≠ 116 ∧ UInt8.ofNat (48 + n) ≠ 118 ∧ UInt8.ofNat (48 + n) ≠ 120 ∧
      UInt8.ofNat (48 + n) ≠ 117 ∧ UInt8.ofNat (48 + n) ≠ 85 := by decide
    obtain ⟨k1, k2, n1, n2, n3, n4, n5, n6, n7, n8, n9, n10⟩ := key x hx
    obtain ⟨l1, l2, -⟩ := key y hy
    obtain ⟨m1, m2, -⟩ := key z hz
    simp only [unquoteChar, List.cons_append, List.nil_append]
    rw [if_neg (by decide), if_neg (by decide), if_neg (by decide), if_neg n1, if_neg n2, if_neg n3, if_neg n4, if_neg n5, if_neg n6,
      if_neg n7, if_neg n8, if_neg n9, if_neg n10, if_pos k1, if_pos ⟨l1.1, l1.2, m1⟩, k2, l2, m2, if_neg (by omega)]
    simp only [Option.some.injEq, Prod.mk.injEq, List.cons.injEq, and_true]
    exact ofNat_eq_of b (by omega)
  | u c h1 h2 _ ih =>
    refine step ?_ (by simp only [List.length_cons, List.length_append]; omega) ih
    show (match hexDigits 4 0 _ with | some (v, s) => some (encodeRune v, s) | none => none) = _
    rw [hex h1 h2]; simp only [encodeRune_char]
  | U c h1 h2 _ ih =>
    refine step ?_ (by simp only [List.length_cons, List.length_append]; omega) ih
    show (match hexDigits 8 0 _ with
      | some (v, s) => if 0x80000000 ≤ v then some ([UInt8.ofNat v], s) else if 0x10FFFF < v then none else some (encodeRune v, s)
      | none => none) = _
    rw [hex h1 h2]
    have := char_cases c
    simp only
    rw [if_neg (by omega), if_neg (by omega), encodeRune_char]
  | surr hl h2 h3 h4 _ ih =>
    refine step ?_ (by simp only [List.length_cons, List.length_append]; omega) ih
    rcases hl with ⟨rfl, h1⟩ | ⟨rfl, h1⟩
    · show (match hexDigits 4 0 _ with | some (v, s) => some (encodeRune v, s) | none => none) = _
      rw [hex h1 h2]; simp only [encodeRune_surr h3 h4]
    · show (match hexDigits 8 0 _ with
        | some (v, s) => if 0x80000000 ≤ v then some ([UInt8.ofNat v], s) else if 0x10FFFF < v then none else some (encodeRune v, s)
        | none => none) = _
      rw [hex h1 h2]
      simp only
      rw [if_neg (by omega), if_neg (by omega), encodeRune_surr h3 h4]
  | negative h1 h2 h3 _ ih =>
    rename_i n _ _ _
    refine step (b := [UInt8.ofNat (n % 256)]) ?_ (by simp only [List.length_cons, List.length_append]; omega) ih
    show (match hexDigits 8 0 _ with
      | some (v, s) => if 0x80000000 ≤ v then some ([UInt8.ofNat v], s) else if 0x10FFFF < v then none else some (encodeRune v, s)
      | none => none) = _
    rw [hex h1 h2]
    simp only
    rw [if_pos h3]
    have e : UInt8.ofNat n = UInt8.ofNat (n % 256) := by
      apply UInt8.toNat_inj.1; simp
    rw [e]

theorem validString_unq (fuel : Nat) : ∀ q : Bytes, validString fuel q = true → 10 ∉ q → 92 ∉ q → 34 ∉ q → Unq q q := by
  induction fuel with
  | zero =>
    intro q h _ _ _
    cases q with
    | nil => exact .nil
    | cons => simp [validString] at h
  | succ fuel ih =>
    intro q h h10 h92 h34
    cases q with
    | nil => exact .nil
    | cons c s =>
      simp only [validString] at h
      have key : ∀ {ch : Char} {t : Bytes}, c :: s = enc ch ++ t → ch ≠ '"' ∧ ch ≠ '\\' ∧ ch ≠ '\n' ∧ 10 ∉ t ∧ 92 ∉ t ∧ 34 ∉ t := by
        intro ch t he
        rw [he] at h10 h92 h34
        simp only [List.mem_append, not_or] at h10 h92 h34
        refine ⟨?_, ?_, ?_, h10.2, h92.2, h34.2⟩
        · rintro rfl; exact h34.1 (by decide)
        · rintro rfl; exact h92.1 (by decide)
        · rintro rfl; exact h10.1 (by decide)
      by_cases hc : c < 0x80
      · rw [if_pos hc] at h
        rw [UInt8.lt_iff_toNat_lt] at hc
        change c.toNat < 128 at hc
        have e : enc (mkChar c.toNat (by omega)) = [c] := by
          rw [enc_mkChar, encodeRune_1 (by omega)]; simp
        have he : c :: s = enc (mkChar c.toNat (by omega)) ++ s := by rw [e]; rfl
        obtain ⟨k1, k2, k3, k4, k5, k6⟩ := key he
        rw [he]
        exact .char _ k1 k2 k3 (ih s h k4 k5 k6)
      · rw [if_neg hc] at h
        rcases decodeRune_spec c s with ⟨ch, t, h1, h2⟩ | ⟨h1, h2⟩
        · rw [h2] at h
          simp only at h
          obtain ⟨k1, k2, k3, k4, k5, k6⟩ := key h1
          rw [h1]
          refine .char _ k1 k2 k3 (ih t ?_ k4 k5 k6)
          split at h
          · cases h
          · rw [h1, List.drop_left] at h; exact h
        · rw [h2] at h; simp at h

theorem unquote_iff (q v : Bytes) : unquote q = some v ↔ Unq q v := by
  unfold unquote
  by_cases h10 : 10 ∈ q
  · rw [if_pos h10]
    exact ⟨(fun h => by cases h), fun h => absurd h10 (unq_ten h)⟩
  · rw [if_neg h10]
    by_cases hf : 92 ∉ q ∧ 34 ∉ q ∧ validString q.length q = true
    · rw [if_pos hf]
      have hu := validString_unq _ q hf.2.2 h10 hf.1 hf.2.1
      constructor
      · intro h; cases h; exact hu
      · intro h
        have h1 := unquoteLoop_complete h _ (Nat.le_refl _)
        have h2 := unquoteLoop_complete hu _ (Nat.le_refl _)
        rw [← h2, h1]
    · rw [if_neg hf]
      exact ⟨unquoteLoop_sound _ q v h10, fun h => unquoteLoop_complete h _ (Nat.le_refl _)⟩

/-! ## Literals -/

theorem lit_unq {q v : Bytes} (h : Lit q v) : Unq q v := by
  induction h with
  | nil => exact .nil
  | char c h1 h2 h3 _ ih => exact .char c h1 h2 h3 ih
  | esc he _ ih => exact .esc he ih
  | byte b h1 h2 _ ih => exact .byte b h1 h2 ih
  | octal b h1 _ ih => exact .octal b h1 ih
  | u c h1 h2 _ ih => exact .u c h1 h2 ih
  | U c h1 h2 _ ih => exact .U c h1 h2 ih

theorem raw_append {p q : Bytes} (hp : ∀ c ∈ p, c ≠ 34 ∧ c ≠ 92) (hq : Raw q) : Raw (p ++ q) := by
  induction p with
  | nil => exact hq
  | cons c p ih =>
    have := hp c (by simp)
    exact .plain this.1 this.2 (ih fun d hd => hp d (by simp [hd]))

theorem lit_raw {q v : Bytes} (h : Lit q v) : Raw q := by
  have hexc : ∀ {h : Bytes} {n : Nat}, HexNum h n → ∀ c ∈ h, c ≠ 34 ∧ c ≠ 92 := by
    intro h n hh c hm
    have := hex_plain (hexNum_mem hh _ hm)
    exact ⟨this.1, this.2.1⟩
  induction h with
  | nil => exact .nil
  | char c h1 h2 h3 _ ih => exact raw_append (enc_plain h1 h2) ih
  | esc he _ ih => exact .esc _ ih
  | byte b h1 h2 _ ih => exact .esc _ (raw_append (hexc h2) ih)
  | octal b h1 _ ih =>
    obtain ⟨x, y, z, hx, hy, hz, rfl, _⟩ := h1
    have key : ∀ n, n < 8 → UInt8.ofNat (48 + n) ≠ 34 ∧ UInt8.ofNat (48 + n) ≠ 92 := by decide
    exact .esc _ (.plain (key y hy).1 (key y hy).2 (.plain (key z hz).1 (key z hz).2 ih))
  | u c h1 h2 _ ih => exact .esc _ (raw_append (hexc h2) ih)
  | U c h1 h2 _ ih => exact .esc _ (raw_append (hexc h2) ih)

theorem enc_length_le (c : Char) : (enc c).length ≤ 4 := by
  rw [← encodeRune_char]; exact encodeRune_length_le _

theorem lit_length {q v : Bytes} (h : Lit q v) : v.length ≤ q.length := by
  induction h with
  | nil => simp
  | char c h1 h2 h3 _ ih => simp only [List.length_append]; omega
  | esc he _ ih => simp only [List.length_cons]; omega
  | byte b h1 h2 _ ih => simp only [List.length_cons, List.length_append]; omega
  | octal b h1 _ ih => simp only [List.length_cons, List.length_append]; omega
  | u c h1 h2 _ ih => have := enc_length_le c; simp only [List.length_cons, List.length_append]; omega
  | U c h1 h2 _ ih => have := enc_length_le c; simp only [List.length_cons, List.length_append]; omega

/-! ## Lookup -/

theorem skipSpaces_replicate (n : Nat) (s : Bytes) : skipSpaces (List.replicate n 32 ++ s) = skipSpaces s := by
  induction n with
  | zero => rfl
  | succ n ih => simp only [List.replicate_succ, List.cons_append, skipSpaces, if_true]; exact ih

theorem skipSpaces_eq (s : Bytes) : ∃ n, s = List.replicate n 32 ++ skipSpaces s := by
  induction s with
  | nil => exact ⟨0, rfl⟩
  | cons c s ih =>
    unfold skipSpaces
    by_cases hc : c = 32
    · rw [if_pos hc]
      obtain ⟨n, hn⟩ := ih
      refine ⟨n + 1, ?_⟩
      rw [hc, List.replicate_succ, List.cons_append, ← hn]
    · rw [if_neg hc]; exact ⟨0, rfl⟩

theorem scanName_eq (s : Bytes) : s = (scanName s).1 ++ (scanName s).2 ∧
    (∀ c ∈ (scanName s).1, 32 < c ∧ c ≠ 34 ∧ c ≠ 58 ∧ c ≠ 127) := by
  induction s with
  | nil => exact ⟨rfl, by intro c hc; simp [scanName] at hc⟩
  | cons c s ih =>
    unfold scanName
    by_cases hc : 32 < c ∧ c ≠ 58 ∧ c ≠ 34 ∧ c ≠ 0x7f
    · rw [if_pos hc]
      simp only [List.cons_append, List.cons.injEq, true_and]
      refine ⟨ih.1, ?_⟩
      intro d hd
      rcases List.mem_cons.1 hd with rfl | hd
      · exact ⟨hc.1, hc.2.2.1, hc.2.1, hc.2.2.2⟩
      · exact ih.2 d hd
    · rw [if_neg hc]; simp

theorem scanName_append {k : Bytes} (hk : ∀ c ∈ k, 32 < c ∧ c ≠ 34 ∧ c ≠ 58 ∧ c ≠ 127) (s : Bytes) :
    scanName (k ++ 58 :: s) = (k, 58 :: s) := by
  induction k with
  | nil => rfl
  | cons c k ih =>
    obtain ⟨h1, h2, h3, h4⟩ := hk c (by simp)
    simp only [List.cons_append, scanName]
    rw [if_pos ⟨h1, h3, h2, h4⟩, ih fun d hd => hk d (by simp [hd])]

theorem skipSpaces_key {k : Bytes} (hk : TagKeyText k) (s : Bytes) : skipSpaces (k ++ s) = k ++ s := by
  obtain ⟨h1, h2⟩ := hk
  cases k with
  | nil => exact absurd rfl h1
  | cons c k =>
    have := (h2 c (by simp)).1
    simp only [List.cons_append, skipSpaces]
    rw [if_neg]
    rintro rfl
    exact absurd this (by decide)

theorem scanQuoted_raw {q : Bytes} (h : Raw q) (rest : Bytes) : scanQuoted (q ++ 34 :: rest) = some (q, rest) := by
  induction h with
  | nil => rw [scanQuoted.eq_def]; simp
  | plain h1 h2 _ ih =>
    simp only [List.cons_append]
    unfold scanQuoted
    rw [if_neg h1, if_neg h2, ih]
  | esc d _ ih =>
    simp only [List.cons_append]
    unfold scanQuoted
    rw [if_neg (by decide), if_pos rfl]
    simp only [ih]

theorem scanQuoted_sound (n : Nat) : ∀ {s q rest : Bytes}, s.length ≤ n → scanQuoted s = some (q, rest) → Raw q ∧ s = q ++ 34 :: rest := by
  induction n with
  | zero =>
    intro s q rest hl h
    cases s with
    | nil => simp [scanQuoted] at h
    | cons => simp at hl
  | succ n ih =>
    intro s q rest hl h
    cases s with
    | nil => simp [scanQuoted] at h
    | cons c s =>
      simp only [List.length_cons] at hl
      unfold scanQuoted at h
      by_cases h34 : c = 34
      · rw [if_pos h34] at h
        simp only [Option.some.injEq, Prod.mk.injEq] at h
        obtain ⟨rfl, rfl⟩ := h
        exact ⟨.nil, by rw [h34]; rfl⟩
      · rw [if_neg h34] at h
        by_cases h92 : c = 92
        · rw [if_pos h92] at h
          cases s with
          | nil => simp at h
          | cons d s =>
            simp only at h
            cases hs : scanQuoted s with
            | none => rw [hs] at h; simp at h
            | some p =>
              rw [hs] at h
              simp only [Option.some.injEq, Prod.mk.injEq] at h
              obtain ⟨rfl, rfl⟩ := h
              obtain ⟨i1, i2⟩ := ih (q := p.1) (rest := p.2) (by simp only [List.length_cons] at hl; omega) hs
              rw [h92]
              exact ⟨.esc d i1, by rw [i2]; rfl⟩
        · rw [if_neg h92] at h
          cases hs : scanQuoted s with
          | none => rw [hs] at h; simp at h
          | some p =>
            rw [hs] at h
            simp only [Option.some.injEq, Prod.mk.injEq] at h
            obtain ⟨rfl, rfl⟩ := h
            obtain ⟨i1, i2⟩ := ih (q := p.1) (rest := p.2) (by omega) hs
            exact ⟨.plain h34 h92 i1, by rw [i2]; rfl⟩

theorem isEntry_length {s k q rest : Bytes} (h : IsEntry s k q rest) : rest.length < s.length := by
  obtain ⟨_, _, n, rfl⟩ := h
  simp only [List.length_append, List.length_cons]
  omega

theorem lookupLoop_entry {s k q rest : Bytes} (h : IsEntry s k q rest) (fuel : Nat) (key : Bytes) :
    lookupLoop (fuel + 1) s key = if key = k then unquote q else lookupLoop fuel rest key := by
  obtain ⟨hk, hq, n, rfl⟩ := h
  rw [lookupLoop]
  rw [skipSpaces_replicate, skipSpaces_key hk, scanName_append hk.2]
  simp only
  rw [if_neg hk.1, scanQuoted_raw hq]

theorem lookupLoop_stop {s : Bytes} (h : ¬ ∃ k q rest, IsEntry s k q rest) (fuel : Nat) (key : Bytes) : lookupLoop fuel s key = none := by
  cases fuel with
  | zero => rfl
  | succ fuel =>
    unfold lookupLoop
    simp only
    split
    · rfl
    · rename_i hne
      split
      · rename_i s' hs
        split
        · rename_i q rest hq
          exfalso
          obtain ⟨n, hn⟩ := skipSpaces_eq s
          obtain ⟨h1, h2⟩ := scanName_eq (skipSpaces s)
          obtain ⟨h3, h4⟩ := scanQuoted_sound _ (Nat.le_refl _) hq
          refine h ⟨(scanName (skipSpaces s)).1, q, rest, ⟨hne, h2⟩, h3, n, ?_⟩
          rw [← h4, ← hs, ← h1]
          exact hn
        · rfl
      · rfl

theorem entries_exists (n : Nat) : ∀ s : Bytes, s.length ≤ n → ∃ es, Entries s es := by
  induction n with
  | zero =>
    intro s hl
    refine ⟨[], .stop ?_⟩
    rintro ⟨k, q, rest, h⟩
    have := isEntry_length h
    omega
  | succ n ih =>
    intro s hl
    by_cases h : ∃ k q rest, IsEntry s k q rest
    · obtain ⟨k, q, rest, h⟩ := h
      have := isEntry_length h
      obtain ⟨es, hes⟩ := ih rest (by omega)
      exact ⟨_, .entry h hes⟩
    · exact ⟨[], .stop h⟩

/-- The value of the first pair with the key, as a function. -/
def first (ps : List (Bytes × Bytes)) (key : Bytes) : Option Bytes :=
  match ps with
  | [] => none
  | p :: ps => if key = p.1 then some p.2 else first ps key

theorem lookupLoop_entries {s : Bytes} {es : List (Bytes × Bytes)} (h : Entries s es) (key : Bytes) :
    ∀ fuel, s.length ≤ fuel → lookupLoop fuel s key = (first es key).bind unquote := by
  induction h with
  | stop h => intro fuel _; rw [lookupLoop_stop h]; rfl
  | entry h _ ih =>
    intro fuel hf
    have hl := isEntry_length h
    cases fuel with
    | zero => omega
    | succ fuel =>
      rw [lookupLoop_entry h]
      unfold first
      split
      · rfl
      · exact ih fuel (by omega)

theorem first_iff (ps : List (Bytes × Bytes)) (key v : Bytes) : first ps key = some v ↔ FirstValue ps key v := by
  induction ps with
  | nil =>
    constructor
    · intro h; cases h
    · rintro ⟨a, b, h, _⟩; simp at h
  | cons p ps ih =>
    unfold first
    by_cases hk : key = p.1
    · rw [if_pos hk]
      constructor
      · intro h
        cases h
        exact ⟨[], ps, by rw [hk]; rfl, by simp⟩
      · rintro ⟨a, b, h, ha⟩
        cases a with
        | nil => simp only [List.nil_append, List.cons.injEq] at h; rw [h.1]
        | cons x a =>
          simp only [List.cons_append, List.cons.injEq] at h
          exact absurd (by rw [hk, h.1]) (ha x (by simp))
    · rw [if_neg hk, ih]
      constructor
      · rintro ⟨a, b, h, ha⟩
        refine ⟨p :: a, b, by rw [h]; rfl, ?_⟩
        intro x hx
        rcases List.mem_cons.1 hx with rfl | hx
        · exact fun h => hk h.symm
        · exact ha x hx
      · rintro ⟨a, b, h, ha⟩
        cases a with
        | nil =>
          simp only [List.nil_append, List.cons.injEq] at h
          exact absurd (by rw [h.1]) hk
        | cons x a =>
          simp only [List.cons_append, List.cons.injEq] at h
          exact ⟨a, b, h.2, fun y hy => ha y (by simp [hy])⟩

theorem lookup_entries {s : Bytes} {es : List (Bytes × Bytes)} (h : Entries s es) (key v : Bytes) :
    lookup s key = some v ↔ ∃ q, FirstValue es key q ∧ Unq q v := by
  unfold lookup
  rw [lookupLoop_entries h key _ (Nat.le_refl _), Option.bind_eq_some_iff]
  simp only [first_iff, unquote_iff]

theorem not_isEntry_spaces (n : Nat) : ¬ ∃ k q rest, IsEntry (List.replicate n 32) k q rest := by
  rintro ⟨k, q, rest, hk, _, m, h⟩
  have : (34 : UInt8) ∈ List.replicate n (32 : UInt8) := by
    rw [h]; simp
  have := List.eq_of_mem_replicate this
  exact absurd this (by decide)

/-- Conventional tags: lookup as in the list of pairs. -/
theorem lookupLoop_conventional {s : Bytes} {ps : List (Bytes × Bytes)} (h : Conventional s ps) (key : Bytes) :
    ∀ fuel, s.length ≤ fuel → lookupLoop fuel s key = first ps key := by
  induction h with
  | nil n => intro fuel _; rw [lookupLoop_stop (not_isEntry_spaces n)]; rfl
  | pair n hk hq _ ih =>
    rename_i k q v rest ps _
    intro fuel hf
    have he : IsEntry (List.replicate n 32 ++ (k ++ 58 :: 34 :: (q ++ 34 :: rest))) k q rest := ⟨hk, lit_raw hq, n, rfl⟩
    have hl := isEntry_length he
    cases fuel with
    | zero => omega
    | succ fuel =>
      rw [lookupLoop_entry he]
      unfold first
      split
      · exact (unquote_iff q v).2 (lit_unq hq)
      · exact ih fuel (by omega)

theorem first_eq_tagLookup (ps : List (Bytes × Bytes)) (key : Bytes) : first ps key = tagLookup ps key := by
  unfold tagLookup
  induction ps with
  | nil => rfl
  | cons p ps ih =>
    unfold first
    by_cases hk : key = p.1
    · rw [if_pos hk, List.find?_cons_of_pos (by simp [hk])]; rfl
    · rw [if_neg hk, List.find?_cons_of_neg (by simpa using fun h => hk (Eq.symm h)), ih]

theorem lookup_conventional {s : Bytes} {ps : List (Bytes × Bytes)} (h : Conventional s ps) (key : Bytes) : lookup s key = tagLookup ps key := by
  rw [← first_eq_tagLookup]
  exact lookupLoop_conventional h key _ (Nat.le_refl _)

theorem conventional_length {s : Bytes} {ps : List (Bytes × Bytes)} (h : Conventional s ps) : ∀ p ∈ ps, p.2.length < s.length := by
  induction h with
  | nil n => simp
  | pair n hk hq _ ih =>
    intro p hp
    simp only [List.length_append, List.length_cons]
    rcases List.mem_cons.1 hp with rfl | hp
    · have := lit_length hq
      simp only; omega
    · have := ih p hp
      omega

theorem tagLookup_mem {ps : List (Bytes × Bytes)} {key v : Bytes} (h : tagLookup ps key = some v) : (key, v) ∈ ps := by
  rw [← first_eq_tagLookup] at h
  obtain ⟨a, b, rfl, _⟩ := (first_iff _ _ _).1 h
  simp

theorem parseTagText_conventional {s : Bytes} {ps : List (Bytes × Bytes)} (h : Conventional s ps) (key : Bytes) :
    parseTagText s key = parseTag ps key := by
  unfold parseTagText parseTag
  rw [lookup_conventional h]
  cases hv : tagLookup ps key with
  | none => rfl
  | some v =>
    simp only
    have hl := conventional_length h _ (tagLookup_mem hv)
    simp only at hl
    obtain ⟨h1, _⟩ := splitComma_spec v
    have h2 := congrArg List.length h1
    simp only [List.length_append] at h2
    by_cases hr : (splitComma v).2 = []
    · rw [if_neg (by simp [hr]), if_pos hr]
    · rw [if_pos ⟨hr, by omega⟩, if_neg hr]

end Verif.StructTag
