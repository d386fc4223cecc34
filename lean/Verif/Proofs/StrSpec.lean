import Verif.Proofs.StrSem

/-! Facts about the string specification relations, and the inductions behind C01–C07. -/

namespace Verif.Props
open Verif Verif.Spec Verif.StrJson

theorem enc_prefix_unique {c d : Char} {s t : Bytes} (h : enc c ++ s = enc d ++ t) : c = d ∧ s = t := by
  have h1 := decodeRune_enc c s
  have h2 := decodeRune_enc d t
  rw [h, h2] at h1
  have hcd : c = d := by
    have : d.toNat = c.toNat := (Prod.mk.inj h1).1
    apply Char.ext
    exact UInt32.toNat_inj.mp this.symm
  subst hcd
  exact ⟨rfl, List.append_cancel_left h⟩

/-- `Sanitized` is a function. -/
theorem sanitized_unique {s t u : Bytes} (h : Sanitized s t) (h' : Sanitized s u) : t = u := by
  induction h generalizing u with
  | nil =>
    generalize hs : ([] : Bytes) = s at h'
    cases h' with
    | nil => rfl
    | char c _ =>
      have := enc_ne_nil c
      have := congrArg List.length hs
      have := List.length_pos_iff.2 (enc_ne_nil c)
      simp at *
    | bad b _ _ => simp at hs
  | @char c s t _ ih =>
    generalize hs : enc c ++ s = s' at h'
    cases h' with
    | nil =>
      have := congrArg List.length hs
      have := List.length_pos_iff.2 (enc_ne_nil c)
      simp at *
    | @char d s'' t'' h2 =>
      obtain ⟨rfl, rfl⟩ := enc_prefix_unique hs
      rw [ih h2]
    | bad b hn _ => exact absurd ⟨s, hs⟩ (hn c)
  | @bad b s t hn _ ih =>
    generalize hs : b :: s = s' at h'
    cases h' with
    | nil => simp at hs
    | @char d s'' t'' h2 => exact absurd ⟨s'', hs.symm⟩ (hn d)
    | @bad b' s'' t'' hn' h2 =>
      obtain ⟨rfl, rfl⟩ := List.cons.inj hs
      rw [ih h2]

theorem sanitized_valid {s : Bytes} (h : ValidUtf8 s) : Sanitized s s := by
  obtain ⟨cs, rfl⟩ := h
  induction cs with
  | nil => exact Sanitized.nil
  | cons c cs ih => simpa using Sanitized.char c ih

theorem sanitized_esc (html : Bool) (s : Bytes) : Sanitized s (unesc (esc html s)) := by
  induction hn : s.length using Nat.strongRecOn generalizing s with
  | _ n ih =>
    match s, hn with
    | [], _ => simpa using Sanitized.nil
    | b :: r, hn =>
      rw [esc_step (by simp)]
      have hcase := eStep_case html b r
      have hsz := eStep_size html b r
      have ih' := ih ((b :: r).drop (eStep html (b :: r)).2).length (by simp at hn hsz ⊢; omega) _ rfl
      revert ih'
      generalize (eStep html (b :: r)).2 = k at hcase
      generalize (eStep html (b :: r)).1 = o at hcase
      intro ih'
      clear hsz ih hn
      generalize b :: r = full at hcase ih' ⊢
      cases hcase with
      | plain c t hu h1 h2 h3 h4 =>
        rw [List.drop_left' rfl] at ih' ⊢
        rw [unesc_enc _ (by have := hu.2.2; simpa using this)]
        exact Sanitized.char c ih'
      | short e c v t he hv _ =>
        rw [List.drop_left' rfl] at ih' ⊢
        simp only [List.cons_append, List.nil_append]
        rw [unesc_short _ he]
        have := Sanitized.char c ih'
        rw [hv] at this ⊢
        exact this
      | hex h c t hh =>
        rw [List.drop_left' rfl] at ih' ⊢
        simp only [List.cons_append]
        rw [unesc_hex hh]
        exact Sanitized.char c ih'
      | bad h b' t hn hh =>
        simp only [List.drop_succ_cons, List.drop_zero, List.cons_append] at ih' ⊢
        have := unesc_hex (c := mkChar 0xFFFD (by omega)) hh (esc html t)
        rw [this, enc_mkChar]
        exact Sanitized.bad b' hn ih'

theorem hexVal_ascii {b : UInt8} {v : Nat} (h : hexVal b = some v) : ∃ c : Char, enc c = [b] ∧ EscapedChar true c := by
  have h2 : (48 ≤ b.toNat ∧ b.toNat ≤ 57) ∨ (65 ≤ b.toNat ∧ b.toNat ≤ 70) ∨ (97 ≤ b.toNat ∧ b.toNat ≤ 102) := by
    simp only [hexVal] at h
    split at h
    · omega
    · split at h
      · omega
      · split at h
        · omega
        · simp at h
  obtain ⟨c, hc, he⟩ := ascii_char b (by omega)
  refine ⟨c, he, ?_⟩
  have e1 : '<'.toNat = 60 := rfl
  have e2 : '>'.toNat = 62 := rfl
  have e3 : '&'.toNat = 38 := rfl
  refine ⟨by omega, by omega, by omega, by omega, fun _ => ⟨?_, ?_, ?_⟩⟩ <;> (rintro rfl; omega)

theorem escapedChar_weaken {html : Bool} {c : Char} (h : EscapedChar true c) : EscapedChar html c :=
  ⟨h.1, h.2.1, h.2.2.1, h.2.2.2.1, fun _ => h.2.2.2.2 rfl⟩

theorem hex_chars {h : Bytes} {n : Nat} (hh : IsHex4 h n) (html : Bool) :
    ∃ cs : List Char, 92 :: 117 :: h = cs.flatMap enc ∧ ∀ c ∈ cs, EscapedChar html c := by
  cases hh with
  | mk ha hb hc hd =>
    obtain ⟨a, ea, pa⟩ := hexVal_ascii ha
    obtain ⟨b, eb, pb⟩ := hexVal_ascii hb
    obtain ⟨c, ec, pc⟩ := hexVal_ascii hc
    obtain ⟨d, ed, pd⟩ := hexVal_ascii hd
    refine ⟨['\\', 'u', a, b, c, d], ?_, ?_⟩
    · have h1 : enc '\\' = [92] := by decide
      have h2 : enc 'u' = [117] := by decide
      simp [h1, h2, ea, eb, ec, ed]
    · intro x hx
      simp at hx
      rcases hx with rfl | rfl | rfl | rfl | rfl | rfl
      · exact ⟨by decide, by decide, by decide, by decide, fun _ => by decide⟩
      · exact ⟨by decide, by decide, by decide, by decide, fun _ => by decide⟩
      · exact escapedChar_weaken pa
      · exact escapedChar_weaken pb
      · exact escapedChar_weaken pc
      · exact escapedChar_weaken pd

theorem short_chars {e v : UInt8} (he : (e, v) ∈ shortEscapes) (html : Bool) :
    ∃ cs : List Char, [92, e] = cs.flatMap enc ∧ ∀ c ∈ cs, EscapedChar html c := by
  simp [shortEscapes] at he
  have key : ∀ (e : UInt8) (x : Char), enc x = [e] → EscapedChar html x →
      ∃ cs : List Char, [92, e] = cs.flatMap enc ∧ ∀ c ∈ cs, EscapedChar html c := by
    intro e x hx hp
    refine ⟨['\\', x], ?_, ?_⟩
    · have h1 : enc '\\' = [92] := by decide
      simp [h1, hx]
    · intro y hy
      simp at hy
      rcases hy with rfl | rfl
      · exact ⟨by decide, by decide, by decide, by decide, fun _ => by decide⟩
      · exact hp
  rcases he with ⟨rfl, rfl⟩ | ⟨rfl, rfl⟩ | ⟨rfl, rfl⟩ | ⟨rfl, rfl⟩ | ⟨rfl, rfl⟩ | ⟨rfl, rfl⟩ | ⟨rfl, rfl⟩ |
    ⟨rfl, rfl⟩
  · exact key _ '"' (by decide) ⟨by decide, by decide, by decide, by decide, fun _ => by decide⟩
  · exact key _ '\\' (by decide) ⟨by decide, by decide, by decide, by decide, fun _ => by decide⟩
  · exact key _ '/' (by decide) ⟨by decide, by decide, by decide, by decide, fun _ => by decide⟩
  · exact key _ 'b' (by decide) ⟨by decide, by decide, by decide, by decide, fun _ => by decide⟩
  · exact key _ 'f' (by decide) ⟨by decide, by decide, by decide, by decide, fun _ => by decide⟩
  · exact key _ 'n' (by decide) ⟨by decide, by decide, by decide, by decide, fun _ => by decide⟩
  · exact key _ 'r' (by decide) ⟨by decide, by decide, by decide, by decide, fun _ => by decide⟩
  · exact key _ 't' (by decide) ⟨by decide, by decide, by decide, by decide, fun _ => by decide⟩

theorem isHex4_d800 : IsHex4 b!"d800" 0xD800 :=
  @IsHex4.mk _ _ _ _ 13 8 0 0 (by decide) (by decide) (by decide) (by decide)
theorem isHex4_0041 : IsHex4 b!"0041" 0x41 :=
  @IsHex4.mk _ _ _ _ 0 0 4 1 (by decide) (by decide) (by decide) (by decide)

theorem isHex4_unique {h h' : Bytes} {n m : Nat} {s t : Bytes} (a : IsHex4 h n) (b : IsHex4 h' m)
    (e : h ++ s = h' ++ t) : h = h' ∧ n = m ∧ s = t := by
  cases a with
  | mk a1 a2 a3 a4 =>
    cases b with
    | mk b1 b2 b3 b4 =>
      simp only [List.cons_append, List.nil_append, List.cons.injEq] at e
      obtain ⟨rfl, rfl, rfl, rfl, rfl⟩ := e
      rw [a1] at b1; rw [a2] at b2; rw [a3] at b3; rw [a4] at b4
      simp at b1 b2 b3 b4
      subst b1 b2 b3 b4
      exact ⟨rfl, rfl, rfl⟩

/-- Every legal string body has a meaning under the specification, so C07 quantifies over all of them. -/
theorem jsonDenotes_total {s : Bytes} (h : RfcBody s) : ∃ t, JsonDenotes s t := by
  induction hn : s.length using Nat.strongRecOn generalizing s with
  | _ n ih =>
    cases h with
    | nil => exact ⟨_, .nil⟩
    | @char c s hu hs =>
      have := List.length_pos_iff.2 (enc_ne_nil c)
      obtain ⟨t, ht⟩ := ih s.length (by rw [List.length_append] at hn; omega) hs rfl
      exact ⟨_, .char c hu ht⟩
    | @short e v s he hs =>
      obtain ⟨t, ht⟩ := ih s.length (by simp at hn; omega) hs rfl
      exact ⟨_, .short he ht⟩
    | @hex h n s hh hs =>
      have hlen := IsHex4.length hh
      by_cases hsur : 0xD800 ≤ n ∧ n < 0xE000
      · by_cases hp : HighSurr n ∧ StartsLow s
        · obtain ⟨hhi, h₂, m, t₂, rfl, hh₂, hlo⟩ := hp
          -- the rest after the low surrogate is a body too
          have hs2 : RfcBody t₂ := by
            generalize hg : 92 :: 117 :: (h₂ ++ t₂) = g at hs
            cases hs with
            | nil => simp at hg
            | @char c s hu hs' =>
              exfalso
              have := unesc_enc (c := c) s (by have := hu.2.2; simpa using this)
              have hd := decodeRune_enc c s
              rw [← hg] at hd
              have : decodeRune (92 :: 117 :: (h₂ ++ t₂)) = (92, 1) := by simp [decodeRune]
              rw [this] at hd
              have h92 := (Prod.mk.inj hd).1
              have := hu.2.2
              omega
            | @short e v s he hs' =>
              exfalso
              simp only [List.cons.injEq, true_and] at hg
              have := hg.1
              subst this
              simp [shortEscapes] at he
            | @hex h' n' s' hh' hs' =>
              simp only [List.cons.injEq, true_and] at hg
              obtain ⟨_, _, rfl⟩ := isHex4_unique hh₂ hh' hg
              exact hs'
          have hlen2 := IsHex4.length hh₂
          obtain ⟨t, ht⟩ := ih t₂.length (by simp at hn; omega) hs2 rfl
          unfold HighSurr at hhi
          unfold LowSurr at hlo
          exact ⟨_, .pair (mkChar (0x10000 + (n - 0xD800) * 0x400 + (m - 0xDC00)) (by omega)) hh hh₂
            hhi hlo (mkChar_val _ _) ht⟩
        · obtain ⟨t, ht⟩ := ih s.length (by simp at hn; omega) hs rfl
          exact ⟨_, .lone hh (by unfold HighSurr LowSurr; omega) hp ht⟩
      · obtain ⟨t, ht⟩ := ih s.length (by simp at hn; omega) hs rfl
        have hlt := IsHex4.lt hh
        exact ⟨_, .hex (mkChar n (by omega)) (by rw [mkChar_val]; exact hh) ht⟩


end Verif.Props
