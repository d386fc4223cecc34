import Verif.Proofs.StrSem

/-! Quotes and final backslashes of escaped text. -/

namespace Verif.StrJson
open Verif Verif.Spec

/-- Two non-empty chunks agree on containing a quote and on ending in a backslash. -/
def SameEnds (p q : Bytes) : Prop :=
  (34 ∈ p ↔ 34 ∈ q) ∧ p ≠ [] ∧ q ≠ [] ∧ (p.getLast? = some 92 ↔ q.getLast? = some 92)

theorem sameEnds_clean {p q : Bytes} (hp : ∀ b ∈ p.getLast?, b ≠ 92) (hp' : 34 ∉ p) (hq : ∀ b ∈ q, b ≠ 34 ∧ b ≠ 92)
    (h1 : p ≠ []) (h2 : q ≠ []) : SameEnds p q := by
  refine ⟨⟨fun h => absurd h hp', fun h => absurd rfl (hq _ h).1⟩, h1, h2, ⟨fun h => absurd rfl (hp _ h), fun h => ?_⟩⟩
  exact absurd rfl (hq _ (List.mem_of_getLast? h)).2

theorem hex_clean {h : Bytes} {n : Nat} (hh : IsHex4 h n) : ∀ b ∈ h, b ≠ 34 ∧ b ≠ 92 := by
  have key : ∀ b : UInt8, hexVal b ≠ none → b ≠ 34 ∧ b ≠ 92 := forall_byte (by decide +kernel)
  cases hh with
  | mk ha hb hc hd =>
    intro b hb'
    simp only [List.mem_cons, List.not_mem_nil, or_false] at hb'
    rcases hb' with rfl | rfl | rfl | rfl
    · exact key _ (by rw [ha]; simp)
    · exact key _ (by rw [hb]; simp)
    · exact key _ (by rw [hc]; simp)
    · exact key _ (by rw [hd]; simp)

theorem uHex_ends {hx q : Bytes} {n : Nat} (hh : IsHex4 hx n) (hq : ∀ b ∈ q, b ≠ 34 ∧ b ≠ 92) (h2 : q ≠ []) :
    SameEnds (92 :: 117 :: hx) q := by
  have hc := hex_clean hh
  refine sameEnds_clean ?_ ?_ hq (by simp) h2
  · intro b hb
    have hl := IsHex4.length hh
    have : hx ≠ [] := by intro h; simp [h] at hl
    rw [List.getLast?_cons, List.getLast?_cons, List.getLast?_eq_some_getLast this] at hb
    simp at hb
    subst hb
    exact (hc _ (List.getLast_mem this)).2
  · simp
    intro h; exact (hc _ h).1 rfl

theorem eStep_ends (html : Bool) (b : UInt8) (s : Bytes) :
    SameEnds (eStep html (b :: s)).1 ((b :: s).take (eStep html (b :: s)).2) := by
  have refl : ∀ p : Bytes, p ≠ [] → SameEnds p p := fun p h => ⟨Iff.rfl, h, h, Iff.rfl⟩
  rw [eStep_cons]
  have hascii : b.toNat < 0x80 ↔ toJSON b ≠ 0xff := toJSON_ascii b
  split
  · exact refl _ (by simp)
  · split
    · rename_i h80 hff
      have hb : ¬ b.toNat < 0x80 := by rw [hascii]; simp [hff]
      have hd : ∀ x ∈ (b :: s).take (decodeRune (b :: s)).2, x ≠ 34 ∧ x ≠ 92 := by
        rcases decodeRune_spec b s with ⟨c, t, h1, h2⟩ | ⟨hn, h2⟩
        · rw [h2, h1, List.take_left' rfl]
          have hc : 0x7F < c.toNat := by
            rcases Nat.lt_or_ge 0x7F c.toNat with h | h
            · exact h
            · exfalso
              rw [← encodeRune_char, encodeRune_1 h] at h1
              simp at h1
              have := congrArg UInt8.toNat h1.1
              rw [toNat_ofNat_lt (by omega)] at this
              omega
          intro x hx
          rw [← encodeRune_char] at hx
          have := encodeRune_high _ hc x hx
          constructor <;> (intro h; subst h; simp at this)
        · rw [h2]
          intro x hx
          simp at hx; subst hx
          constructor <;> (intro h; subst h; simp at hb)
      have hne : (b :: s).take (decodeRune (b :: s)).2 ≠ [] := by
        have := (decodeRune_size b s).1
        intro h
        have := congrArg List.length h
        simp at this; omega
      split
      · rename_i hr
        obtain ⟨hx, e1, e2⟩ := escapeUTF8_hex _ hr
        simp only [e1]
        exact uHex_ends e2 hd hne
      · exact refl _ hne
    · rename_i h80 hff
      split
      · exact refl _ (by simp)
      · rename_i h1
        have clean : toJSON b = 1 ∨ toJSON b = 0 → b ≠ 34 ∧ b ≠ 92 := by
          have : ∀ b : UInt8, toJSON b = 1 ∨ toJSON b = 0 → b ≠ 34 ∧ b ≠ 92 := forall_byte (by decide +kernel)
          exact this b
        by_cases hn1 : toJSON b = 1
        · simp only [if_pos hn1]
          exact uHex_ends (byteHex4 b) (by simp; exact clean (Or.inl hn1)) (by simp)
        · simp only [if_neg hn1]
          split
          · rename_i h92
            refine ⟨by simp, by simp, by simp, by simp⟩
          · rename_i h92
            split
            · rename_i h0
              exact uHex_ends (byteHex4 b) (by simp; exact clean (Or.inr h0)) (by simp)
            · rename_i h0
              have key : ∀ b : UInt8, (toJSON b ≠ 0x80 ∧ toJSON b ≠ 0xff ∧ toJSON b ≠ 1 ∧ toJSON b ≠ 92 ∧ toJSON b ≠ 0) →
                  b ≠ 34 ∧ b ≠ 92 ∧ toJSON b ≠ 34 := forall_byte (by decide +kernel)
              obtain ⟨k1, k2, k3⟩ := key b ⟨h80, hff, hn1, h92, h0⟩
              exact sameEnds_clean (by simp; exact h92) (by simp; exact fun h => k3 h.symm) (by simp; exact ⟨k1, k2⟩) (by simp) (by simp)

theorem esc_ends (html : Bool) (s : Bytes) :
    (34 ∈ esc html s ↔ 34 ∈ s) ∧ ((esc html s).getLast? = some 92 ↔ s.getLast? = some 92) ∧ (esc html s = [] ↔ s = []) := by
  induction hn : s.length using Nat.strongRecOn generalizing s with
  | _ n ih =>
    match s, hn with
    | [], _ => simp
    | b :: r, hn =>
      rw [esc_step (by simp)]
      obtain ⟨e1, e2, e3, e4⟩ := eStep_ends html b r
      have hsz := eStep_size html b r
      generalize (eStep html (b :: r)).2 = k at *
      obtain ⟨i1, i2, i3⟩ := ih ((b :: r).drop k).length (by simp at hn hsz ⊢; omega) _ rfl
      have hs : b :: r = (b :: r).take k ++ (b :: r).drop k := (List.take_append_drop k _).symm
      generalize (eStep html (b :: r)).1 = p at *
      refine ⟨?_, ?_, by simp [e2]⟩
      · conv => rhs; rw [hs]
        simp only [List.mem_append, e1, i1]
      · conv => rhs; rw [hs]
        rw [List.getLast?_append, List.getLast?_append]
        by_cases hd : (b :: r).drop k = []
        · rw [i3.2 hd, hd]; simpa using e4
        · have h1 : esc html ((b :: r).drop k) ≠ [] := fun h => hd (i3.1 h)
          rw [List.getLast?_eq_some_getLast h1, List.getLast?_eq_some_getLast hd] at i2 ⊢
          simpa using i2

end Verif.StrJson
