import Verif.Model.UnOptions
import Verif.Spec.UnTags

/-! # Lemmas on tag parsing -/

namespace Verif.Unjson
open Verif Verif.Spec

theorem splitComma_spec (s : Bytes) : s = (splitComma s).1 ++ (splitComma s).2 ∧ 44 ∉ (splitComma s).1 ∧
    ((splitComma s).2 = [] ∨ ∃ r, (splitComma s).2 = 44 :: r) := by
  induction s with
  | nil => simp [splitComma]
  | cons c s ih =>
    unfold splitComma
    by_cases hc : c = 44
    · subst hc; simp
    · rw [if_neg hc]
      obtain ⟨h1, h2, h3⟩ := ih
      refine ⟨by simpa using h1, ?_, h3⟩
      simp only [List.mem_cons, not_or]
      exact ⟨fun h => hc h.symm, h2⟩

/-- Two ways to cut a text at a comma, the first one being the first comma. -/
theorem cut {p a r b : Bytes} (hp : 44 ∉ p) (h : p ++ 44 :: r = a ++ 44 :: b) : (a = p ∧ b = r) ∨ ∃ a', a = p ++ 44 :: a' ∧ r = a' ++ 44 :: b := by
  induction p generalizing a with
  | nil =>
    cases a with
    | nil => left; simpa using h.symm
    | cons x a => simp at h; right; exact ⟨a, by simp [h.1], h.2⟩
  | cons c p ih =>
    cases a with
    | nil => simp at h; exact absurd h.1.symm (by simp at hp; exact hp.1)
    | cons x a =>
      simp at h hp
      rcases ih hp.2 h.2 with ⟨h1, h2⟩ | ⟨a', h1, h2⟩
      · left; exact ⟨by rw [h.1, h1], h2⟩
      · right; exact ⟨a', by rw [h.1, h1]; rfl, h2⟩

theorem hasOption_cons {p r opt : Bytes} (hp : 44 ∉ p) (ho : 44 ∉ opt) :
    HasOption (p ++ 44 :: r) opt ↔ (splitComma r).1 = opt ∨ HasOption r opt := by
  obtain ⟨h1, h2, h3⟩ := splitComma_spec r
  constructor
  · rintro ⟨a, b, h, hb⟩
    rcases cut hp h with ⟨_, e⟩ | ⟨a', _, e⟩
    · left
      rcases hb with rfl | ⟨c, rfl⟩
      · rw [List.append_nil] at e
        rcases h3 with h3 | ⟨r', h3⟩
        · rw [h3, List.append_nil] at h1; rw [← h1, ← e]
        · exfalso; rw [e, h1, h3] at ho; simp at ho
      · rcases h3 with h3 | ⟨r', h3⟩
        · exfalso; rw [h3, List.append_nil] at h1; rw [← h1, ← e] at h2; simp at h2
        · rw [h1, h3] at e
          rcases cut h2 e.symm with ⟨e1, _⟩ | ⟨a', e1, _⟩
          · exact e1.symm
          · exfalso; rw [e1] at ho; simp at ho
    · right; exact ⟨a', b, e, hb⟩
  · rintro (h | ⟨a, b, h, hb⟩)
    · refine ⟨p, (splitComma r).2, ?_, h3⟩
      rw [← h, ← h1]
    · refine ⟨p ++ 44 :: a, b, ?_, hb⟩
      rw [h]; simp

theorem not_hasOption {p opt : Bytes} (hp : 44 ∉ p) : ¬ HasOption p opt := by
  rintro ⟨a, b, h, _⟩
  rw [h] at hp; simp at hp

/-- Which flag an option sets. -/
theorem add_flags (h : Hint) (opt : Bytes) :
    ((h.add opt).omitempty = true ↔ h.omitempty = true ∨ opt = b!"omitempty") ∧
    ((h.add opt).raw = true ↔ h.raw = true ∨ opt = b!"8bit") ∧
    ((h.add opt).html = true ↔ h.html = true ∨ opt = b!"html") := by
  unfold Hint.add
  by_cases h1 : opt = b!"omitempty"
  · rw [if_pos h1]; subst h1; simp
  · rw [if_neg h1]
    by_cases h2 : opt = b!"8bit"
    · rw [if_pos h2]; subst h2; simp
    · rw [if_neg h2]
      by_cases h3 : opt = b!"html"
      · rw [if_pos h3]; subst h3; simp
      · rw [if_neg h3]; simp [h1, h2, h3]

theorem parseHints_flags (fuel : Nat) : ∀ (s : Bytes) (h : Hint), s.length ≤ fuel → (s = [] ∨ ∃ r, s = 44 :: r) →
    ((parseHintsLoop fuel s h).omitempty = true ↔ h.omitempty = true ∨ HasOption s b!"omitempty") ∧
    ((parseHintsLoop fuel s h).raw = true ↔ h.raw = true ∨ HasOption s b!"8bit") ∧
    ((parseHintsLoop fuel s h).html = true ↔ h.html = true ∨ HasOption s b!"html") := by
  have nil : ∀ opt, ¬ HasOption [] opt := fun opt => not_hasOption (by simp)
  induction fuel with
  | zero =>
    intro s h hl _
    have : s = [] := by simpa using hl
    subst this
    simp [parseHintsLoop, nil]
  | succ fuel ih =>
    intro s h hl hs
    rcases hs with rfl | ⟨r, rfl⟩
    · simp [parseHintsLoop, nil]
    · have e : parseHintsLoop (fuel + 1) (44 :: r) h = parseHintsLoop fuel (splitComma r).2 (h.add (splitComma r).1) := rfl
      rw [e]
      obtain ⟨h1, h2, h3⟩ := splitComma_spec r
      have hl' : (splitComma r).2.length ≤ fuel := by
        have := congrArg List.length h1
        simp at this hl; omega
      obtain ⟨i1, i2, i3⟩ := ih _ (h.add (splitComma r).1) hl' h3
      obtain ⟨a1, a2, a3⟩ := add_flags h (splitComma r).1
      have key : ∀ opt : Bytes, 44 ∉ opt → (HasOption (44 :: r) opt ↔ (splitComma r).1 = opt ∨ HasOption (splitComma r).2 opt) := by
        intro opt ho
        have k1 := hasOption_cons (p := []) (r := r) (by simp) ho
        rw [List.nil_append] at k1
        rw [k1]
        have k2 : HasOption r opt ↔ HasOption (splitComma r).2 opt := by
          rcases h3 with h3 | ⟨r', h3⟩
          · rw [h3, List.append_nil] at h1
            rw [h3]
            exact ⟨fun h => absurd h (not_hasOption (by rw [h1]; exact h2)), fun h => absurd h (nil _)⟩
          · rw [h3] at h1 ⊢
            rw [show HasOption r opt ↔ HasOption ((splitComma r).1 ++ 44 :: r') opt from by rw [← h1], hasOption_cons h2 ho]
            have := hasOption_cons (p := []) (r := r') (by simp) ho
            rw [List.nil_append] at this
            rw [this]
        rw [k2]
      rw [i1, i2, i3, a1, a2, a3, key _ (by decide), key _ (by decide), key _ (by decide)]
      exact ⟨or_assoc, or_assoc, or_assoc⟩

end Verif.Unjson
