import Verif.Proofs.UnTags

/-! # C46: struct tags -/

namespace Verif.Props
open Verif Verif.Spec Verif.Unjson

/-- C46. For every tag: when it has no entry for the key the name is empty, no hint is set and the field counts as
untagged; otherwise the name is the part of the entry before the first comma, and each of the three hints is set
exactly when it is one of the comma-separated options after it. -/
theorem C46_tag (tag : List (Bytes × Bytes)) (key : Bytes) :
    (tagLookup tag key = none → parseTag tag key = ([], Hint.none, false)) ∧
    ∀ value, tagLookup tag key = some value →
      TagName value (parseTag tag key).1 ∧ (parseTag tag key).2.2 = true ∧
      ((parseTag tag key).2.1.omitempty = true ↔ HasOption value b!"omitempty") ∧
      ((parseTag tag key).2.1.raw = true ↔ HasOption value b!"8bit") ∧
      ((parseTag tag key).2.1.html = true ↔ HasOption value b!"html") := by
  constructor
  · intro h; unfold parseTag; rw [h]
  · intro value h
    unfold parseTag
    rw [h]
    obtain ⟨h1, h2, h3⟩ := splitComma_spec value
    by_cases hr : (splitComma value).2 = []
    · simp only [hr, if_true]
      rw [hr, List.append_nil] at h1
      have hn : 44 ∉ value := by rw [h1]; exact h2
      refine ⟨⟨hn, .inl rfl⟩, trivial, ?_, ?_, ?_⟩ <;>
        exact ⟨fun h => absurd h (by decide), fun h => absurd h (not_hasOption hn)⟩
    · simp only [hr, if_false]
      rcases h3 with h3 | ⟨r, h3⟩
      · exact absurd h3 hr
      · obtain ⟨p1, p2, p3⟩ := parseHints_flags (splitComma value).2.length (splitComma value).2 Hint.none (Nat.le_refl _) (.inr ⟨r, h3⟩)
        have key : ∀ opt : Bytes, 44 ∉ opt → (HasOption value opt ↔ HasOption (splitComma value).2 opt) := by
          intro opt ho
          have k1 := hasOption_cons (p := (splitComma value).1) (r := r) h2 ho
          have k2 := hasOption_cons (p := []) (r := r) (by simp) ho
          rw [← h3, ← h1] at k1
          rw [List.nil_append, ← h3] at k2
          rw [k1, k2]
        refine ⟨⟨h2, .inr ⟨r, by rw [← h3]; exact h1⟩⟩, trivial, ?_, ?_, ?_⟩
        · unfold parseHints; rw [p1, key _ (by decide)]; simp [Hint.none]
        · unfold parseHints; rw [p2, key _ (by decide)]; simp [Hint.none]
        · unfold parseHints; rw [p3, key _ (by decide)]; simp [Hint.none]

example : parseTag [(b!"xml", b!"y"), (b!"json", b!"name,omitempty,x,html")] b!"json" = (b!"name", ⟨false, true, true⟩, true) ∧
    HasOption b!"name,omitempty,x,html" b!"html" := by
  refine ⟨by decide +kernel, b!"name,omitempty,x", [], ?_, .inl rfl⟩
  decide +kernel

/-- C46. A field without a name in its tag gets the name of the Go field; `Options.OmitEmpty` is the same as `omitempty`
on every field. -/
theorem C46_field (o : Options) (f : Field) :
    (o.parseField f).1 = (if (parseTag f.tag o.tagKey).1 = [] then f.name else (parseTag f.tag o.tagKey).1) ∧
    ((o.parseField f).2.1.omitempty = true ↔ o.omitEmpty = true ∨ (parseTag f.tag o.tagKey).2.1.omitempty = true) ∧
    (o.parseField f).2.1.raw = (parseTag f.tag o.tagKey).2.1.raw ∧ (o.parseField f).2.1.html = (parseTag f.tag o.tagKey).2.1.html ∧
    (o.parseField f).2.2 = (parseTag f.tag o.tagKey).2.2 ∧
    (o.tag = [] → o.tagKey = b!"json") ∧ (o.tag ≠ [] → o.tagKey = o.tag) := by
  unfold Options.parseField Options.tagKey
  cases h : o.omitEmpty <;> by_cases ht : o.tag = [] <;> simp [defaultTag, ht]

end Verif.Props
