import Verif.Props.StrJson
import Verif.Props.StrExact

/-!
# C151: strings can be escaped and unescaped piece by piece
-/

namespace Verif.Props
open Verif Verif.Spec Verif.StrJson

/-- What a character becomes does not depend on what follows. -/
theorem escapes_char (html : Bool) (c : Char) : ∃ u : Bytes, ∀ {s t : Bytes}, Escapes html s t → Escapes html (enc c ++ s) (u ++ t) := by
  by_cases hk : Kept html c
  · exact ⟨enc c, fun h => .kept c hk h⟩
  · by_cases hs : ∀ p ∈ shortEscapes, c.toNat ≠ p.2.toNat
    · exact ⟨uEscape c.toNat, fun h => .hex c hk hs h⟩
    · obtain ⟨⟨e, v⟩, hp, he⟩ : ∃ p ∈ shortEscapes, c.toNat = p.2.toNat := by
        apply Classical.byContradiction
        intro hn
        exact hs fun p hp he => hn ⟨p, hp, he⟩
      have hv : ∀ p ∈ shortEscapes, p.2.toNat < 0x80 := by decide
      have hlt : c.toNat < 0x80 := by rw [he]; exact hv _ hp
      obtain ⟨b, hb, hc⟩ := enc_byte hlt
      have hbv : b = v := UInt8.toNat_inj.1 (by rw [hb, he])
      subst hbv
      refine ⟨[92, e], fun h => ?_⟩
      rw [hc]
      exact .short hp h

/-- **C151**: a string that is cut between two characters can be escaped in two parts; the second part need not be valid UTF-8. -/
theorem C151_escaped (a b : Bytes) (html : Bool) (ha : ValidUtf8 a) : escaped (a ++ b) html false = escaped a html false ++ escaped b html false := by
  obtain ⟨cs, rfl⟩ := ha
  induction cs with
  | nil =>
    have : escaped [] html false = [] := (C112_escaped _ _ _).2 .nil
    simp [this]
  | cons c cs ih =>
    obtain ⟨u, hu⟩ := escapes_char html c
    have h1 : escaped (enc c ++ (cs.flatMap enc ++ b)) html false = u ++ escaped (cs.flatMap enc ++ b) html false :=
      (C112_escaped _ _ _).2 (hu ((C112_escaped _ _ _).1 rfl))
    have h2 : escaped (enc c ++ cs.flatMap enc) html false = u ++ escaped (cs.flatMap enc) html false :=
      (C112_escaped _ _ _).2 (hu ((C112_escaped _ _ _).1 rfl))
    simp only [List.flatMap_cons, List.append_assoc]
    rw [h1, h2, ih, List.append_assoc]

/-- **C151**: two calls of `AppendEscaped` append what one call for the whole string appends. -/
theorem C151_append (dst a b : Bytes) (html : Bool) (ha : ValidUtf8 a) :
    appendEscaped (appendEscaped dst a html) b html = appendEscaped dst (a ++ b) html := by
  rw [(C04_append_escaped _ _ _).1, (C04_append_escaped _ _ _).1, (C04_append_escaped _ _ _).1, C151_escaped a b html ha, List.append_assoc]

/-- **C151**, any number of parts. -/
theorem C151_parts (as : List Bytes) (html : Bool) (ha : ∀ a ∈ as, ValidUtf8 a) :
    escaped as.flatten html false = as.flatMap fun a => escaped a html false := by
  induction as with
  | nil => exact (C112_escaped _ _ _).2 .nil
  | cons a as ih =>
    rw [List.flatten_cons, C151_escaped _ _ _ (ha a (by simp)), ih fun x hx => ha x (by simp [hx]), List.flatMap_cons]

/-- **C151 (partial)**: the body of a JSON string can be unescaped in two parts if the first one is the body of a JSON string, and no surrogate that
is not half of a pair stands directly before a `\u` escape, in the first part or where the parts meet.
Missing from the full claim: bodies that are cut inside a pair of surrogates, or after such a surrogate (`C151_false`). -/
theorem C151_unescaped_partial (a b : Bytes) {t : Bytes} (ha : Denotes (fun _ rest => ¬ [92, 117] <+: rest ++ b) a t) :
    unescaped (a ++ b) = unescaped a ++ unescaped b ∧ unescaped a = t := by
  have h1 : unescaped (a ++ b) = t ++ unescaped b := by
    rw [unescaped_eq, unescaped_eq]
    induction ha with
    | nil => simp
    | char c hu _ ih => rw [List.append_assoc, unesc_enc _ (by have := hu.2.2; simpa using this), ih, List.append_assoc]
    | short he _ ih => rw [List.cons_append, List.cons_append, unesc_short _ he, ih, List.cons_append]
    | hex c hh _ ih => rw [List.cons_append, List.cons_append, List.append_assoc, unesc_hex hh, ih, List.append_assoc]
    | pair c h1 h2 h3 h4 h5 _ ih =>
      rw [List.cons_append, List.cons_append, List.append_assoc, List.cons_append, List.cons_append, List.append_assoc, unesc_pair h1 h2 h3 h4 h5, ih,
        List.append_assoc]
    | lone hh hs hf _ ih => rw [List.cons_append, List.cons_append, List.append_assoc, unesc_lone hh hs hf, ih, List.append_assoc]
  have h2 : unescaped a = t := by
    refine C07_unescape_semantics_partial a t ?_
    clear h1
    induction ha with
    | nil => exact .nil
    | char c hu _ ih => exact .char c hu ih
    | short he _ ih => exact .short he ih
    | hex c hh _ ih => exact .hex c hh ih
    | pair c h1 h2 h3 h4 h5 _ ih => exact .pair c h1 h2 h3 h4 h5 ih
    | lone hh hs hf _ ih => exact .lone hh hs (fun hp => hf (hp.trans (List.prefix_append _ _))) ih
  exact ⟨by rw [h1, h2], h2⟩

/-- **C151**: what is escaped in parts is unescaped as a whole. -/
theorem C151_both (a b : Bytes) (html : Bool) (ha : ValidUtf8 a) (hb : ValidUtf8 b) :
    unescaped (escaped a html false ++ escaped b html false) = a ++ b := by
  rw [← C151_escaped a b html ha]
  refine C01_roundtrip _ html ?_
  obtain ⟨cs, rfl⟩ := ha
  obtain ⟨ds, rfl⟩ := hb
  exact ⟨cs ++ ds, by simp⟩

/-- **C151**: different strings have different escaped forms, whatever the HTML flags. -/
theorem C151_injective (a b : Bytes) (html html' : Bool) (ha : ValidUtf8 a) (hb : ValidUtf8 b) (h : escaped a html false = escaped b html' false) : a = b := by
  rw [← C01_roundtrip a html ha, h, C01_roundtrip b html' hb]

/-- C151 is false of a pair of surrogates that is cut in two: U+1F600 becomes two U+FFFD. And it is false of strings that are cut inside a character: two
`�` stand for é. -/
theorem C151_false : (unescaped b!"\\ud83d\\ude00" = enc '😀' ∧ unescaped b!"\\ud83d" ++ unescaped b!"\\ude00" = replacement ++ replacement) ∧
    escaped [0xC3, 0xA9] false false = [0xC3, 0xA9] ∧ escaped [0xC3] false false ++ escaped [0xA9] false false = b!"\\ufffd\\ufffd" := by decide +kernel

/-- The hypotheses of C151 are met. -/
example : ValidUtf8 b!"a\"é" ∧ escaped (b!"a\"é" ++ b!"<\n") true false = b!"a\\\"é" ++ b!"\\u003c\\n" :=
  ⟨⟨['a', '"', 'é'], by decide +kernel⟩, by decide +kernel⟩

/-- A surrogate that is not half of a pair, before something that is no `\u` escape -/
example : Denotes (fun _ rest => ¬ [92, 117] <+: rest ++ b!"x\\n") b!"\\ud800" replacement :=
  Denotes.lone (h := b!"d800") (s := []) (t := []) isHex4_d800 (Or.inl (by unfold HighSurr; omega)) (by decide) .nil

end Verif.Props
