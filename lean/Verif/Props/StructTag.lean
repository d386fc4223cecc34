import Verif.Proofs.StructTag
import Verif.Props.UnTags

/-! # C90, C91: struct tags as texts -/

namespace Verif.Props
open Verif Verif.Spec Verif.Unjson Verif.StructTag

/-! ## C90 -/

/-- **C90**: for a conventional struct tag, whatever its spaces and however its values are quoted, `Lookup` returns the value of the first
pair with the key, and nothing when there is none. -/
theorem C90_lookup {text : Bytes} {ps : List (Bytes × Bytes)} (h : Conventional text ps) (key : Bytes) :
    (∀ v, lookup text key = some v ↔ FirstValue ps key v) ∧ (lookup text key = none ↔ ∀ p ∈ ps, p.1 ≠ key) := by
  have e : lookup text key = first ps key := lookupLoop_conventional h key _ (Nat.le_refl _)
  rw [e]
  refine ⟨first_iff ps key, ?_⟩
  clear e h
  induction ps with
  | nil => simp [first]
  | cons p ps ih =>
    unfold first
    by_cases hk : key = p.1
    · rw [if_pos hk]
      constructor
      · intro h; cases h
      · intro h; exact absurd hk.symm (h p (by simp))
    · rw [if_neg hk, ih]
      constructor
      · intro h q hq
        rcases List.mem_cons.1 hq with rfl | hq
        · exact fun h => hk h.symm
        · exact h q hq
      · intro h q hq; exact h q (by simp [hq])

/-- **C90**: for a conventional struct tag `parseTag` and `parseField` are the functions of the list of its pairs that C46 is about: the
comparison of the index of the comma with the length of the whole tag makes no difference. -/
theorem C90_parse {text : Bytes} {ps : List (Bytes × Bytes)} (h : Conventional text ps) (o : Options) (f : Field) (hf : f.tag = ps) (key : Bytes) :
    parseTagText text key = parseTag ps key ∧ parseFieldText o f.name text = o.parseField f := by
  refine ⟨parseTagText_conventional h key, ?_⟩
  unfold parseFieldText Options.parseField
  rw [parseTagText_conventional h, hf]

/-- **C90**: what the tag means, from the text: the name is what precedes the first comma of the value, a hint is set exactly when it is
one of the options after it. -/
theorem C90_field {text : Bytes} {ps : List (Bytes × Bytes)} (h : Conventional text ps) (key : Bytes) :
    ((∀ p ∈ ps, p.1 ≠ key) → parseTagText text key = ([], Hint.none, false)) ∧
    ∀ value, FirstValue ps key value →
      TagName value (parseTagText text key).1 ∧ (parseTagText text key).2.2 = true ∧
      ((parseTagText text key).2.1.omitempty = true ↔ HasOption value b!"omitempty") ∧
      ((parseTagText text key).2.1.raw = true ↔ HasOption value b!"8bit") ∧
      ((parseTagText text key).2.1.html = true ↔ HasOption value b!"html") := by
  obtain ⟨h1, h2⟩ := C90_lookup h key
  rw [parseTagText_conventional h]
  rw [lookup_conventional h] at h1 h2
  exact ⟨fun hp => (C46_tag ps key).1 (h2.2 hp), fun v hv => (C46_tag ps key).2 v ((h1 v).2 hv)⟩

/-- A digit. -/
def hexDigit (n : Nat) : UInt8 := if n < 10 then UInt8.ofNat (48 + n) else UInt8.ofNat (87 + n)

theorem hexNum_byte (b : UInt8) : HexNum [hexDigit (b.toNat / 16), hexDigit (b.toNat % 16)] b.toNat := by
  have hb := b.toNat_lt
  have key : ∀ n, n < 16 → hexVal (hexDigit n) = some n := by decide +kernel
  have h1 := HexNum.snoc .nil (key (b.toNat / 16) (by omega))
  have h2 := HexNum.snoc h1 (key (b.toNat % 16) (by omega))
  have e : 16 * (16 * 0 + b.toNat / 16) + b.toNat % 16 = b.toNat := by omega
  rw [e] at h2
  exact h2

theorem lit_any (v : Bytes) : ∃ q, Lit q v := by
  induction v with
  | nil => exact ⟨[], .nil⟩
  | cons b v ih =>
    obtain ⟨q, hq⟩ := ih
    exact ⟨_, .byte b rfl (hexNum_byte b) hq⟩

/-- **C90**: the lists of pairs of the other theorems are the tags of Go: each list whose keys may stand in a tag is written by some
conventional tag, whatever the values. -/
theorem C90_any (ps : List (Bytes × Bytes)) (h : ∀ p ∈ ps, TagKeyText p.1) : ∃ text, Conventional text ps := by
  induction ps with
  | nil => exact ⟨_, .nil 0⟩
  | cons p ps ih =>
    obtain ⟨rest, hr⟩ := ih fun q hq => h q (by simp [hq])
    obtain ⟨q, hq⟩ := lit_any p.2
    exact ⟨_, .pair 1 (h p (by simp)) hq hr⟩

/-- **C90**: for a text of any form, `Lookup` reads the entries up to where the text stops being a conventional tag, and returns what
`strconv.Unquote` makes of the first one with the key; a value that cannot be unquoted hides the later ones. -/
theorem C90_any_text (text : Bytes) : ∃ es, Entries text es ∧ ∀ key v, lookup text key = some v ↔ ∃ q, FirstValue es key q ∧ Unq q v := by
  obtain ⟨es, h⟩ := entries_exists _ text (Nat.le_refl _)
  exact ⟨es, h, lookup_entries h⟩

theorem C90_entries {text : Bytes} {es : List (Bytes × Bytes)} (h : Entries text es) (key v : Bytes) :
    lookup text key = some v ↔ ∃ q, FirstValue es key q ∧ Unq q v :=
  lookup_entries h key v

/-- The tag `json:"na\u006de,omitempty" xml:"\"x\""  json:"other"` -/
def exTagText : Bytes := b!"json:\"na\\u006de,omitempty\" xml:\"\\\"x\\\"\"  json:\"other\""

theorem exTag_conventional : Conventional exTagText [(b!"json", b!"name,omitempty"), (b!"xml", b!"\"x\""), (b!"json", b!"other")] := by
  have ch : ∀ (n : Nat) (hn : n < 128), n ≠ 34 → n ≠ 92 → n ≠ 10 → ∀ {q v}, Lit q v → Lit (UInt8.ofNat n :: q) (UInt8.ofNat n :: v) := by
    intro n hn h1 h2 h3 q v h
    have e : enc (mkChar n (by omega)) = [UInt8.ofNat n] := by rw [enc_mkChar, encodeRune_1 (by omega)]
    have := Lit.char (mkChar n (by omega)) (q := q) (v := v) ?_ ?_ ?_ h
    · rw [e] at this; exact this
    all_goals
      intro hh
      have h2 := congrArg Char.toNat hh
      rw [mkChar_val] at h2
      contradiction
  have plain : ∀ s : Bytes, (∀ c ∈ s, c < 128 ∧ c ≠ 34 ∧ c ≠ 92 ∧ c ≠ 10) → ∀ {q v}, Lit q v → Lit (s ++ q) (s ++ v) := by
    intro s hs q v h
    induction s with
    | nil => exact h
    | cons c s ih =>
      obtain ⟨h1, h2, h3, h4⟩ := hs c (by simp)
      have := ch c.toNat (by rw [UInt8.lt_iff_toNat_lt] at h1; exact h1) (fun e => h2 (UInt8.toNat_inj.1 e)) (fun e => h3 (UInt8.toNat_inj.1 e))
        (fun e => h4 (UInt8.toNat_inj.1 e)) (ih fun d hd => hs d (by simp [hd]))
      simpa using this
  have hx : HexNum b!"006d" ('m').toNat := by
    have h1 := HexNum.snoc (d := 48) (v := 0) .nil (by decide)
    have h2 := HexNum.snoc (d := 48) (v := 0) h1 (by decide)
    have h3 := HexNum.snoc (d := 54) (v := 6) h2 (by decide)
    exact HexNum.snoc (d := 100) (v := 13) h3 (by decide)
  have k1 : TagKeyText b!"json" := ⟨by decide, by decide⟩
  have k2 : TagKeyText b!"xml" := ⟨by decide, by decide⟩
  have v1 : Lit b!"na\\u006de,omitempty" b!"name,omitempty" :=
    plain b!"na" (by decide) (.u 'm' rfl hx (plain b!"e,omitempty" (by decide) .nil))
  have v2 : Lit b!"\\\"x\\\"" b!"\"x\"" := .esc (by decide) (plain b!"x" (by decide) (.esc (by decide) .nil))
  have v3 : Lit b!"other" b!"other" := plain b!"other" (by decide) .nil
  exact .pair 0 k1 v1 (.pair 1 k2 v2 (.pair 2 k1 v3 (.nil 0)))

/-- Beside the theorems: a tag with an escape, a quoted quote and a key that comes twice. -/
example : Conventional exTagText [(b!"json", b!"name,omitempty"), (b!"xml", b!"\"x\""), (b!"json", b!"other")] ∧
    lookup exTagText b!"json" = some b!"name,omitempty" ∧ lookup exTagText b!"xml" = some b!"\"x\"" ∧ lookup exTagText b!"yaml" = none ∧
    parseTagText exTagText b!"json" = (b!"name", ⟨false, false, true⟩, true) :=
  ⟨exTag_conventional, by decide +kernel, by decide +kernel, by decide +kernel, by decide +kernel⟩

/-- A text that is a conventional tag in part only: the entry after the space before the colon is not read; a value with a bad escape
hides the second one. -/
example : lookup b!"a:\"1\" b: \"2\" c:\"3\"" b!"a" = some b!"1" ∧ lookup b!"a:\"1\" b: \"2\" c:\"3\"" b!"c" = none ∧
    lookup b!"a:\"\\q\" a:\"2\"" b!"a" = none ∧ lookup b!"a:\"\\ud800\"" b!"a" = some [0xEF, 0xBF, 0xBD] :=
  ⟨by decide +kernel, by decide +kernel, by decide +kernel, by decide +kernel⟩

/-- The tag `json:"\xff...\xff,omitempty"` with twenty bytes that are not UTF-8. -/
def exBadTag : Bytes := b!"json:\"" ++ List.replicate 20 0xFF ++ b!",omitempty\""

/-- **C90** fails for tags that are not UTF-8: each bad byte becomes three bytes, the comma of the value then lies behind the length of the
tag, and `parseTag` takes the option for a part of the name. -/
theorem C90_false : ∃ value, lookup exBadTag b!"json" = some value ∧ HasOption value b!"omitempty" ∧ ¬ TagName value (parseTagText exBadTag b!"json").1 ∧
    (parseTagText exBadTag b!"json").2.1.omitempty = false := by
  refine ⟨(List.replicate 20 replacement).flatten ++ b!",omitempty", by decide +kernel, ⟨(List.replicate 20 replacement).flatten, [], by decide +kernel, .inl rfl⟩,
    ?_, by decide +kernel⟩
  rintro ⟨h, _⟩
  exact h (by decide +kernel)

/-! ## C91 -/

theorem indexPos_go (s sub : Bytes) : indexPos.go s sub = true ↔ ∃ a b, s = a ++ (sub ++ b) := by
  induction s with
  | nil =>
    unfold indexPos.go
    constructor
    · intro h
      simp only [List.isEmpty_iff] at h
      exact ⟨[], [], by simp [h]⟩
    · rintro ⟨a, b, h⟩
      simp only [List.isEmpty_iff]
      have := congrArg List.length h
      simp only [List.length_nil, List.length_append] at this
      exact List.eq_nil_of_length_eq_zero (by omega)
  | cons c s ih =>
    unfold indexPos.go
    simp only [Bool.or_eq_true, List.isPrefixOf_iff_prefix, ih]
    constructor
    · rintro (⟨b, h⟩ | ⟨a, b, h⟩)
      · exact ⟨[], b, h.symm⟩
      · exact ⟨c :: a, b, by rw [h]; rfl⟩
    · rintro ⟨a, b, h⟩
      cases a with
      | nil => exact .inl ⟨b, h.symm⟩
      | cons x a =>
        simp only [List.cons_append, List.cons.injEq] at h
        exact .inr ⟨a, b, h.2⟩

theorem indexPos_iff {s sub : Bytes} (hs : sub.head? ≠ some 44) (hn : sub ≠ []) :
    indexPos (44 :: s) sub = true ↔ ∃ a b, s = a ++ (sub ++ b) := by
  unfold indexPos
  rw [Bool.and_eq_true, indexPos_go]
  constructor
  · rintro ⟨_, h⟩; exact h
  · intro h
    refine ⟨?_, h⟩
    cases sub with
    | nil => exact absurd rfl hn
    | cons x sub =>
      have : x ≠ 44 := fun e => hs (by rw [e]; rfl)
      simp [List.isPrefixOf, this]

/-- **C91**: what `ParseFieldTag` of the generator returns for a conventional tag: nothing without an entry for the key (`json` when the key
is empty) or with the entry `-`; otherwise the name, and `omitempty` when that word occurs anywhere behind the first comma. -/
theorem C91_exact {text : Bytes} {ps : List (Bytes × Bytes)} (h : Conventional text ps) (key key' : Bytes)
    (hk : key' = if key = [] then b!"json" else key) :
    ((∀ p ∈ ps, p.1 ≠ key') → parseFieldTag text key = ([], false, false)) ∧
    (FirstValue ps key' b!"-" → parseFieldTag text key = (b!"-", false, false)) ∧
    ∀ value, value ≠ b!"-" → FirstValue ps key' value →
      TagName value (parseFieldTag text key).1 ∧ (parseFieldTag text key).2.2 = true ∧
      ((parseFieldTag text key).2.1 = true ↔ ∃ name a b, 44 ∉ name ∧ value = name ++ 44 :: (a ++ (b!"omitempty" ++ b))) := by
  obtain ⟨h1, h2⟩ := C90_lookup h key'
  unfold parseFieldTag
  rw [← hk]
  refine ⟨fun hp => by rw [h2.2 hp], fun hv => by rw [(h1 _).2 hv]; rfl, fun value hne hv => ?_⟩
  rw [(h1 _).2 hv]
  simp only
  rw [if_neg hne]
  obtain ⟨s1, s2, s3⟩ := splitComma_spec value
  by_cases hr : (splitComma value).2 = []
  · rw [if_neg (by simp [hr])]
    rw [hr, List.append_nil] at s1
    rw [← s1] at s2
    refine ⟨⟨s2, .inl rfl⟩, rfl, ?_⟩
    constructor
    · intro h; cases h
    · rintro ⟨name, a, b, _, hb⟩
      exact absurd (by rw [hb]; simp) s2
  · rw [if_pos hr]
    rcases s3 with s3 | ⟨r, s3⟩
    · exact absurd s3 hr
    · rw [s3] at s1 ⊢
      refine ⟨⟨s2, .inr ⟨r, s1⟩⟩, rfl, ?_⟩
      rw [indexPos_iff (by decide) (by decide)]
      constructor
      · rintro ⟨a, b, hab⟩
        exact ⟨_, a, b, s2, by rw [← hab]; exact s1⟩
      · rintro ⟨name, a, b, hn, hab⟩
        have e := s1.symm.trans hab
        rcases cut s2 e with ⟨_, e2⟩ | ⟨a', e2, _⟩
        · exact ⟨a, b, e2.symm⟩
        · exact absurd (by rw [e2]; simp) hn

/-- **C91**: the option `omitempty` is never missed, and the name is the one that `unjson` uses. -/
theorem C91_agrees_partial {text : Bytes} {ps : List (Bytes × Bytes)} (h : Conventional text ps) (key value : Bytes) (hk : key ≠ [])
    (hne : value ≠ b!"-") (hv : FirstValue ps key value) :
    (parseFieldTag text key).1 = (parseTagText text key).1 ∧
    ((parseTagText text key).2.1.omitempty = true → (parseFieldTag text key).2.1 = true) := by
  obtain ⟨_, _, h3⟩ := C91_exact h key key (by rw [if_neg hk])
  obtain ⟨⟨n1, n2⟩, _, o⟩ := h3 value hne hv
  obtain ⟨_, g⟩ := C90_field h key
  obtain ⟨⟨m1, m2⟩, _, p, _⟩ := g value hv
  refine ⟨?_, ?_⟩
  · rcases n2 with n2 | ⟨r, n2⟩ <;> rcases m2 with m2 | ⟨r', m2⟩
    · rw [← n2, ← m2]
    · exact absurd (by rw [← n2, m2]; simp) n1
    · exact absurd (by rw [← m2, n2]; simp) m1
    · rcases cut m1 (m2.symm.trans n2) with ⟨e, _⟩ | ⟨a', e, _⟩
      · exact e
      · exact absurd (by rw [e]; simp) n1
  · rw [p, o]
    rintro ⟨a, b, hab, hb⟩
    rcases m2 with m2 | ⟨r', m2⟩
    · exact absurd (by rw [← m2, hab]; simp) m1
    · rcases cut m1 (m2.symm.trans hab) with ⟨e, e2⟩ | ⟨a', e, e2⟩
      · exact ⟨_, [], b, m1, by rw [m2, ← e2]; rfl⟩
      · refine ⟨_, a' ++ [44], b, m1, ?_⟩
        rw [m2, e2]; simp

/-- **C91** fails in the other direction: an option that only contains the word counts as `omitempty` for the generator, not for `unjson`. -/
theorem C91_false : parseFieldTag b!"json:\"a,notomitempty\"" [] = (b!"a", true, true) ∧
    (parseTagText b!"json:\"a,notomitempty\"" b!"json").2.1.omitempty = false ∧ ¬ HasOption b!"a,notomitempty" b!"omitempty" := by
  refine ⟨by decide +kernel, by decide +kernel, ?_⟩
  have h : Unjson.parseTag [(b!"json", b!"a,notomitempty")] b!"json" = (b!"a", Hint.none, true) := by decide +kernel
  have := ((C46_tag [(b!"json", b!"a,notomitempty")] b!"json").2 b!"a,notomitempty" (by decide +kernel)).2.2.1
  rw [h] at this
  intro ho
  exact absurd (this.2 ho) (by decide)

/-- `-` alone leaves the field out, `-,omitempty` is the name `-` here; `parseTag` returns the name `-` for both. -/
example : parseFieldTag b!"json:\"-,omitempty\"" [] = (b!"-", true, true) ∧ parseFieldTag b!"json:\"-\"" [] = (b!"-", false, false) ∧
    parseTagText b!"json:\"-\"" b!"json" = (b!"-", Hint.none, true) ∧
    parseFieldTag exTagText b!"json" = (b!"name", true, true) ∧ parseFieldTag exTagText b!"yaml" = ([], false, false) :=
  ⟨by decide +kernel, by decide +kernel, by decide +kernel, by decide +kernel, by decide +kernel⟩

end Verif.Props
