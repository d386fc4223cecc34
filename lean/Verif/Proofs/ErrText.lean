import Verif.Model.ErrText
import Verif.Proofs.StructTag
import Verif.Proofs.UnText

/-! Quoted strings and bytes can be read back, and so can the texts made of them. -/

namespace Verif.ErrText
open Verif Verif.Spec Verif.Njson Verif.StructTag

/-! ## quoted strings -/

theorem lowerHex_val {n : Nat} (h : n < 16) : hexVal (lowerHex n) = some n := by
  have : ∀ n, n < 16 → hexVal (lowerHex n) = some n := by decide +kernel
  exact this n h

theorem hexFixed_length (k n : Nat) : (hexFixed k n).length = k := by
  induction k generalizing n with
  | zero => rfl
  | succ k ih => simp [hexFixed, ih]

theorem hexFixed_num (k : Nat) : ∀ {n : Nat}, n < 16 ^ k → HexNum (hexFixed k n) n := by
  induction k with
  | zero => intro n h; have : n = 0 := by simpa using h
            subst this; exact .nil
  | succ k ih =>
    intro n h
    have := HexNum.snoc (ih (n := n / 16) (by rw [Nat.pow_succ] at h; omega)) (lowerHex_val (n := n % 16) (by omega))
    rw [Nat.div_add_mod] at this
    exact this

theorem escaped_lit (hi : Nat → Bool) (ch : Char) {q v : Bytes} (h : Lit q v) : Lit (escapedRune hi 34 ch.toNat ++ q) (enc ch ++ v) := by
  have small : ∀ {n : Nat}, ch.toNat = n → n < 128 → enc ch = [UInt8.ofNat n] := by
    rintro n rfl hn
    exact enc_ascii hn
  have esc : ∀ {n : Nat} {e : UInt8}, ch.toNat = n → n < 128 → (e, UInt8.ofNat n) ∈ litEscapes → Lit ([92, e] ++ q) (enc ch ++ v) := by
    intro n e h1 h2 h3
    rw [small h1 h2]
    exact .esc h3 h
  unfold escapedRune
  by_cases h1 : ch.toNat = 34 ∨ ch.toNat = 92
  · rw [if_pos h1]
    rcases h1 with h1 | h1
    · rw [h1]; exact esc h1 (by omega) (by decide)
    · rw [h1]; exact esc h1 (by omega) (by decide)
  rw [if_neg h1]
  by_cases h2 : isPrint hi ch.toNat = true
  · rw [if_pos h2, encodeRune_char]
    refine .char ch ?_ ?_ ?_ h
    · rintro rfl; exact h1 (.inl rfl)
    · rintro rfl; exact h1 (.inr rfl)
    · rintro rfl; simp [isPrint] at h2
  rw [if_neg h2]
  by_cases h3 : ch.toNat = 7
  · rw [if_pos h3]; exact esc h3 (by omega) (by decide)
  rw [if_neg h3]
  by_cases h3 : ch.toNat = 8
  · rw [if_pos h3]; exact esc h3 (by omega) (by decide)
  rw [if_neg h3]
  by_cases h3 : ch.toNat = 12
  · rw [if_pos h3]; exact esc h3 (by omega) (by decide)
  rw [if_neg h3]
  by_cases h3 : ch.toNat = 10
  · rw [if_pos h3]; exact esc h3 (by omega) (by decide)
  rw [if_neg h3]
  by_cases h3 : ch.toNat = 13
  · rw [if_pos h3]; exact esc h3 (by omega) (by decide)
  rw [if_neg h3]
  by_cases h3 : ch.toNat = 9
  · rw [if_pos h3]; exact esc h3 (by omega) (by decide)
  rw [if_neg h3]
  by_cases h3 : ch.toNat = 11
  · rw [if_pos h3]; exact esc h3 (by omega) (by decide)
  rw [if_neg h3]
  by_cases h4 : ch.toNat < 32
  · rw [if_pos h4, small rfl (by omega)]
    have hn : (UInt8.ofNat ch.toNat).toNat = ch.toNat := toNat_ofNat_lt (by omega)
    exact .byte (UInt8.ofNat ch.toNat) (hexFixed_length _ _) (by rw [hn]; exact hexFixed_num 2 (by omega)) h
  rw [if_neg h4]
  by_cases h5 : ch.toNat < 0x10000
  · rw [if_pos h5]
    exact .u ch (hexFixed_length _ _) (hexFixed_num 4 (by omega)) h
  · rw [if_neg h5]
    have : ch.toNat < 0x110000 := by
      rcases ch.valid with hv | hv
      · have : ch.toNat < 0xD800 := hv; omega
      · exact hv.2
    exact .U ch (hexFixed_length _ _) (hexFixed_num 8 (by omega)) h

theorem quotedLoop_lit (hi : Nat → Bool) (fuel : Nat) : ∀ s : Bytes, s.length ≤ fuel → Lit (quotedLoop hi fuel s) s := by
  induction fuel with
  | zero =>
    intro s h
    have : s = [] := List.length_eq_zero_iff.1 (by omega)
    subst this; exact .nil
  | succ fuel ih =>
    intro s h
    cases s with
    | nil => exact .nil
    | cons c s =>
      simp only [List.length_cons] at h
      simp only [quotedLoop]
      by_cases hc : c < 0x80
      · rw [if_pos hc]
        rw [UInt8.lt_iff_toNat_lt] at hc
        change c.toNat < 128 at hc
        have e : enc (mkChar c.toNat (by omega)) = [c] := by rw [enc_mkChar, encodeRune_1 (by omega)]; simp
        have := escaped_lit hi (mkChar c.toNat (by omega)) (ih s (by omega))
        rw [e, mkChar_val] at this
        simp only
        rw [if_neg (by rintro ⟨_, h⟩; unfold runeError at h; omega)]
        exact this
      · rw [if_neg hc]
        rcases decodeRune_spec c s with ⟨ch, t, h1, h2⟩ | ⟨h1, h2⟩
        · have hne : ¬ (enc ch).length = 1 := by
            intro hl
            have hch : 0x80 ≤ ch.toNat := by
              rcases Nat.lt_or_ge ch.toNat 0x80 with hlt | hge
              · rw [enc_ascii hlt] at h1
                simp only [List.cons_append, List.cons.injEq] at h1
                exfalso
                apply hc
                rw [h1.1, UInt8.lt_iff_toNat_lt, toNat_ofNat_lt (by omega)]
                exact hlt
              · exact hge
            rw [← encodeRune_char] at hl
            unfold encodeRune at hl
            rw [if_neg (by omega)] at hl
            split at hl
            · simp at hl
            split at hl
            · simp at hl
            split at hl <;> simp at hl
          rw [h2]
          simp only
          rw [if_neg (by rintro ⟨h, _⟩; exact hne h), h1, List.drop_left]
          have hlen := congrArg List.length h1
          have := List.length_pos_iff.2 (enc_ne_nil ch)
          rw [List.length_cons, List.length_append] at hlen
          exact escaped_lit hi ch (ih t (by omega))
        · rw [h2]
          simp only
          rw [if_pos ⟨trivial, trivial⟩]
          exact .byte c (hexFixed_length _ _) (hexFixed_num 2 c.toNat_lt) (ih s (by omega))

theorem quoteStr_lit (hi : Nat → Bool) (s : Bytes) : ∃ q, quoteStr hi s = 34 :: (q ++ [34]) ∧ Lit q s :=
  ⟨_, by simp [quoteStr], quotedLoop_lit hi _ s (Nat.le_refl _)⟩

theorem lit_fun {q v v' : Bytes} (h : Lit q v) (h' : Lit q v') : v = v' := by
  have := (unquote_iff q v).2 (lit_unq h)
  rw [(unquote_iff q v').2 (lit_unq h')] at this
  exact (Option.some.inj this).symm

/-! ## reading back from the left -/

theorem quoteStr_cut {hi : Nat → Bool} {s s' x x' : Bytes} (h : quoteStr hi s ++ x = quoteStr hi s' ++ x') : s = s' ∧ x = x' := by
  obtain ⟨q, e, l⟩ := quoteStr_lit hi s
  obtain ⟨q', e', l'⟩ := quoteStr_lit hi s'
  rw [e, e'] at h
  simp only [List.cons_append, List.append_assoc, List.nil_append, List.cons.injEq, true_and] at h
  have h1 := scanQuoted_raw (lit_raw l) x
  rw [h, scanQuoted_raw (lit_raw l') x'] at h1
  simp only [Option.some.injEq, Prod.mk.injEq] at h1
  obtain ⟨rfl, rfl⟩ := h1
  exact ⟨lit_fun l l', rfl⟩

theorem quoteByte_prefix : ∀ c d : UInt8, (quoteByte c).isPrefixOf (quoteByte d) = true → c = d :=
  forall_byte₂ (by decide +kernel)

theorem quoteByte_cut {c d : UInt8} {x x' : Bytes} (h : quoteByte c ++ x = quoteByte d ++ x') : c = d ∧ x = x' := by
  have : c = d := by
    rcases List.append_eq_append_iff.1 h with ⟨a, h1, _⟩ | ⟨a, h1, _⟩
    · exact quoteByte_prefix c d (by rw [List.isPrefixOf_iff_prefix]; exact ⟨a, h1.symm⟩)
    · exact (quoteByte_prefix d c (by rw [List.isPrefixOf_iff_prefix]; exact ⟨a, h1.symm⟩)).symm
  subst this
  exact ⟨rfl, List.append_cancel_left h⟩

theorem gotText_cut {hi : Nat → Bool} {g g' : Got} {x x' : Bytes} (h : gotText hi g ++ x = gotText hi g' ++ x') : g = g' ∧ x = x' := by
  cases g <;> cases g' <;> simp only [gotText] at h
  · replace h := quoteByte_cut h; obtain ⟨rfl, h⟩ := h; exact ⟨rfl, h⟩
  · simp [quoteByte, quoteStr] at h
  · simp [quoteByte, quoteStr] at h
  · replace h := quoteStr_cut h; obtain ⟨rfl, h⟩ := h; exact ⟨rfl, h⟩

theorem sprint_cut : ∀ {cs ds : List UInt8} {x x' : Bytes},
    (cs.map quoteByte).flatMap (fun y => 32 :: y) ++ 93 :: x = (ds.map quoteByte).flatMap (fun y => 32 :: y) ++ 93 :: x' → cs = ds ∧ x = x'
  | [], [], x, x', h => by simpa using h
  | [], d :: ds, x, x', h => by simp at h
  | c :: cs, [], x, x', h => by simp at h
  | c :: cs, d :: ds, x, x', h => by
    simp only [List.map_cons, List.flatMap_cons, List.cons_append, List.append_assoc, List.cons.injEq, true_and] at h
    replace h := quoteByte_cut h; obtain ⟨rfl, h⟩ := h
    replace h := sprint_cut h; obtain ⟨rfl, h⟩ := h
    exact ⟨rfl, h⟩

theorem wantText_cut {hi : Nat → Bool} {g g' : Want} {x x' : Bytes} (h : wantText hi g ++ x = wantText hi g' ++ x') : g = g' ∧ x = x' := by
  have qb : ∀ c : UInt8, (quoteByte c).head? = some 39 := fun c => rfl
  have qs : ∀ s, (quoteStr hi s).head? = some 34 := fun s => by simp [quoteStr]
  have qbne : ∀ {c : UInt8} {y y' : Bytes}, quoteByte c ++ y ≠ 93 :: y' := by
    intro c y y' h
    simp [quoteByte] at h
  have hd : ∀ {a b : Bytes} {y y' : Bytes} {c d : UInt8}, a.head? = some c → b.head? = some d → a ++ y = b ++ y' → c = d := by
    intro a b y y' c d h1 h2 h3
    cases a with
    | nil => simp at h1
    | cons a as => cases b with
      | nil => simp at h2
      | cons b bs =>
        simp only [List.head?_cons, Option.some.injEq] at h1 h2
        simp only [List.cons_append, List.cons.injEq] at h3
        rw [← h1, ← h2, h3.1]
  have sp : ∀ l, (sprint l).head? = some 91 := by
    intro l; cases l <;> rfl
  match g, g' with
  | .str s, .str s' => simp only [wantText] at h; replace h := quoteStr_cut h; obtain ⟨rfl, h⟩ := h; exact ⟨rfl, h⟩
  | .str s, .oneOf [c] => simp only [wantText] at h; exact absurd (hd (qs s) (qb c) h) (by decide)
  | .str s, .oneOf [] => simp only [wantText] at h; exact absurd (hd (qs s) (sp _) h) (by decide)
  | .str s, .oneOf (_ :: _ :: _) => simp only [wantText] at h; exact absurd (hd (qs s) (sp _) h) (by decide)
  | .oneOf [c], .str s => simp only [wantText] at h; exact absurd (hd (qb c) (qs s) h) (by decide)
  | .oneOf [], .str s => simp only [wantText] at h; exact absurd (hd (sp _) (qs s) h) (by decide)
  | .oneOf (_ :: _ :: _), .str s => simp only [wantText] at h; exact absurd (hd (sp _) (qs s) h) (by decide)
  | .oneOf [c], .oneOf [d] => simp only [wantText] at h; replace h := quoteByte_cut h; obtain ⟨rfl, h⟩ := h; exact ⟨rfl, h⟩
  | .oneOf [c], .oneOf [] => simp only [wantText] at h; exact absurd (hd (qb c) (sp _) h) (by decide)
  | .oneOf [c], .oneOf (_ :: _ :: _) => simp only [wantText] at h; exact absurd (hd (qb c) (sp _) h) (by decide)
  | .oneOf [], .oneOf [c] => simp only [wantText] at h; exact absurd (hd (sp _) (qb c) h) (by decide)
  | .oneOf (_ :: _ :: _), .oneOf [c] => simp only [wantText] at h; exact absurd (hd (sp _) (qb c) h) (by decide)
  | .oneOf [], .oneOf [] => simp only [wantText, sprint, List.map_nil] at h; exact ⟨rfl, by simpa using h⟩
  | .oneOf [], .oneOf (d :: d' :: ds) =>
    simp only [wantText, sprint, List.map_nil, List.map_cons, List.cons_append, List.nil_append, List.append_assoc, List.cons.injEq, true_and] at h
    exact absurd h.symm qbne
  | .oneOf (c :: c' :: cs), .oneOf [] =>
    simp only [wantText, sprint, List.map_nil, List.map_cons, List.cons_append, List.nil_append, List.append_assoc, List.cons.injEq, true_and] at h
    exact absurd h qbne
  | .oneOf (c :: c' :: cs), .oneOf (d :: d' :: ds) =>
    simp only [wantText, sprint] at h
    rw [show ∀ (c c' : UInt8) (cs : List UInt8), (c :: c' :: cs).map quoteByte = quoteByte c :: (c' :: cs).map quoteByte from fun _ _ _ => rfl,
      show ∀ (c c' : UInt8) (cs : List UInt8), (c :: c' :: cs).map quoteByte = quoteByte c :: (c' :: cs).map quoteByte from fun _ _ _ => rfl] at h
    simp only [List.cons_append, List.nil_append, List.append_assoc, List.cons.injEq, true_and] at h
    replace h := quoteByte_cut h; obtain ⟨rfl, h⟩ := h
    replace h := sprint_cut h; obtain ⟨e, h⟩ := h
    exact ⟨by rw [e], h⟩

theorem digits_cut {a b x x' : Bytes} {c : UInt8} (ha : ∀ d ∈ a, IsDigitByte d) (hb : ∀ d ∈ b, IsDigitByte d) (hc : ¬ IsDigitByte c)
    (h : a ++ c :: x = b ++ c :: x') : a = b ∧ x = x' := by
  induction a generalizing b with
  | nil =>
    cases b with
    | nil => simpa using h
    | cons d b =>
      simp only [List.nil_append, List.cons_append, List.cons.injEq] at h
      exact absurd (hb d (by simp)) (by rw [← h.1]; exact hc)
  | cons d a ih =>
    cases b with
    | nil =>
      simp only [List.nil_append, List.cons_append, List.cons.injEq] at h
      exact absurd (ha d (by simp)) (by rw [h.1]; exact hc)
    | cons e b =>
      simp only [List.cons_append, List.cons.injEq] at h
      obtain ⟨rfl, h⟩ := h
      replace h := ih (fun d hd => ha d (by simp [hd])) (fun d hd => hb d (by simp [hd])) h
      obtain ⟨rfl, h⟩ := h
      exact ⟨rfl, h⟩

theorem abort_cut {hi : Nat → Bool} {pos pos' : Nat} {typ typ' : Typ} {got got' : Got} {want want' : Want}
    (h : perrText hi (.abort pos typ got want) = perrText hi (.abort pos' typ' got' want')) :
    pos = pos' ∧ typString typ = typString typ' ∧ got = got' ∧ want = want' := by
  simp only [perrText, List.append_assoc] at h
  replace h := gotText_cut (List.append_cancel_left h); obtain ⟨rfl, h⟩ := h
  replace h := wantText_cut (List.append_cancel_left h); obtain ⟨rfl, h⟩ := h
  replace h := List.append_cancel_left h
  obtain ⟨_, n1, _, d1⟩ := Unjson.formatUint_spec pos
  obtain ⟨_, n2, _, d2⟩ := Unjson.formatUint_spec pos'
  have h' : Unjson.formatUint pos ++ 32 :: (b!"while scanning " ++ typString typ) = Unjson.formatUint pos' ++ 32 :: (b!"while scanning " ++ typString typ') := h
  obtain ⟨e, h⟩ := digits_cut d1 d2 (by unfold IsDigitByte; decide) h'
  refine ⟨by rw [← n1, e, n2], List.append_cancel_left h, rfl, rfl⟩

end Verif.ErrText
