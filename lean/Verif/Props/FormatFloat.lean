import Verif.Proofs.FormatFloatAppend
import Verif.Props.NumBack
import Verif.Props.UnStruct
import Verif.Spec.Gen
import Verif.Spec.UnExact

/-!
# Numbers: the text of a float is the shortest one (C117)

With strconv's own formatting function (Model/FormatFloat.lean) instead of an arbitrary one.
-/

namespace Verif.Props
open Verif Verif.Float Verif.Spec Verif.Unjson

theorem format64 (neg : Bool) (m : Nat) (e : Int) (c : UInt8) : Strconv.formatFloat (.num neg (.fin m e)) 64 c =
    (if neg then [45] else []) ++ if c = 101 then Strconv.fmtE (Strconv.digits f64 m e) else Strconv.fmtF (Strconv.digits f64 m e) := rfl

theorem format32 (neg : Bool) {x : Mag} {m : Nat} {e : Int} (h : NumJson.toF32 x = .fin m e) (c : UInt8) :
    Strconv.formatFloat (.num neg x) 32 c =
    (if neg then [45] else []) ++ if c = 101 then Strconv.fmtE (Strconv.digits f32 m e) else Strconv.fmtF (Strconv.digits f32 m e) := by
  unfold Strconv.formatFloat
  simp only [if_true, h]

/-- **C117**, 64 bits: for a finite float64 other than zero AppendFloat appends its sign and the shortest decimal that rounds to it — the nearest one to the
float if there are several, and the even one of two that are equally near. From 1e-6 on and below 1e21 the decimal is written without exponent, otherwise
with one digit before the point and with an exponent, in either case without superfluous zeros. -/
theorem C117_shortest (dst : Bytes) (neg : Bool) {m : Nat} {e : Int} (h : IsFloat f64 m e) (h0 : m ≠ 0) :
    ∃ (x : NumText) (d : Nat) (k : Int),
      NumJson.appendFloat dst (.num neg (.fin m e)) 64 (Strconv.formatFloat (.num neg (.fin m e)) 64) = dst ++ x.text ∧ x.neg = neg ∧
      ShortestDec f64 m e d k ∧ x.value = d * 10 ^ k ∧
      (Plain x ∧ 1 / 10 ^ 6 ≤ x.value ∧ x.value < 10 ^ 21 ∨ Scientific x ∧ (x.value < 1 / 10 ^ 6 ∨ 10 ^ 21 ≤ x.value)) := by
  obtain ⟨m₆, e₆, hN, hf⟩ := C45_format
  have r6 : round f64 1 (10 ^ 6) = .fin 4722366482869645 (-72) := by decide +kernel
  have h6 := nearest_unique f64 NumJson.f64_ok 1 (d := 10 ^ 6) (by norm_num) (r := .fin m₆ e₆) (by push_cast; exact hN)
  rw [r6] at h6
  cases h6
  have g6 : Strconv.digits f64 4722366482869645 (-72) = ([49], -5) := by decide +kernel
  have g21 : Strconv.digits f64 7629394531250000 17 = ([49], 22) := by decide +kernel
  have hv21 : val 7629394531250000 17 = 10 ^ 21 := by unfold val; norm_num
  have hm : val m e ≠ 0 := by
    unfold val
    exact mul_ne_zero (by exact_mod_cast h0) (two_zpow_pos e).ne'
  refine Strconv.append_shortest NumJson.f64_ok (by decide) h h0 (a6 := 4722366482869645) (b6 := -72) (a21 := 7629394531250000) (b21 := 17)
    (by unfold IsFloat; decide) (by decide) ?_ (by unfold IsFloat; decide) (by decide) ?_ ?_ (hf neg m e).2 (format64 neg m e) dst
  · unfold Strconv.dec; rw [g6]; simp [natOf]
  · unfold Strconv.dec; rw [g21]; simp [natOf]
  · rw [(hf neg m e).1, hv21]
    exact ⟨fun h => h.2, fun h => ⟨hm, h⟩⟩

/-- **C117**, 32 bits: the same for the float32 nearest to the float64. -/
theorem C117_shortest32 (dst : Bytes) (neg : Bool) {m m' : Nat} {e e' : Int} (h : Nearest f32 (val m e) (.fin m' e')) (h0 : m' ≠ 0) :
    ∃ (x : NumText) (d : Nat) (k : Int),
      NumJson.appendFloat dst (.num neg (.fin m e)) 32 (Strconv.formatFloat (.num neg (.fin m e)) 32) = dst ++ x.text ∧ x.neg = neg ∧
      ShortestDec f32 m' e' d k ∧ x.value = d * 10 ^ k ∧
      (Plain x ∧ 1 / 10 ^ 6 ≤ x.value ∧ x.value < 10 ^ 21 ∨ Scientific x ∧ (x.value < 1 / 10 ^ 6 ∨ 10 ^ 21 ≤ x.value)) := by
  obtain ⟨m₆, e₆, m₂₁, e₂₁, hN6, hN21, hf⟩ := C45_format32
  have r6 : round f32 1 (10 ^ 6) = .fin 8796093 (-43) := by decide +kernel
  have r21 : round f32 (10 ^ 21) 1 = .fin 14210855 46 := by decide +kernel
  have h6 := nearest_unique f32 Unjson.f32_ok 1 (d := 10 ^ 6) (by norm_num) (r := .fin m₆ e₆) (by push_cast; exact hN6)
  have h21 := nearest_unique f32 Unjson.f32_ok (10 ^ 21) (d := 1) (by norm_num) (r := .fin m₂₁ e₂₁) (by push_cast; rw [div_one]; exact hN21)
  rw [r6] at h6
  rw [r21] at h21
  cases h6
  cases h21
  have g6 : Strconv.digits f32 8796093 (-43) = ([49], -5) := by decide +kernel
  have g21 : Strconv.digits f32 14210855 46 = ([49], 22) := by decide +kernel
  have ht : NumJson.toF32 (.fin m e) = .fin m' e' := ((toF32_nearest m e _).1 h).symm
  have hm : val m e ≠ 0 := by
    intro hz
    have hm0 : m = 0 := by
      unfold val at hz
      rcases mul_eq_zero.1 hz with h | h
      · exact_mod_cast h
      · exact absurd h (two_zpow_pos e).ne'
    subst hm0
    unfold NumJson.toF32 at ht
    simp only [Nat.zero_mul, round_zero] at ht
    cases ht
    exact h0 rfl
  refine Strconv.append_shortest Unjson.f32_ok (by decide) h.1 h0 (a6 := 8796093) (b6 := -43) (a21 := 14210855) (b21 := 46)
    (by unfold IsFloat; decide) (by decide) ?_ (by unfold IsFloat; decide) (by decide) ?_ ?_ (hf neg m e _ h).2 (format32 neg ht) dst
  · unfold Strconv.dec; rw [g6]; simp [natOf]
  · unfold Strconv.dec; rw [g21]; simp [natOf]
  · rw [(hf neg m e _ h).1]
    constructor
    · rintro ⟨_, h | ⟨_, _, h, h'⟩⟩
      · cases h
      · cases h; exact h'
    · exact fun h => ⟨hm, .inr ⟨_, _, rfl, h⟩⟩

/-- **C117**, the other floats: zero is "0" or "-0"; NaN and the infinities are "NaN", "+Inf" and "-Inf", none of which is JSON; with 32 bits a float too
large for a float32 is written as infinity, and one too small for it as "0e+00". -/
theorem C117_rest (dst : Bytes) (neg : Bool) :
    (∀ bits e, bits = 32 ∨ bits = 64 → NumJson.appendFloat dst (.num neg (.fin 0 e)) bits (Strconv.formatFloat (.num neg (.fin 0 e)) bits) = dst ++ (if neg then b!"-0" else b!"0")) ∧
    (∀ bits, NumJson.appendFloat dst .nan bits (Strconv.formatFloat .nan bits) = dst ++ b!"NaN") ∧
    (∀ bits, NumJson.appendFloat dst (.num neg .inf) bits (Strconv.formatFloat (.num neg .inf) bits) = dst ++ (if neg then b!"-Inf" else b!"+Inf")) ∧
    (∀ m e, Nearest f32 (val m e) .inf →
      NumJson.appendFloat dst (.num neg (.fin m e)) 32 (Strconv.formatFloat (.num neg (.fin m e)) 32) = dst ++ (if neg then b!"-Inf" else b!"+Inf")) ∧
    (∀ m e, m ≠ 0 → Nearest f32 (val m e) (.fin 0 f32.emin) →
      NumJson.appendFloat dst (.num neg (.fin m e)) 32 (Strconv.formatFloat (.num neg (.fin m e)) 32) = dst ++ (if neg then b!"-0e+00" else b!"0e+00")) := by
  refine ⟨?_, ?_, ?_, ?_, ?_⟩
  · intro bits e hb
    have hfmt : NumJson.fmtByte (.num neg (.fin 0 e)) bits = 102 := by simp [NumJson.fmtByte, NumJson.isZeroMag]
    rw [C45_plain _ _ _ _ (.inl hfmt), hfmt]
    have h0 : NumJson.toF32 (.fin 0 e) = .fin 0 f32.emin := by simp [NumJson.toF32, round_zero]
    rcases hb with rfl | rfl
    · rw [format32 neg h0]; cases neg <;> simp [Strconv.digits, Strconv.fmtF]
    · rw [format64]; cases neg <;> simp [Strconv.digits, Strconv.fmtF]
  · intro bits
    rw [C45_plain _ _ _ _ (.inl rfl)]; rfl
  · intro bits
    have ht : ∀ c, Strconv.formatFloat (.num neg .inf) bits c = if neg then b!"-Inf" else b!"+Inf" := by
      intro c
      unfold Strconv.formatFloat
      by_cases hb : bits = 32 <;> simp [hb, NumJson.toF32]
    rw [C45_plain _ _ _ _ (by cases neg <;> simp [ht]), ht]
  · intro m e h
    have h1 := (toF32_nearest m e _).1 h
    have ht : ∀ c, Strconv.formatFloat (.num neg (.fin m e)) 32 c = if neg then b!"-Inf" else b!"+Inf" := by
      intro c
      unfold Strconv.formatFloat
      simp [← h1]
    rw [C45_plain _ _ _ _ (by cases neg <;> simp [ht]), ht]
  · intro m e hm h
    have h1 := ((toF32_nearest m e _).1 h).symm
    have hl : NumJson.ltMag (.fin 0 f32.emin) (round f32 1 (10 ^ 6)) = true := by decide +kernel
    have hfmt : NumJson.fmtByte (.num neg (.fin m e)) 32 = 101 := by
      unfold NumJson.fmtByte
      simp only [h1, hl, NumJson.isZeroMag]
      simp [hm]
    unfold NumJson.appendFloat
    have hd : Strconv.digits f32 0 f32.emin = ([], 0) := rfl
    simp only [hfmt, if_true, format32 neg h1, hd]
    have hz : Strconv.fmtE ([], 0) = b!"0e+00" := by decide
    rw [hz, fixExp_append _ _ (by simp)]
    cases neg <;> congr 1

theorem signs_inj {ds ds' : Bytes} (hd : Digits ds) (hd' : Digits ds') : ∀ {sg sg' : Bytes}, (∀ b ∈ sg, b = 43 ∨ b = 45) → (∀ b ∈ sg', b = 43 ∨ b = 45) →
    sg ++ ds = sg' ++ ds' → sg = sg' ∧ ds = ds' := by
  have no : ∀ {ds : Bytes}, Digits ds → ∀ b, b = 43 ∨ b = 45 → ds.head? ≠ some b := by
    intro ds hd b hb hh
    have := (hd.2 b (List.mem_of_mem_head? (by rw [hh]; rfl))).1
    rcases hb with rfl | rfl <;> exact absurd this (by decide)
  intro sg
  induction sg with
  | nil =>
    intro sg' _ h' h
    cases sg' with
    | nil => exact ⟨rfl, h⟩
    | cons c cs => exact absurd (by rw [← List.nil_append ds, h]; rfl) (no hd c (h' c (by simp)))
  | cons c cs ih =>
    intro sg' hs h' h
    cases sg' with
    | nil => exact absurd (by rw [← List.nil_append ds', ← h]; rfl) (no hd' c (hs c (by simp)))
    | cons c' cs' =>
      simp only [List.cons_append, List.cons.injEq] at h
      obtain ⟨rfl, h⟩ := h
      obtain ⟨rfl, rfl⟩ := ih (fun b hb => hs b (List.mem_cons_of_mem _ hb)) (fun b hb => h' b (List.mem_cons_of_mem _ hb)) h
      exact ⟨rfl, rfl⟩

theorem expText_inj {a b : Option (UInt8 × Bytes × Bytes)}
    (ha : ∀ c sg ds, a = some (c, sg, ds) → (c = 101 ∨ c = 69) ∧ (∀ b ∈ sg, b = 43 ∨ b = 45) ∧ Digits ds)
    (hb : ∀ c sg ds, b = some (c, sg, ds) → (c = 101 ∨ c = 69) ∧ (∀ b ∈ sg, b = 43 ∨ b = 45) ∧ Digits ds)
    (h : expText a = expText b) : a = b := by
  cases a with
  | none => cases b with
    | none => rfl
    | some y => simp [expText] at h
  | some x => cases b with
    | none => simp [expText] at h
    | some y =>
      obtain ⟨c, sg, ds⟩ := x
      obtain ⟨c', sg', ds'⟩ := y
      simp only [expText, List.cons.injEq] at h
      obtain ⟨rfl, h⟩ := h
      obtain ⟨_, a2, a3⟩ := ha _ _ _ rfl
      obtain ⟨_, b2, b3⟩ := hb _ _ _ rfl
      obtain ⟨rfl, rfl⟩ := signs_inj a3 b3 a2 b2 h
      rfl

theorem expText_noDig {a : Option (UInt8 × Bytes × Bytes)}
    (ha : ∀ c sg ds, a = some (c, sg, ds) → (c = 101 ∨ c = 69) ∧ (∀ b ∈ sg, b = 43 ∨ b = 45) ∧ Digits ds) : NumJson.NoDig (expText a) ∧ (expText a).head? ≠ some 46 := by
  cases a with
  | none => exact ⟨trivial, by simp [expText]⟩
  | some x =>
    obtain ⟨c, sg, ds⟩ := x
    rcases (ha _ _ _ rfl).1 with rfl | rfl
    · exact ⟨by simp [expText, NumJson.NoDig, NumJson.isDig], by simp [expText]⟩
    · exact ⟨by simp [expText, NumJson.NoDig, NumJson.isDig], by simp [expText]⟩

/-- a numeral is determined by its text -/
theorem numText_inj {x y : NumText} (hx : x.Ok) (hy : y.Ok) (h : x.text = y.text) : x = y := by
  obtain ⟨n, ip, fp, ex⟩ := x
  obtain ⟨n', ip', fp', ex'⟩ := y
  obtain ⟨x1, x2, x3⟩ := hx
  obtain ⟨y1, y2, y3⟩ := hy
  unfold NumText.text at h
  simp only at *
  have hn : ∀ {s r : Bytes}, Digits s → (s ++ r).head? ≠ some 45 := by
    intro s r hs hh
    obtain ⟨c, cs, rfl⟩ := List.exists_cons_of_ne_nil hs.1
    simp at hh
    subst hh
    exact absurd (hs.2 45 (by simp)).1 (by decide)
  have hneg : n = n' := by
    cases n <;> cases n' <;> simp at h ⊢
    · exact hn x1 (by rw [h]; rfl)
    · exact hn y1 (by rw [← h]; rfl)
  subst hneg
  have h := List.append_cancel_left h
  have rest : ∀ {fp : Option Bytes} {ex}, (∀ c sg ds, ex = some (c, sg, ds) → (c = 101 ∨ c = 69) ∧ (∀ b ∈ sg, b = 43 ∨ b = 45) ∧ Digits ds) →
      NumJson.NoDig (fracText fp ++ expText ex) := by
    intro fp ex hex
    cases fp with
    | none => exact (expText_noDig hex).1
    | some f => simp [fracText, NumJson.NoDig, NumJson.isDig]
  have s1 := NumJson.spanDig_append (NumJson.allDig_of x1) (rest (fp := fp) x3)
  have s2 := NumJson.spanDig_append (NumJson.allDig_of y1) (rest (fp := fp') y3)
  rw [h, s2] at s1
  simp only [Prod.mk.injEq] at s1
  obtain ⟨rfl, h'⟩ := s1
  clear h s2
  have h := h'
  obtain ⟨rfl, hex⟩ : fp = fp' ∧ expText ex = expText ex' := by
    cases fp with
    | none => cases fp' with
      | none => exact ⟨rfl, h.symm⟩
      | some f => exact absurd (by rw [show expText ex = _ from h.symm]; rfl) (expText_noDig x3).2
    | some f => cases fp' with
      | none => exact absurd (by rw [show expText ex' = _ from h]; rfl) (expText_noDig y3).2
      | some f' =>
        simp only [fracText, List.cons_append, List.cons.injEq, true_and] at h
        have s1 := NumJson.spanDig_append (NumJson.allDig_of (x2 f rfl)) (expText_noDig x3).1
        have s2 := NumJson.spanDig_append (NumJson.allDig_of (y2 f' rfl)) (expText_noDig y3).1
        rw [← h, s2] at s1
        simp only [Prod.mk.injEq] at s1
        obtain ⟨rfl, h2⟩ := s1
        exact ⟨rfl, h2.symm⟩
  rw [expText_inj x3 y3 hex]

/-- **C117**: different finite float64 have different texts. -/
theorem C117_injective (dst : Bytes) {neg neg' : Bool} {m m' : Nat} {e e' : Int} (h : IsFloat f64 m e) (h' : IsFloat f64 m' e')
    (ht : NumJson.appendFloat dst (.num neg (.fin m e)) 64 (Strconv.formatFloat (.num neg (.fin m e)) 64) =
      NumJson.appendFloat dst (.num neg' (.fin m' e')) 64 (Strconv.formatFloat (.num neg' (.fin m' e')) 64)) :
    neg = neg' ∧ m = m' ∧ e = e' := by
  -- every text is a numeral that rounds to the float
  have key : ∀ {neg : Bool} {m : Nat} {e : Int}, IsFloat f64 m e → ∃ x : NumText, x.Ok ∧ x.neg = neg ∧ Nearest f64 x.value (.fin m e) ∧
      NumJson.appendFloat dst (.num neg (.fin m e)) 64 (Strconv.formatFloat (.num neg (.fin m e)) 64) = dst ++ x.text := by
    intro neg m e h
    by_cases h0 : m = 0
    · subst h0
      have he : e = f64.emin := by
        rcases h.2.2.2 with h | h
        · exact absurd h (by decide)
        · exact h
      subst he
      refine ⟨⟨neg, [48], none, none⟩, ⟨⟨by simp, by simp; unfold IsDigitByte; decide⟩, by simp, by simp⟩, rfl, ?_, ?_⟩
      · have := round_nearest f64 NumJson.f64_ok 0 (d := 1) (by decide)
        rw [round_zero] at this
        convert this using 1
        simp [NumText.value, NumText.frac, natOf]
      · rw [(C117_rest dst neg).1 64 _ (.inr rfl)]
        cases neg <;> rfl
    · obtain ⟨x, d, k, h1, h2, h3, h4, h5⟩ := C117_shortest dst neg h h0
      refine ⟨x, ?_, h2, by rw [h4]; exact h3.rounds, h1⟩
      rcases h5 with h5 | h5
      · exact h5.1.ok
      · exact h5.1.ok
  obtain ⟨x, a1, a2, a3, a4⟩ := key (neg := neg) h
  obtain ⟨y, b1, b2, b3, b4⟩ := key (neg := neg') h'
  rw [a4, b4] at ht
  have hxy : x = y := numText_inj a1 b1 (List.append_cancel_left ht)
  subst hxy
  have hv : 0 ≤ x.value := by unfold NumText.value; positivity
  have := Strconv.nearest_same NumJson.f64_ok hv a3 b3
  cases this
  exact ⟨by rw [← a2, b2], rfl, rfl⟩

-- 0.3, the greatest float64, the least one above zero, 1e21 and the one before, 1e-6 and the one before
example : IsFloat f64 5404319552844595 (-54) ∧ [((5404319552844595, -54) : Nat × Int), (9007199254740991, 971), (1, -1074), (7629394531250000, 17), (7629394531249999, 17),
      (4722366482869645, -72), (4722366482869644, -72)].map
      (fun p => NumJson.appendFloat [] (.num true (.fin p.1 p.2)) 64 (Strconv.formatFloat (.num true (.fin p.1 p.2)) 64)) =
    [b!"-0.3", b!"-1.7976931348623157e+308", b!"-5e-324", b!"-1e+21", b!"-999999999999999900000", b!"-0.000001", b!"-9.999999999999997e-7"] :=
  ⟨by unfold IsFloat; decide, by decide +kernel⟩

-- 0.3 with 32 bits, and the float64 2 ^ -200, too small for a float32
example : NumJson.toF32 (.fin 5404319552844595 (-54)) = .fin 10066330 (-25) ∧
    NumJson.appendFloat [] (.num false (.fin 5404319552844595 (-54))) 32 (Strconv.formatFloat (.num false (.fin 5404319552844595 (-54))) 32) = b!"0.3" ∧
    NumJson.toF32 (.fin 4503599627370496 (-252)) = .fin 0 f32.emin ∧
    NumJson.appendFloat [] (.num false (.fin 4503599627370496 (-252))) 32 (Strconv.formatFloat (.num false (.fin 4503599627370496 (-252))) 32) = b!"0e+00" := by
  decide +kernel

end Verif.Props
