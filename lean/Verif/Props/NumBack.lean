import Verif.Spec.NumBack
import Verif.Props.NumJson

/-!
# Numbers: reading back what SetFloat stored (C61), digit strings that overflow (C44)
-/

namespace Verif.Props
open Verif Verif.Float Verif.Spec Verif.NumJson

/-- ParseFloat of a text of at most 17 significant digits is close to the float that the text rounds to. -/
theorem close_of_error {x : NumText} {m : Nat} {e : Int} (hN : Nearest f64 x.value (.fin m e)) (hr : InRange x.value)
    {m' : Nat} {e' : Int} (h : |val m' e' - x.value| ≤ x.value / 2 ^ 49) : |val m' e' - val m e| ≤ val m e / 2 ^ 48 := by
  have hR : RoundOf x.value (.fin m e) := by
    obtain ⟨_, hq⟩ := value_round x
    rw [hq.unique hN]
    exact hq
  obtain ⟨_, _, h1, h2⟩ := round_rel hR (Rel.refl _) hr (by omega)
  cases h1
  have h3 := hr.nonneg
  obtain ⟨h4, h5⟩ := h2
  unfold u at h4 h5
  simp only [zero_add, pow_one] at h4 h5
  rw [abs_le] at h ⊢
  obtain ⟨h6, h7⟩ := h
  constructor <;> linarith

theorem range_plain {x : NumText} (hx : x.Ok) (he : x.ex = none) (hi : x.ip.length ≤ 17) (hf : x.frac.length ≤ 18) : InRange x.value := by
  have hv : x.value = natOf x.ip + natOf x.frac / 10 ^ x.frac.length := by
    unfold NumText.value NumText.exp NumText.expNeg NumText.expAbs
    simp [he]
  have hfd : AllDig x.frac := by
    unfold NumText.frac
    cases hfp : x.fp with
    | none => intro b hb; simp at hb
    | some f => exact allDig_of (hx.2.1 f hfp)
  have hi1 : (natOf x.ip : ℚ) < 10 ^ 17 := by
    have h1 := natOf_lt (allDig_of hx.1)
    have h2 : 10 ^ x.ip.length ≤ 10 ^ 17 := Nat.pow_le_pow_right (by omega) hi
    exact_mod_cast lt_of_lt_of_le h1 h2
  have hp : (0 : ℚ) < 10 ^ x.frac.length := by positivity
  have hf1 : (natOf x.frac : ℚ) / 10 ^ x.frac.length < 1 := by
    rw [div_lt_one hp]
    exact_mod_cast natOf_lt hfd
  by_cases h0 : x.value = 0
  · exact .inl h0
  · refine .inr ⟨?_, ?_⟩
    · have h1 : (1 : ℚ) / 10 ^ x.frac.length ≤ x.value := by
        rw [hv, ← sub_nonneg]
        have : (1 : ℚ) ≤ natOf x.ip * 10 ^ x.frac.length + natOf x.frac := by
          have : 1 ≤ natOf x.ip * 10 ^ x.frac.length + natOf x.frac := by
            rw [Nat.one_le_iff_ne_zero]
            intro hz
            apply h0
            rw [hv]
            have h1 : natOf x.frac = 0 := by omega
            have h2 : natOf x.ip * 10 ^ x.frac.length = 0 := by omega
            have h3 : natOf x.ip = 0 := by
              rcases Nat.mul_eq_zero.1 h2 with h | h
              · exact h
              · exact absurd h (by positivity)
            rw [h1, h3]; simp
          exact_mod_cast this
        have h2 : (natOf x.ip : ℚ) + natOf x.frac / 10 ^ x.frac.length - 1 / 10 ^ x.frac.length =
            (natOf x.ip * 10 ^ x.frac.length + natOf x.frac - 1) / 10 ^ x.frac.length := by field_simp
        rw [h2]
        exact div_nonneg (by linarith) hp.le
      have h2 : (1 : ℚ) / 10 ^ 18 ≤ 1 / 10 ^ x.frac.length :=
        one_div_le_one_div_of_le hp (pow_le_pow_right₀ (by norm_num) hf)
      refine le_trans ?_ (le_trans h2 h1)
      rw [show (1 : ℚ) / 10 ^ 18 = 10 ^ (-18 : ℤ) by norm_num]
      exact zpow_le_zpow_right₀ (by norm_num) (by norm_num)
    · rw [hv]
      have h1 : (10 : ℚ) ^ 18 ≤ 10 ^ 308 := pow_le_pow_right₀ (by norm_num) (by norm_num)
      have h2 : (10 : ℚ) ^ 17 + 1 ≤ 10 ^ 18 := by norm_num
      exact le_trans (by linarith) h1

theorem range_exp {x : NumText} (hx : x.Ok) {d : UInt8} (hi : x.ip = [d]) (hd : d ≠ 48) (he : x.expAbs ≤ 300) : InRange x.value := by
  have hdig : IsDigitByte d := hx.1.2 d (by rw [hi]; simp)
  have hfd : AllDig x.frac := by
    unfold NumText.frac
    cases hfp : x.fp with
    | none => intro b hb; simp at hb
    | some f => exact allDig_of (hx.2.1 f hfp)
  have hn : 1 ≤ natOf x.ip ∧ natOf x.ip ≤ 9 := by
    rw [hi]
    simp only [natOf, List.length_nil, pow_zero, mul_one, add_zero]
    have h1 := hdig.1
    have h2 := hdig.2
    have h3 : d.toNat ≠ 48 := fun h => hd (UInt8.toNat_inj.1 h)
    omega
  have hp : (0 : ℚ) < 10 ^ x.frac.length := by positivity
  have hf1 : (natOf x.frac : ℚ) / 10 ^ x.frac.length < 1 := by
    rw [div_lt_one hp]
    exact_mod_cast natOf_lt hfd
  have hf0 : (0 : ℚ) ≤ natOf x.frac / 10 ^ x.frac.length := by positivity
  have h1 : (1 : ℚ) ≤ natOf x.ip := by exact_mod_cast hn.1
  have h9 : (natOf x.ip : ℚ) ≤ 9 := by exact_mod_cast hn.2
  have hlo : (-300 : ℤ) ≤ x.exp := by unfold NumText.exp; split <;> omega
  have hhi : x.exp ≤ 300 := by unfold NumText.exp; split <;> omega
  have e1 : (10 : ℚ) ^ (-300 : ℤ) ≤ 10 ^ x.exp := zpow_le_zpow_right₀ (by norm_num) hlo
  have e2 : (10 : ℚ) ^ x.exp ≤ 10 ^ (300 : ℤ) := zpow_le_zpow_right₀ (by norm_num) hhi
  have e0 : (0 : ℚ) < 10 ^ x.exp := by positivity
  refine .inr ⟨?_, ?_⟩
  · unfold NumText.value
    have : (10 : ℚ) ^ (-307 : ℤ) ≤ 10 ^ (-300 : ℤ) := zpow_le_zpow_right₀ (by norm_num) (by norm_num)
    nlinarith
  · unfold NumText.value
    have h3 : ((natOf x.ip : ℚ) + natOf x.frac / 10 ^ x.frac.length) * 10 ^ x.exp ≤ 10 * 10 ^ (300 : ℤ) := by
      apply mul_le_mul (by linarith) e2 e0.le (by norm_num)
    refine le_trans h3 ?_
    rw [show (10 : ℚ) * 10 ^ (300 : ℤ) = 10 ^ 301 by rw [zpow_ofNat, ← pow_succ']]
    exact pow_le_pow_right₀ (by norm_num) (by norm_num)

/-- What FormatFloat prints for a finite float64 is a numeral that rounds to the float, and ParseFloat reads it as a float that differs
by at most a 2^48th part; as the float itself if there is no fraction and no exponent, if the fraction has more than 18 digits, or if
the exponent is above 300. -/
theorem format_parse {neg : Bool} {m : Nat} {e : Int} {text : UInt8 → Bytes} (ht : ShortestTexts neg m e text) :
    ∃ x : NumText, x.Ok ∧ formatFloat (.num neg (.fin m e)) 64 text = x.text ∧ Nearest f64 x.value (.fin m e) ∧
      (∃ m' e', parseFloat x.text = .num neg (.fin m' e') ∧ IsFloat f64 m' e' ∧ |val m' e' - val m e| ≤ val m e / 2 ^ 48) ∧
      ((x.fp = none ∧ x.ex = none) ∨ (18 < x.frac.length ∧ x.ex = none) ∨ 300 < x.expAbs → parseFloat x.text = .num neg (.fin m e)) := by
  -- exactly read
  have exact_ok : ∀ {x : NumText}, x.Ok → x.neg = neg → Nearest f64 x.value (.fin m e) →
      (∃ r, parseFloat x.text = .num x.neg r ∧ Nearest f64 x.value r) → parseFloat x.text = .num neg (.fin m e) := by
    rintro x hx hneg hN ⟨r, h1, h2⟩
    obtain ⟨_, hq⟩ := value_round x
    rw [h1, hneg, hq.unique h2, hq.unique hN]
  have same : |val m e - val m e| ≤ val m e / 2 ^ 48 := by
    rw [sub_self, abs_zero]
    exact div_nonneg (val_nonneg _ _) (by positivity)
  have hcases : fmtByte (.num neg (.fin m e)) 64 = 102 ∨ fmtByte (.num neg (.fin m e)) 64 = 101 := by
    obtain ⟨_, _, _, h⟩ := C45_format
    exact (h neg m e).2.symm
  rcases hcases with hfmt | hfmt
  · obtain ⟨x, hx, hneg, he, htx, hN, hip⟩ := ht.plain
    refine ⟨x, hx, ?_, hN, ?_⟩
    · unfold formatFloat; rw [C45_plain _ _ _ _ (Or.inl hfmt), hfmt, htx]; rfl
    have hE : x.expAbs = 0 := by unfold NumText.expAbs; rw [he]
    by_cases hsp : x.fp = none ∨ 18 < x.frac.length
    · have hp : parseFloat x.text = .num neg (.fin m e) := by
        refine exact_ok hx hneg hN ?_
        rcases hsp with h | h
        · exact C43_integers_partial x hx h he
        · exact C43_long_fraction_partial x hx h he
      exact ⟨⟨m, e, hp, hN.1, same⟩, fun _ => hp⟩
    · have hfp : x.fp ≠ none := fun h => hsp (.inl h)
      have hfl : x.frac.length ≤ 18 := by
        by_contra hc
        exact hsp (.inr (by omega))
      have hr := range_plain hx he (hip hfp) hfl
      have hi64 : natOf x.ip < 2 ^ 64 := natOf_lt64 hx.1 (by have := hip hfp; omega)
      have hf64 : natOf x.frac < 2 ^ 64 := by
        cases hq : x.fp with
        | none => exact absurd hq hfp
        | some f =>
          have : x.frac = f := by unfold NumText.frac; rw [hq]; rfl
          rw [this] at hfl ⊢
          exact natOf_lt64 (hx.2.1 f hq) (by omega)
      obtain ⟨m', e', p1, p2, p3⟩ := C63_error x hx hi64 hf64 (by have := hip hfp; omega) (by omega) (by omega) hr
      refine ⟨⟨m', e', by rw [p1, hneg], p2, close_of_error hN hr p3⟩, ?_⟩
      rintro (⟨h, _⟩ | ⟨h, _⟩ | h)
      · exact absurd h hfp
      · omega
      · omega
  · have hm : m ≠ 0 := by
      rintro rfl
      obtain ⟨_, _, _, h⟩ := C45_format
      have := ((h neg 0 e).1.1 hfmt).1
      exact this (by simp [val])
    obtain ⟨x, d, sg, ds, hx, hneg, hip, hd, hfl, hex, hd2, hd3, htx, hN⟩ := ht.exp hm
    obtain ⟨x', hx', happ, hneg', hval, hform⟩ := C45_exponent [] (.num neg (.fin m e)) 64 text x hx htx hex hd2 hfmt
    have hbig : ∀ ds : Bytes, Digits ds → ds.length ≤ 3 → natOf ds < 2 ^ 63 ∧ natOf ds < 100000 := by
      intro ds h1 h2
      have h3 := natOf_lt (allDig_of h1)
      have h4 : 10 ^ ds.length ≤ 10 ^ 3 := Nat.pow_le_pow_right (by omega) h2
      have : (10 : ℕ) ^ 3 < 2 ^ 63 := by norm_num
      omega
    obtain ⟨ds', sg', hex', hds'⟩ : ∃ ds' sg', x'.ex = some (101, [sg'], ds') ∧ ds'.length ≤ 3 := by
      rcases hform with ⟨b, _, rfl⟩ | ⟨rfl, _⟩
      · exact ⟨_, _, rfl, by simp⟩
      · exact ⟨_, _, hex, hd3⟩
    have hip' : x'.ip = [d] := by rcases hform with ⟨b, _, rfl⟩ | ⟨rfl, _⟩ <;> exact hip
    have hfr' : x'.frac = x.frac := by rcases hform with ⟨b, _, rfl⟩ | ⟨rfl, _⟩ <;> rfl
    have ho : x'.OneSign := by
      intro c sg2 ds2 h
      rw [hex'] at h
      simp only [Option.some.injEq, Prod.mk.injEq] at h
      have := (hx'.2.2 _ _ _ hex').2.1 sg' (by simp)
      rw [← h.2.1]
      rcases this with rfl | rfl <;> simp
    have hE : x'.expAbs < 2 ^ 63 ∧ x'.expAbs < 100000 := by
      unfold NumText.expAbs
      rw [hex']
      exact hbig ds' (hx'.2.2 _ _ _ hex').2.2 hds'
    have hN' : Nearest f64 x'.value (.fin m e) := by rw [hval]; exact hN
    refine ⟨x', hx', by unfold formatFloat; rw [happ]; rfl, hN', ?_⟩
    by_cases hb : 300 < x'.expAbs
    · have hp := exact_ok hx' (by rw [hneg', hneg]) hN' (C43_large_exponent_partial x' hx' ho hb hE.1 (Or.inl hE.2))
      exact ⟨⟨m, e, hp, hN.1, same⟩, fun _ => hp⟩
    · have hr := range_exp hx' hip' hd (by omega)
      have hi64 : natOf x'.ip < 2 ^ 64 := natOf_lt64 hx'.1 (by rw [hip']; simp)
      have hf64 : natOf x'.frac < 2 ^ 64 := by
        cases hq : x'.fp with
        | none =>
          have : x'.frac = [] := by unfold NumText.frac; rw [hq]; rfl
          rw [this]; simp [natOf]
        | some f =>
          have hf : x'.frac = f := by unfold NumText.frac; rw [hq]; rfl
          have hl : f.length ≤ 16 := by rw [← hf, hfr']; exact hfl
          rw [hf]
          exact natOf_lt64 (hx'.2.1 f hq) (by omega)
      obtain ⟨m', e', p1, p2, p3⟩ := C63_error x' hx' hi64 hf64 (by rw [hip']; simp) (by rw [hfr']; omega) (by omega) hr
      refine ⟨⟨m', e', by rw [p1, hneg', hneg], p2, close_of_error hN' hr p3⟩, ?_⟩
      rintro (⟨_, h⟩ | ⟨_, h⟩ | h)
      · rw [hex'] at h; cases h
      · rw [hex'] at h; cases h
      · exact absurd h hb

/-- **C61** for all finite numbers, up to the error of ParseFloat: after SetFloat, ToFloat succeeds and returns a number with the same
sign that differs by at most a 2^48th part (16 units in the last place). Missing: equality, which is false (`C61_false`). -/
theorem C61_close_partial (h : Njson.Heap) (n : Njson.Node) (hn : n.get h ≠ none) {neg : Bool} {m : Nat} {e : Int} {text : UInt8 → Bytes}
    (ht : ShortestTexts neg m e text) :
    ∃ m' e', toFloat (n.setScalar h Njson.tNumber (formatFloat (.num neg (.fin m e)) 64 text)) n = (.num neg (.fin m' e'), true) ∧
      IsFloat f64 m' e' ∧ |val m' e' - val m e| ≤ val m e / 2 ^ 48 := by
  obtain ⟨x, _, h1, _, ⟨m', e', h2, h3, h4⟩, _⟩ := format_parse ht
  cases hg : n.get h with
  | none => exact absurd hg hn
  | some d =>
    refine ⟨m', e', ?_, h3, h4⟩
    unfold toFloat
    rw [(setScalar_get hg _ _).1, h1]
    simp only [Njson.NodeD.reset, h2]
    rfl

/-- **C61** for zero: SetFloat of 0 or -0 is read back as it is. -/
theorem C61_zero (h : Njson.Heap) (n : Njson.Node) (hn : n.get h ≠ none) {neg : Bool} {e : Int} {text : UInt8 → Bytes}
    (ht : ShortestTexts neg 0 e text) :
    ∃ e', toFloat (n.setScalar h Njson.tNumber (formatFloat (.num neg (.fin 0 e)) 64 text)) n = (.num neg (.fin 0 e'), true) := by
  obtain ⟨m', e', h1, h2, h3⟩ := C61_close_partial h n hn ht
  have h4 : val m' e' = 0 := by
    have : val 0 e = 0 := by simp [val]
    rw [this, sub_zero, zero_div] at h3
    exact abs_eq_zero.1 (le_antisymm h3 (abs_nonneg _))
  have h5 : m' = 0 := by
    unfold val at h4
    have := two_zpow_pos e'
    rcases mul_eq_zero.1 h4 with h | h
    · exact_mod_cast h
    · exact absurd h this.ne'
  subst h5
  exact ⟨e', h1⟩

/-! ## C44 -/

/-- **C44**, what happens instead: if the text has a fraction of up to 18 digits or an exponent that is not above 300, and therefore
is not left to strconv, then the digits before the point count modulo 2^64, and so do the digits after it. -/
theorem C44_wraps (x y : NumText) (hx : x.Ok) (hy : y.Ok) (hneg : y.neg = x.neg) (hex : y.ex = x.ex) (hex300 : x.expAbs ≤ 300)
    (hfp : y.fp.map List.length = x.fp.map List.length) (hsome : x.fp ≠ none ∨ (x.ex ≠ none ∧ y.ip.length = x.ip.length))
    (hshort : x.ex ≠ none ∨ x.frac.length ≤ 18)
    (hi : natOf y.ip % 2 ^ 64 = natOf x.ip % 2 ^ 64) (hf : natOf y.frac % 2 ^ 64 = natOf x.frac % 2 ^ 64) :
    parseFloat y.text = parseFloat x.text := by
  have hu : ∀ a b : Bytes, natOf a % 2 ^ 64 = natOf b % 2 ^ 64 → u64 a = u64 b := by
    intro a b h
    unfold u64
    exact UInt64.toNat_inj.1 (by rw [UInt64.toNat_ofNat', UInt64.toNat_ofNat']; exact h)
  rw [parseFloat_text x hx, parseFloat_text y hy]
  unfold outcome
  rw [hex]
  cases hxe : x.ex with
  | none =>
    cases hxf : x.fp with
    | none => rcases hsome with h | h; exact absurd hxf h; exact absurd hxe h.1
    | some f =>
      cases hyf : y.fp with
      | none => rw [hxf, hyf] at hfp; simp at hfp
      | some g =>
        have e1 : x.frac = f := by unfold NumText.frac; rw [hxf]; rfl
        have e2 : y.frac = g := by unfold NumText.frac; rw [hyf]; rfl
        rw [hxf, hyf] at hfp
        simp only [Option.map_some, Option.some.injEq] at hfp
        have hl : f.length ≤ 18 := by
          rcases hshort with h | h
          · exact absurd hxe h
          · rw [e1] at h; exact h
        simp only
        rw [if_pos (by omega), if_pos hl, hneg, hfp, hu _ _ hi, ← e1, ← e2, hu _ _ hf]
  | some q =>
    obtain ⟨c, sg, ds⟩ := q
    have hE : natOf ds ≤ 300 := by
      have : x.expAbs = natOf ds := by unfold NumText.expAbs; rw [hxe]
      omega
    have hw : ¬ wrap (natOf ds) > 300 := by rw [wrap_small (by omega) (by omega)]; omega
    have hc : NumText.count y = NumText.count x := by
      unfold NumText.count
      cases hxf : x.fp with
      | none =>
        cases hyf : y.fp with
        | none =>
          rcases hsome with h | h
          · exact absurd hxf h
          · exact h.2
        | some g => rw [hxf, hyf] at hfp; simp at hfp
      | some f =>
        cases hyf : y.fp with
        | none => rw [hxf, hyf] at hfp; simp at hfp
        | some g => rw [hxf, hyf] at hfp; simpa using hfp
    simp only
    rw [if_neg hw, if_neg hw, hneg, hc, hu _ _ hi, hu _ _ hf]

-- the digits of 2^64 + 1 count as 1
example : parseFloat (NumText.text ⟨false, b!"18446744073709551617", some b!"5", none⟩) = parseFloat (NumText.text ⟨false, b!"1", some b!"5", none⟩) := by
  have hd : ∀ b ∈ b!"18446744073709551617", IsDigitByte b := by unfold IsDigitByte; decide
  have hd' : ∀ b ∈ b!"1", IsDigitByte b := by unfold IsDigitByte; decide
  have h5 : ∀ b ∈ b!"5", IsDigitByte b := by unfold IsDigitByte; decide
  exact C44_wraps ⟨false, b!"1", some b!"5", none⟩ ⟨false, b!"18446744073709551617", some b!"5", none⟩
    ⟨⟨by simp, hd'⟩, by rintro f ⟨⟩; exact ⟨by simp, h5⟩, by simp⟩ ⟨⟨by simp, hd⟩, by rintro f ⟨⟩; exact ⟨by simp, h5⟩, by simp⟩
    rfl rfl (by decide) rfl (.inl (by simp)) (.inr (by decide)) (by decide +kernel) rfl

-- 0.3 and its texts
example : ShortestTexts false 5404319552844595 (-54) (fun c => if c = 102 then b!"0.3" else b!"3e-01") := by
  have hN : Nearest f64 ((3 : ℕ) / (10 : ℕ)) (.fin 5404319552844595 (-54)) := by
    have h := round_nearest f64 f64_ok 3 (d := 10) (by norm_num)
    rw [show round f64 3 10 = .fin 5404319552844595 (-54) by decide +kernel] at h
    exact h
  have h0 : natOf b!"0" = 0 := by decide
  have h1 : natOf b!"01" = 1 := by decide
  have h3 : natOf b!"3" = 3 := by decide
  refine ⟨⟨⟨false, b!"0", some b!"3", none⟩, ?_, rfl, rfl, rfl, ?_, by decide⟩, fun _ => ⟨⟨false, b!"3", none, some (101, [45], b!"01")⟩, 51, 45, b!"01", ?_,
    rfl, rfl, by decide, by decide, rfl, by decide, by decide, rfl, ?_⟩⟩
  · exact ⟨⟨by simp, by unfold IsDigitByte; decide⟩, by rintro f ⟨⟩; exact ⟨by simp, by unfold IsDigitByte; decide⟩, by simp⟩
  · convert hN using 1
    simp only [NumText.value, NumText.exp, NumText.expNeg, NumText.expAbs, NumText.frac, Option.getD_some, h0, h3]
    norm_num
  · refine ⟨⟨by simp, by unfold IsDigitByte; decide⟩, by simp, ?_⟩
    rintro c sg ds ⟨⟩
    exact ⟨by simp, by simp, by simp, by unfold IsDigitByte; decide⟩
  · convert hN using 1
    simp only [NumText.value, NumText.exp, NumText.expNeg, NumText.expAbs, NumText.frac, Option.getD_none, h1, h3]
    norm_num [natOf]

end Verif.Props
