import Verif.Proofs.NumExp
import Verif.Props.Doc

/-!
# Numbers: ParseFloat, ParseInt, ParseUint, AppendFloat (C40-C45, C61-C64)
-/

namespace Verif.Props
open Verif Verif.Float Verif.Spec Verif.NumJson

/-! ## C40: malformed texts are NaN, well-formed texts are numbers -/

/-- C40, one direction, without restriction: whatever is not a numeral parses to NaN. -/
theorem C40_malformed (s : Bytes) (h : ¬ ∃ x : NumText, x.Ok ∧ s = x.text) : parseFloat s = .nan := by
  by_contra hne
  apply h
  clear h
  have one : ∀ c, isDig c = true → ∃ x : NumText, x.Ok ∧ [c] = x.text := fun c hc =>
    ⟨⟨false, [c], none, none⟩, ⟨digits_of (by simpa [AllDig] using hc) (by simp), by simp, by simp⟩, by simp [NumText.text, fracText, expText]⟩
  -- the text after the integer part
  have sci : ∀ {s' : Bytes} {neg num dec j c rest}, scientific s' neg num dec j c rest ≠ .nan →
      ∃ sg ds, rest = sg ++ ds ∧ (c = 101 ∨ c = 69) ∧ (∀ b ∈ sg, b = 43 ∨ b = 45) ∧ Digits ds := by
    intro s' neg num dec j c rest h
    unfold scientific at h
    by_cases hc : c = 101 ∨ c = 69
    · rw [if_pos hc] at h
      cases hq : scanExp rest false 0 0 with
      | none => rw [hq] at h; exact absurd rfl h
      | some q =>
        obtain ⟨b, e, jj⟩ := q
        rw [hq] at h
        obtain ⟨sg, ds, h1, h2, h3, h4⟩ := scanExp_split hq
        by_cases h0 : jj = 0
        · simp only at h; rw [if_pos h0] at h; exact absurd rfl h
        · exact ⟨sg, ds, h1, hc, h2, digits_of h3 (by rintro rfl; exact h0 (by simpa using h4))⟩
    · rw [if_neg hc] at h; exact absurd rfl h
  have gen : ∀ (neg : Bool) (t : Bytes),
      (match scanDigits t 0 0 with
        | (num, j, []) => if 0 < j ∧ j ≤ 18 then .num neg (flt num) else if j = 0 then .nan else strconvParseFloat s
        | (num, j, c :: rest) => if j = 0 then .nan else decimal s neg num j c rest) ≠ Flt.nan →
      ∃ ip fp ex, NumText.Ok ⟨neg, ip, fp, ex⟩ ∧ t = ip ++ (fracText fp ++ expText ex) := by
    intro neg t h
    obtain ⟨ds, h1, h2, h3, h4⟩ := scanDigits_split t 0 0
    rcases hq : scanDigits t 0 0 with ⟨num, j, rest⟩
    rw [hq] at h h1 h3 h4
    simp only at h1 h3 h4
    have hj : j = ds.length := by omega
    have hdne : j ≠ 0 → Digits ds := fun h0 => digits_of h2 (by rintro rfl; exact h0 (by simpa using hj))
    cases rest with
    | nil =>
      simp only at h
      by_cases h0 : j = 0
      · rw [if_neg (by omega), if_pos h0] at h; exact absurd rfl h
      · exact ⟨ds, none, none, ⟨hdne h0, by simp, by simp⟩, by rw [h1]; simp [fracText, expText]⟩
    | cons c rest =>
      simp only at h
      by_cases h0 : j = 0
      · rw [if_pos h0] at h; exact absurd rfl h
      · rw [if_neg h0] at h
        unfold decimal at h
        by_cases hdot : c = 46
        · rw [if_pos hdot] at h
          subst hdot
          obtain ⟨fs, g1, g2, g3, g4⟩ := scanDigits_split rest 0 0
          rcases hq2 : scanDigits rest 0 0 with ⟨dec, j', rest'⟩
          rw [hq2] at h g1 g3 g4
          simp only at g1 g3 g4
          have hj' : j' = fs.length := by omega
          have hfne : j' ≠ 0 → Digits fs := fun h0 => digits_of g2 (by rintro rfl; exact h0 (by simpa using hj'))
          cases rest' with
          | nil =>
            simp only at h
            by_cases h0' : j' = 0
            · rw [if_neg (by omega), if_pos h0'] at h; exact absurd rfl h
            · refine ⟨ds, some fs, none, ⟨hdne h0, ?_, by simp⟩, by rw [h1, g1]; simp [fracText, expText]⟩
              rintro f ⟨⟩; exact hfne h0'
          | cons c' rest' =>
            simp only at h
            by_cases h0' : j' > 0
            · rw [if_pos h0'] at h
              obtain ⟨sg, es, k1, k2, k3, k4⟩ := sci h
              refine ⟨ds, some fs, some (c', sg, es), ⟨hdne h0, ?_, ?_⟩, by rw [h1, g1, k1]; simp [fracText, expText]⟩
              · rintro f ⟨⟩; exact hfne (by omega)
              · rintro _ _ _ ⟨⟩; exact ⟨k2, k3, k4⟩
            · rw [if_neg h0'] at h; exact absurd rfl h
        · rw [if_neg hdot] at h
          obtain ⟨sg, es, k1, k2, k3, k4⟩ := sci h
          refine ⟨ds, none, some (c, sg, es), ⟨hdne h0, by simp, ?_⟩, by rw [h1, k1]; simp [fracText, expText]⟩
          rintro _ _ _ ⟨⟩; exact ⟨k2, k3, k4⟩
  unfold parseFloat at hne
  split at hne
  · rename_i c
    by_cases hc : isDig c
    · exact one c hc
    · rw [if_neg hc] at hne; exact absurd rfl hne
  · have hsg : s = (if (splitSign s).1 then [45] else []) ++ (splitSign s).2 := by
      unfold splitSign; split <;> simp
    obtain ⟨ip, fp, ex, h1, h2⟩ := gen (splitSign s).1 (splitSign s).2 (by
      rcases h : scanDigits (splitSign s).2 0 0 with ⟨_, _, _ | _⟩ <;> (simp only [h] at hne ⊢; exact hne))
    exact ⟨_, h1, hsg.trans (by rw [h2]; rfl)⟩

theorem strconv_ne_nan (s : Bytes) : strconvParseFloat s ≠ .nan := by
  unfold strconvParseFloat
  cases readNumeral s <;> simp

/-- C40, the other direction. Missing from the full statement: exponents of 2^63 and more, whose accumulation in an
`int` wraps around (see `C40_false`). The length restriction holds for every Go string. -/
theorem C40_wellformed_partial (x : NumText) (hx : x.Ok) (hl : x.text.length < 2 ^ 63) (he : x.expAbs < 2 ^ 63) :
    parseFloat x.text ≠ .nan := by
  rw [parseFloat_text x hx]
  obtain ⟨neg, ip, fp, ex⟩ := x
  have hlen : ip.length < 2 ^ 63 ∧ (∀ f, fp = some f → f.length < 2 ^ 63) := by
    simp only [NumText.text, List.length_append] at hl
    refine ⟨by omega, ?_⟩
    rintro f rfl
    simp only [fracText, List.length_cons] at hl
    omega
  have finmul : ∀ (r : Mag) {k : Int}, -307 ≤ k → k ≤ 308 → ∃ r', mul f64 r (pow10 k) = some r' := by
    intro r k h1 h2
    obtain ⟨m, e, h3, h4, -⟩ := pow10_rel h1 h2
    rw [h3]
    cases r with
    | fin m' e' => exact ⟨_, rfl⟩
    | inf => exact ⟨.inf, by simp [mul, h4]⟩
  have finflt : ∀ (v : UInt64), ∃ m e, flt v = .fin m e := fun v => by
    obtain ⟨m, e, h, -⟩ := flt_rel (n := v.toNat) v.toNat_lt
    exact ⟨m, e, h⟩
  have zero10 : ∀ {k : Int}, k < 0 → ∃ m e, pow10 k = .fin m e := by
    intro k hk
    by_cases h : -307 ≤ k
    · obtain ⟨m, e, h3, -, -⟩ := pow10_rel h (by omega); exact ⟨m, e, h3⟩
    · unfold pow10
      rw [if_neg (by omega)]
      by_cases h2 : -323 ≤ k ∧ k ≤ 0
      · rw [if_pos h2]
        have key : ∀ i ∈ List.range 17, (match div f64 (tabNeg (32 * ((-((i : Int) - 323)).toNat / 32))) (tab ((-((i : Int) - 323)).toNat % 32)) with | .fin _ _ => true | .inf => false) = true := by decide +kernel
        have := key (k + 323).toNat (List.mem_range.2 (by omega))
        rw [show (((k + 323).toNat : Nat) : Int) - 323 = k by omega] at this
        cases hq : div f64 (tabNeg (32 * ((-k).toNat / 32))) (tab ((-k).toNat % 32)) with
        | fin m e => exact ⟨m, e, rfl⟩
        | inf => rw [hq] at this; simp at this
      · rw [if_neg h2, if_neg (by omega)]; exact ⟨_, _, rfl⟩
  have pw : ∀ {k : Int}, k ≤ 308 → ∃ m e, pow10 k = .fin m e := by
    intro k hk
    by_cases h : k < 0
    · exact zero10 h
    · obtain ⟨m, e, h3, -, -⟩ := pow10_rel (n := k) (by omega) hk; exact ⟨m, e, h3⟩
  have mulfin : ∀ (v : UInt64) {k : Int}, k ≤ 308 → ∃ r, mul f64 (flt v) (pow10 k) = some r := by
    intro v k hk
    obtain ⟨m, e, h1⟩ := finflt v
    obtain ⟨m', e', h2⟩ := pw hk
    rw [h1, h2]; exact ⟨_, rfl⟩
  have hdec : ∀ (a b : UInt64) {j : Nat}, j < 2 ^ 63 → ∃ r, decimalMag a b j = some r := by
    intro a b j hj
    obtain ⟨r, h⟩ := mulfin b (k := wrap (-j)) (by rw [wrap_small (by omega) (by omega)]; omega)
    unfold decimalMag; rw [h]; exact ⟨_, rfl⟩
  unfold outcome
  cases ex with
  | none =>
    cases fp with
    | none => simp only; split
              · simp
              · exact strconv_ne_nan _
    | some f =>
      simp only
      split
      · obtain ⟨r, h⟩ := hdec (u64 ip) (u64 f) (hlen.2 f rfl)
        rw [h]; simp [result]
      · exact strconv_ne_nan _
  | some q =>
    obtain ⟨c, sg, ds⟩ := q
    have he : natOf ds < 2 ^ 63 := he
    simp only
    rw [wrap_small (by omega) (by exact_mod_cast he)]
    split
    · exact strconv_ne_nan _
    · rename_i h300
      have hcount : NumText.count ⟨neg, ip, fp, some (c, sg, ds)⟩ < 2 ^ 63 := by
        unfold NumText.count
        cases fp with
        | none => exact hlen.1
        | some f => exact hlen.2 f rfl
      have : ∃ r, scientificMag (u64 ip) (u64 (NumText.frac ⟨neg, ip, fp, some (c, sg, ds)⟩)) (NumText.count ⟨neg, ip, fp, some (c, sg, ds)⟩)
          (decide (45 ∈ sg)) (natOf ds) = some r := by
        unfold scientificMag
        split
        · obtain ⟨r, h⟩ := hdec (u64 ip) (u64 (NumText.frac ⟨neg, ip, fp, some (c, sg, ds)⟩)) hcount
          rw [h]
          exact finmul r (by rw [wrap_small (by omega) (by omega)]; omega) (by rw [wrap_small (by omega) (by omega)]; omega)
        · obtain ⟨r, h⟩ := mulfin (u64 ip) (k := natOf ds) (by omega)
          obtain ⟨r', h'⟩ := mulfin (u64 (NumText.frac ⟨neg, ip, fp, some (c, sg, ds)⟩))
            (k := wrap ((natOf ds : Int) - NumText.count ⟨neg, ip, fp, some (c, sg, ds)⟩)) (by rw [wrap_small (by omega) (by omega)]; omega)
          rw [h, h']; exact ⟨_, rfl⟩
      obtain ⟨r, h⟩ := this
      rw [h]; simp [result]

/-- Every RFC 8259 number is a numeral with at most one exponent sign. -/
theorem rfcNumber_text {s : Bytes} (h : RfcNumber s) : ∃ x : NumText, x.Ok ∧ x.OneSign ∧ s = x.text := by
  obtain ⟨m, i, f, e, rfl, hm, hi, hf, he⟩ := h
  have hi' : Digits i := by
    rcases hi with rfl | hi
    · exact ⟨by simp, by simp [IsDigitByte]⟩
    · exact hi.1
  obtain ⟨fp, h1, h2⟩ : ∃ fp, f = fracText fp ∧ ∀ g, fp = some g → Digits g := by
    rcases hf with rfl | ⟨ds, rfl, hd⟩
    · exact ⟨none, rfl, by simp⟩
    · exact ⟨some ds, rfl, by rintro g ⟨⟩; exact hd⟩
  obtain ⟨ex, h3, h4, h5⟩ : ∃ ex, e = expText ex ∧ (∀ c sg ds, ex = some (c, sg, ds) → (c = 101 ∨ c = 69) ∧ (∀ b ∈ sg, b = 43 ∨ b = 45) ∧ Digits ds) ∧
      ∀ c sg ds, ex = some (c, sg, ds) → sg = [] ∨ sg = [43] ∨ sg = [45] := by
    rcases he with rfl | ⟨c, sg, ds, rfl, hc, hs, hd⟩
    · exact ⟨none, rfl, by simp, by simp⟩
    · refine ⟨some (c, sg, ds), rfl, ?_, ?_⟩
      · rintro _ _ _ ⟨⟩
        refine ⟨hc, ?_, hd⟩
        rcases hs with rfl | rfl | rfl <;> simp
      · rintro _ _ _ ⟨⟩; exact hs
  rcases hm with rfl | rfl
  · exact ⟨⟨false, i, fp, ex⟩, ⟨hi', h2, h4⟩, h5, by simp [NumText.text, h1, h3]⟩
  · exact ⟨⟨true, i, fp, ex⟩, ⟨hi', h2, h4⟩, h5, by simp [NumText.text, h1, h3]⟩

/-- C40 is false as stated: these JSON numbers, both zero, parse to NaN. The exponent accumulates to -316 (hence
`0 * Pow10(316) = 0 * Inf`) and to -2^63 (hence `0 * Pow10(2^63 - 1)`, since `exp - j` wraps as well). -/
theorem C40_false : ∃ s, RfcNumber s ∧ parseFloat s = .nan :=
  ⟨b!"0e-18446744073709551300",
    ⟨[], b!"0", [], b!"e-18446744073709551300", rfl, Or.inl rfl, Or.inl rfl, Or.inl rfl,
      Or.inr ⟨101, [45], b!"18446744073709551300", rfl, Or.inl rfl, Or.inr (Or.inr rfl), by simp, by unfold IsDigitByte; decide⟩⟩,
    by decide +kernel⟩

example : parseFloat b!"0.0e9223372036854775808" = .nan := by decide +kernel
example : parseFloat b!"-12.50e+1" ≠ .nan := by decide +kernel
example : parseFloat b!"1e+-+5" ≠ .nan := by decide +kernel
example : parseFloat b!"12a" = .nan ∧ parseFloat b!"" = .nan ∧ parseFloat b!"-" = .nan ∧ parseFloat b!"1." = .nan ∧ parseFloat b!".5" = .nan ∧
  parseFloat b!"1e" = .nan ∧ parseFloat b!"1e5-" = .nan := by decide +kernel

/-! ## C43: correct rounding -/

theorem cutValue_frac {x : NumText} (hx : x.Ok) :
    x.cutValue = (((⟨x.neg, x.ip, x.frac, x.expNeg, match x.ex with | none => [] | some (_, _, ds) => ds⟩ : Numeral).frac.1 : ℕ) : ℚ) /
      ((⟨x.neg, x.ip, x.frac, x.expNeg, match x.ex with | none => [] | some (_, _, ds) => ds⟩ : Numeral).frac.2 : ℕ) := by
  have hE : expVal (match x.ex with | none => [] | some (_, _, ds) => ds) = fiveDigits x.expAbs := by
    unfold NumText.expAbs
    cases hex : x.ex with
    | none => exact (fiveDigits_small (n := 0) (by omega)).symm
    | some t => exact expVal_eq (allDig_of (hx.2.2 t.1 t.2.1 t.2.2 hex).2.2)
  have h10 : (10 : ℚ) ^ x.frac.length ≠ 0 := by positivity
  unfold NumText.cutValue Numeral.frac
  simp only [hE, digitsVal_eq, natOf_append]
  have h10e : (10 : ℚ) ^ fiveDigits x.expAbs ≠ 0 := by positivity
  cases x.expNeg with
  | true =>
    simp only [if_true]
    rw [zpow_neg, zpow_natCast, pow_add]; push_cast; field_simp
  | false =>
    simp only [Bool.false_eq_true, if_false]
    rw [zpow_natCast]; push_cast; field_simp

theorem frac_pos (x : Numeral) : 0 < x.frac.2 := by
  unfold Numeral.frac
  cases x.expNeg <;> simp

/-- Every number that a numeral denotes has a nearest float. -/
theorem value_round (x : NumText) : ∃ r, RoundOf x.value r := by
  have h0 : 0 ≤ x.value := by unfold NumText.value; positivity
  obtain ⟨n, hn⟩ := Int.eq_ofNat_of_zero_le (Rat.num_nonneg.2 h0)
  refine ⟨_, n, x.value.den, x.value.den_pos, ?_, rfl⟩
  conv_lhs => rw [← Rat.num_div_den x.value, hn]
  simp

/-- strconv rounds correctly what it reads. -/
theorem strconv_cut (x : NumText) (hx : x.Ok) (ho : x.OneSign) :
    ∃ r, strconvParseFloat x.text = .num x.neg r ∧ RoundOf x.cutValue r := by
  unfold strconvParseFloat
  rw [readNumeral_text x hx ho]
  exact ⟨_, rfl, _, _, frac_pos _, cutValue_frac hx, rfl⟩

/-- strconv is correctly rounded, on handy numerals. -/
theorem strconv_nearest (x : NumText) (hx : x.Ok) (ho : x.OneSign) (hh : x.Handy) :
    ∃ r, strconvParseFloat x.text = .num x.neg r ∧ RoundOf x.value r := by
  obtain ⟨r, h1, h2⟩ := strconv_cut x hx ho
  obtain ⟨r', h3⟩ := value_round x
  refine ⟨r, h1, ?_⟩
  rw [h3.unique (handy_nearest hx hh h2.nearest)]
  exact h3

theorem handy_plain {x : NumText} (h : x.ex = none) : x.Handy := by
  left; unfold NumText.expAbs; rw [h]; norm_num

theorem nat_isFloat {n : Nat} (h : n ≤ 2 ^ 53) : ∃ m e, IsFloat f64 m e ∧ val m e = n := by
  rcases Nat.eq_or_lt_of_le h with h | h
  · exact ⟨2 ^ 52, 1, ⟨by decide, by decide, by decide, Or.inl (by decide)⟩, by rw [h]; unfold val; norm_num⟩
  rcases Nat.eq_zero_or_pos n with rfl | h0
  · exact ⟨0, -1074, ⟨by decide, by decide, by decide, Or.inr rfl⟩, by simp [val]⟩
  · -- shift the mantissa up
    obtain ⟨l1, l2⟩ := log2_bounds (n := n) (by omega)
    have hl : Nat.log2 n < 53 := by
      by_contra hc
      have : 2 ^ 53 ≤ 2 ^ Nat.log2 n := Nat.pow_le_pow_right (by norm_num) (by omega)
      have : (2 : ℕ) ^ Nat.log2 n ≤ n := by exact_mod_cast l1
      omega
    generalize hL : Nat.log2 n = l at *
    have l1' : 2 ^ l ≤ n := by exact_mod_cast l1
    have l2' : n < 2 ^ (l + 1) := by exact_mod_cast l2
    refine ⟨n * 2 ^ (52 - l), (l : Int) - 52, ⟨?_, by simp only [f64]; omega, by simp only [f64]; omega, Or.inl ?_⟩, ?_⟩
    · calc n * 2 ^ (52 - l) < 2 ^ (l + 1) * 2 ^ (52 - l) := Nat.mul_lt_mul_of_pos_right l2' (by positivity)
        _ = 2 ^ 53 := by rw [← pow_add]; congr 1; omega
    · calc (2 : ℕ) ^ 52 = 2 ^ l * 2 ^ (52 - l) := by rw [← pow_add]; congr 1; omega
        _ ≤ n * 2 ^ (52 - l) := Nat.mul_le_mul_right _ l1'
    · unfold val
      push_cast
      rw [show (l : Int) - 52 = -((52 - l : ℕ) : Int) by omega, zpow_neg, zpow_natCast]
      field_simp

theorem natOf_lt64 {ds : Bytes} (hd : Digits ds) (h : ds.length ≤ 19) : natOf ds < 2 ^ 64 := by
  have h1 := natOf_lt (allDig_of hd)
  have h2 : 10 ^ ds.length ≤ 10 ^ 19 := Nat.pow_le_pow_right (by norm_num) h
  have h3 : (10 : ℕ) ^ 19 < 2 ^ 64 := by norm_num
  omega

theorem value_int {x : NumText} (hf : x.fp = none) (he : x.ex = none) : x.value = natOf x.ip := by
  unfold NumText.value NumText.exp NumText.expNeg NumText.expAbs NumText.frac
  rw [hf, he]; simp [natOf]

theorem round_int (x : NumText) (hx : x.Ok) (hf : x.fp = none) (he : x.ex = none) :
    ∃ r, parseFloat x.text = .num x.neg r ∧ RoundOf x.value r := by
  rw [parseFloat_text x hx]
  unfold outcome
  rw [he, hf]
  simp only
  by_cases h : x.ip.length ≤ 18
  · rw [if_pos h, flt_u64 (natOf_lt64 hx.1 (by omega)), value_int hf he]
    exact ⟨_, rfl, ofNat_round _⟩
  · rw [if_neg h]
    exact strconv_nearest x hx (by intro c sg ds h; rw [he] at h; cases h) (handy_plain he)

/-- C43 for integer numerals of any length. -/
theorem C43_integers_partial (x : NumText) (hx : x.Ok) (hf : x.fp = none) (he : x.ex = none) :
    ∃ r, parseFloat x.text = .num x.neg r ∧ Nearest f64 x.value r := by
  obtain ⟨r, h1, h2⟩ := round_int x hx hf he
  exact ⟨r, h1, h2.nearest⟩

/-- C43 for numerals with a fraction of more than 18 digits and no exponent. -/
theorem C43_long_fraction_partial (x : NumText) (hx : x.Ok) (hf : 18 < x.frac.length) (he : x.ex = none) :
    ∃ r, parseFloat x.text = .num x.neg r ∧ Nearest f64 x.value r := by
  rw [parseFloat_text x hx]
  unfold outcome
  cases hfp : x.fp with
  | none => unfold NumText.frac at hf; rw [hfp] at hf; simp at hf
  | some f =>
    rw [he]
    simp only
    have : x.frac = f := by unfold NumText.frac; rw [hfp]; rfl
    rw [this] at hf
    rw [if_neg (by omega)]
    obtain ⟨r, h1, h2⟩ := strconv_nearest x hx (by intro c sg ds h; rw [he] at h; cases h) (handy_plain he)
    exact ⟨r, h1, h2.nearest⟩

/-- C43 for exponents above 300 (that do not wrap around), unless the exponent has more than five digits and there are more than 9600 others. -/
theorem C43_large_exponent_partial (x : NumText) (hx : x.Ok) (ho : x.OneSign) (h1 : 300 < x.expAbs) (h2 : x.expAbs < 2 ^ 63) (hh : x.Handy) :
    ∃ r, parseFloat x.text = .num x.neg r ∧ Nearest f64 x.value r := by
  rw [parseFloat_text x hx]
  unfold outcome
  cases hex : x.ex with
  | none => unfold NumText.expAbs at h1; rw [hex] at h1; simp at h1
  | some q =>
    obtain ⟨c, sg, ds⟩ := q
    have : x.expAbs = natOf ds := by unfold NumText.expAbs; rw [hex]
    rw [this] at h1 h2
    simp only
    rw [wrap_small (by omega) (by exact_mod_cast h2), if_pos (by omega)]
    obtain ⟨r, h1, h2⟩ := strconv_nearest x hx ho hh
    exact ⟨r, h1, h2.nearest⟩

theorem pow10_exact : ∀ k ≤ 22, ∃ m e, pow10 (k : ℕ) = .fin m e ∧ val m e = 10 ^ k := by
  have key : ∀ k ∈ List.range 23, (match pow10 (k : ℕ) with
      | .fin m e => decide (m * (pow2 e).1 = 10 ^ k * (pow2 e).2) | .inf => false) = true := by decide +kernel
  intro k hk
  have h := key k (List.mem_range.2 (by omega))
  cases hq : pow10 (k : ℕ) with
  | inf => rw [hq] at h; simp at h
  | fin m e =>
    rw [hq] at h
    simp only [decide_eq_true_eq] at h
    refine ⟨m, e, rfl, ?_⟩
    have w2 : ((pow2 e).2 : ℚ) ≠ 0 := by exact_mod_cast (pow2_pos e).2.ne'
    have h' : (m : ℚ) * (pow2 e).1 = 10 ^ k * (pow2 e).2 := by exact_mod_cast h
    unfold val
    rw [← pow2_val, ← mul_div_assoc, h', mul_div_assoc, div_self w2, mul_one]

theorem add_zero_round {m e e'} (h : IsFloat f64 m e) : add f64 (.fin m e) (.fin 0 e') = .fin m e :=
  (add_round (m := m) (e := e) (m' := 0) (e' := e')).exact h (by simp [val])

theorem mul_zero_mag {k : Int} (h' : ∃ m e, pow10 k = .fin m e) : mul f64 (ofNat f64 0) (pow10 k) = some (.fin 0 (-1074)) := by
  obtain ⟨m, e, h⟩ := h'
  have : ofNat f64 0 = .fin 0 (-1074) := rfl
  rw [this, h]
  obtain ⟨r, h1, h2⟩ := mul_round (m := 0) (e := -1074) (m' := m) (e' := e)
  rw [h1, h2.exact (m := 0) (e := -1074) ⟨by decide, by decide, by decide, Or.inr rfl⟩ (by simp [val])]

/-- C43 on the exact fast path: integers below 2^53 (with a zero fraction, if any) and an exponent from 0 to 22. -/
theorem C43_fast_path_partial (x : NumText) (hx : x.Ok) (hi : natOf x.ip < 2 ^ 53) (hz : natOf x.frac = 0) (hl : x.text.length < 2 ^ 63)
    (hn : x.expNeg = false) (he : x.expAbs ≤ 22) :
    ∃ r, parseFloat x.text = .num x.neg r ∧ Nearest f64 x.value r := by
  have hv : x.value = natOf x.ip * 10 ^ x.expAbs := by
    unfold NumText.value NumText.exp; rw [hz, hn]; simp
  obtain ⟨m, e, hf, hm⟩ := nat_isFloat hi.le
  have h64 : natOf x.ip < 2 ^ 64 := lt_trans hi (by norm_num)
  have hflt : flt (u64 x.ip) = .fin m e := by
    rw [flt_u64 h64]; exact (ofNat_round _).exact hf hm
  have hzero : flt (u64 x.frac) = ofNat f64 0 := by rw [flt_u64 (by omega), hz]
  have pw : ∀ {k : Int}, k ≤ 22 → ∃ m e, pow10 k = .fin m e := by
    intro k hk
    by_cases h : -307 ≤ k
    · obtain ⟨m, e, h3, -, -⟩ := pow10_rel h (by omega); exact ⟨m, e, h3⟩
    · unfold pow10
      rw [if_neg (by omega)]
      by_cases h2 : -323 ≤ k ∧ k ≤ 0
      · rw [if_pos h2]
        have key : ∀ i ∈ List.range 17, (match div f64 (tabNeg (32 * ((-((i : Int) - 323)).toNat / 32))) (tab ((-((i : Int) - 323)).toNat % 32)) with | .fin _ _ => true | .inf => false) = true := by decide +kernel
        have := key (k + 323).toNat (List.mem_range.2 (by omega))
        rw [show (((k + 323).toNat : Nat) : Int) - 323 = k by omega] at this
        cases hq : div f64 (tabNeg (32 * ((-k).toNat / 32))) (tab ((-k).toNat % 32)) with
        | fin m e => exact ⟨m, e, rfl⟩
        | inf => rw [hq] at this; simp at this
      · rw [if_neg h2, if_neg (by omega)]; exact ⟨_, _, rfl⟩
  have hlen : x.ip.length < 2 ^ 63 ∧ x.frac.length < 2 ^ 63 := by
    simp only [NumText.text, List.length_append] at hl
    refine ⟨by omega, ?_⟩
    unfold NumText.frac
    cases hfp : x.fp with
    | none => simp
    | some f => rw [hfp] at hl; simp only [fracText, List.length_cons] at hl; simp only [Option.getD_some]; omega
  rw [parseFloat_text x hx]
  unfold outcome
  cases hex : x.ex with
  | none =>
    cases hfp : x.fp with
    | none =>
      obtain ⟨r, h1, h2⟩ := C43_integers_partial x hx hfp hex
      rw [parseFloat_text x hx] at h1
      unfold outcome at h1
      rw [hex, hfp] at h1
      exact ⟨r, h1, h2⟩
    | some f =>
      simp only
      have hfr : x.frac = f := by unfold NumText.frac; rw [hfp]; rfl
      rw [hfr] at hzero hz hlen
      have he0 : x.expAbs = 0 := by unfold NumText.expAbs; rw [hex]
      by_cases h18 : f.length ≤ 18
      · rw [if_pos h18]
        unfold decimalMag
        rw [hzero, hflt, mul_zero_mag (pw (by rw [wrap_small (by omega) (by omega)]; omega))]
        simp only
        rw [add_zero_round hf]
        refine ⟨_, rfl, ?_⟩
        have : RoundOf x.value (.fin m e) := by
          rw [hv, he0, pow_zero, mul_one, ← (ofNat_round (natOf x.ip)).exact hf hm]
          exact ofNat_round _
        exact this.nearest
      · rw [if_neg h18]
        obtain ⟨r, h1, h2⟩ := strconv_nearest x hx (by intro c sg ds h; rw [hex] at h; cases h) (handy_plain hex)
        exact ⟨r, h1, h2.nearest⟩
  | some q =>
    obtain ⟨c, sg, ds⟩ := q
    have hE : x.expAbs = natOf ds := by unfold NumText.expAbs; rw [hex]
    have hN : decide (45 ∈ sg) = false := by unfold NumText.expNeg at hn; rw [hex] at hn; exact hn
    rw [hE] at he hv
    simp only
    rw [wrap_small (by omega) (by omega), if_neg (by omega), hN]
    have hcount : NumText.count x < 2 ^ 63 := by
      unfold NumText.count
      cases hfp : x.fp with
      | none => exact hlen.1
      | some f => have := hlen.2; unfold NumText.frac at this; rw [hfp] at this; exact this
    obtain ⟨m', e', hp1, hp2⟩ := pow10_exact (natOf ds) he
    obtain ⟨r, hr1, hr2⟩ := mul_round (m := m) (e := e) (m' := m') (e' := e')
    rw [hm, hp2, ← hv] at hr2
    unfold scientificMag
    rw [if_neg (by decide), hzero, hflt, hp1, hr1,
      mul_zero_mag (pw (by rw [wrap_small (by omega) (by omega)]; omega))]
    simp only
    refine ⟨_, rfl, ?_⟩
    have hfin : ∃ mr er, r = .fin mr er ∧ IsFloat f64 mr er := by
      have hb : x.value < overflow f64 := by
        rw [hv]
        have h1 : (natOf x.ip : ℚ) ≤ 2 ^ 53 := by exact_mod_cast hi.le
        have h2 : (10 : ℚ) ^ natOf ds ≤ 10 ^ 22 := pow_le_pow_right₀ (by norm_num) he
        calc (natOf x.ip : ℚ) * 10 ^ natOf ds ≤ 2 ^ 53 * 10 ^ 22 := by gcongr
          _ < 10 ^ 100 := by norm_num
          _ ≤ 10 ^ 308 * (1 + u) ^ 12 := by
            have : (1 : ℚ) ≤ (1 + u) ^ 12 := one_le_pow₀ (by linarith [u_pos])
            have h3 : (10 : ℚ) ^ 100 ≤ 10 ^ 308 := pow_le_pow_right₀ (by norm_num) (by norm_num)
            have h4 : (0 : ℚ) < 10 ^ 308 := by positivity
            exact le_trans h3 (le_mul_of_one_le_right h4.le this)
          _ < _ := ovf
      cases r with
      | inf => exact absurd hb (not_lt.2 hr2.nearest)
      | fin mr er => exact ⟨mr, er, rfl, hr2.nearest.1⟩
    obtain ⟨mr, er, rfl, hfr⟩ := hfin
    rw [add_zero_round hfr]
    exact hr2.nearest

/-- C43 is false as stated: "0.3" parses to 0.30000000000000004, which is not the nearest float64. -/
theorem C43_false : ∃ (x : NumText) (r : Mag), x.Ok ∧ RfcNumber x.text ∧ parseFloat x.text = .num false r ∧ ¬ Nearest f64 x.value r := by
  refine ⟨⟨false, b!"0", some b!"3", none⟩, .fin 5404319552844596 (-54), ?_, ?_, by decide +kernel, ?_⟩
  · exact ⟨⟨by simp, by unfold IsDigitByte; decide⟩, by rintro f ⟨⟩; exact ⟨by simp, by unfold IsDigitByte; decide⟩, by simp⟩
  · exact ⟨[], b!"0", b!".3", [], rfl, Or.inl rfl, Or.inl rfl, Or.inr ⟨b!"3", rfl, by simp, by unfold IsDigitByte; decide⟩, Or.inl rfl⟩
  · intro h
    have h1 := (h.2.2 5404319552844595 (-54) ⟨by decide, by decide, by decide, Or.inl (by decide)⟩).1
    have hv : NumText.value ⟨false, b!"0", some b!"3", none⟩ = 3 / 10 := by
      have h0 : natOf b!"0" = 0 := by decide
      have h3 : natOf b!"3" = 3 := by decide
      simp only [NumText.value, NumText.exp, NumText.expNeg, NumText.expAbs, NumText.frac, Option.getD_some, h0, h3]
      norm_num
    rw [hv] at h1
    revert h1
    simp only [val]
    rw [abs_of_pos (by norm_num), abs_of_neg (by norm_num)]
    norm_num

example : ∃ r, parseFloat b!"123456789012345678901234567890" = .num false r ∧
    Nearest f64 (NumText.value ⟨false, b!"123456789012345678901234567890", none, none⟩) r :=
  C43_integers_partial ⟨false, b!"123456789012345678901234567890", none, none⟩
    ⟨⟨by simp, by unfold IsDigitByte; decide⟩, by simp, by simp⟩ rfl rfl
/-- C43 is false, also for numerals that are left to strconv: 0.00…01e100001, with 100000 zeros after the point, is 1, but is read as 0. -/
theorem C43_false_exponent : ∃ x : NumText, x.Ok ∧ RfcNumber x.text ∧ x.value = 1 ∧ parseFloat x.text = .num false (.fin 0 (-1074)) := by
  obtain ⟨Z, hZ, hZl⟩ : ∃ Z : Bytes, (∀ b ∈ Z, b = 48) ∧ Z.length = 100000 :=
    ⟨List.replicate 100000 48, fun b hb => (List.mem_replicate.1 hb).2, List.length_replicate ..⟩
  let x : NumText := ⟨false, b!"0", some (Z ++ [49]), some (101, [], b!"100001")⟩
  have hd : Digits (Z ++ [49]) := by
    refine ⟨by simp, fun b hb => ?_⟩
    rw [List.mem_append, List.mem_singleton] at hb
    rcases hb with hb | rfl
    · rw [hZ b hb]; unfold IsDigitByte; decide
    · unfold IsDigitByte; decide
  have he : Digits b!"100001" := ⟨by simp, by unfold IsDigitByte; decide⟩
  have hx : x.Ok := by
    refine ⟨(⟨by simp, by unfold IsDigitByte; decide⟩ : Digits b!"0"), ?_, ?_⟩
    · rintro f ⟨⟩; exact hd
    · rintro c sg ds ⟨⟩; exact ⟨Or.inl rfl, by simp, he⟩
  have hE : x.expAbs = 100001 := by change natOf b!"100001" = 100001; decide
  have hN : x.expNeg = false := rfl
  have hF : natOf x.frac = 1 := by
    change natOf (Z ++ [49]) = 1
    rw [natOf_append]
    have : ∀ Z : Bytes, (∀ b ∈ Z, b = 48) → natOf Z = 0 := by
      intro Z
      induction Z with
      | nil => intro _; rfl
      | cons b Z ih => intro h; rw [natOf, ih fun b hb => h b (by simp [hb]), h b (by simp)]; simp
    rw [this Z hZ]; simp [natOf]
  have hL : x.frac.length = 100001 := by
    change (Z ++ [49]).length = 100001
    rw [List.length_append, hZl]; rfl
  have hI : natOf x.ip = 0 := by change natOf b!"0" = 0; decide
  have h10 : (10 : ℚ) ^ (100001 : ℕ) ≠ 0 := by positivity
  have h5 : fiveDigits 100001 = 10000 := by rw [fiveDigits, if_neg (by omega), fiveDigits_small (by omega)]
  refine ⟨x, hx, ?_, ?_, ?_⟩
  · exact ⟨[], b!"0", 46 :: (Z ++ [49]), b!"e100001", by simp [x, NumText.text, fracText, expText], Or.inl rfl, Or.inl rfl,
      Or.inr ⟨_, rfl, hd⟩, Or.inr ⟨101, [], b!"100001", rfl, Or.inl rfl, Or.inl rfl, he⟩⟩
  · unfold NumText.value NumText.exp
    rw [hI, hF, hL, hN, hE]
    simp only [Bool.false_eq_true, if_false]
    rw [zpow_natCast, Nat.cast_zero, Nat.cast_one, zero_add, one_div, inv_mul_cancel₀ h10]
  · have ho : x.OneSign := by rintro c sg ds ⟨⟩; exact Or.inl rfl
    have hc : x.cutValue = 10 ^ (-(90001 : ℕ) : ℤ) := by
      unfold NumText.cutValue
      rw [hI, hF, hL, hN, hE, h5]
      simp only [Bool.false_eq_true, if_false]
      rw [Nat.cast_zero, Nat.cast_one, zero_add, one_div, ← zpow_natCast, ← zpow_neg, ← zpow_add₀ (by norm_num)]
      norm_num
    obtain ⟨r, h1, h2⟩ := strconv_cut x hx ho
    have hr := h2.unique (nearest_tiny (by rw [hc]; positivity) (tiny_of_ten (k := 90001) (by omega) (by rw [hc])))
    rw [parseFloat_text x hx]
    unfold outcome
    change (if wrap (natOf b!"100001") > 300 then strconvParseFloat x.text else _) = _
    rw [if_pos (by decide), h1, ← hr]

example : parseFloat b!"-123e20" = .num true (round f64 (123 * 10 ^ 20) 1) := by decide +kernel
example : parseFloat b!"1e-400" = .num false (.fin 0 (-1074)) ∧ parseFloat b!"1e400" = .num false .inf := by decide +kernel

/-! ## C63: how far off ParseFloat can be -/

/-- C63: as long as neither digit string overflows an uint64 and the number is neither huge nor tiny, the relative error
of ParseFloat is at most 2^-49 (eight units in the last place). -/
theorem C63_error (x : NumText) (hx : x.Ok) (hi : natOf x.ip < 2 ^ 64) (hf : natOf x.frac < 2 ^ 64)
    (hil : x.ip.length ≤ 300) (hfl : x.frac.length ≤ 300) (he : x.expAbs ≤ 300)
    (hr : x.value = 0 ∨ (10 ^ (-307 : ℤ) ≤ x.value ∧ x.value ≤ 10 ^ 308)) :
    ∃ m e, parseFloat x.text = .num x.neg (.fin m e) ∧ IsFloat f64 m e ∧ |val m e - x.value| ≤ x.value / 2 ^ 49 := by
  have hr : InRange x.value := hr
  suffices h : ∃ m e, parseFloat x.text = .num x.neg (.fin m e) ∧ IsFloat f64 m e ∧ Rel 12 x.value (val m e) by
    obtain ⟨m, e, h1, h2, h3⟩ := h
    exact ⟨m, e, h1, h2, rel_abs hr.nonneg h3 (by omega)⟩
  have fromRound : ∀ {r}, parseFloat x.text = .num x.neg r → RoundOf x.value r →
      ∃ m e, parseFloat x.text = .num x.neg (.fin m e) ∧ IsFloat f64 m e ∧ Rel 12 x.value (val m e) := by
    intro r h1 h2
    obtain ⟨m, e, rfl, h4⟩ := round_rel h2 (Rel.refl _) hr (by omega)
    exact ⟨m, e, h1, h2.nearest.1, h4.mono hr.nonneg (by omega)⟩
  have isF : ∀ {a b : UInt64} {j m e}, decimalMag a b j = some (.fin m e) → IsFloat f64 m e := by
    intro a b j m e h
    unfold decimalMag at h
    cases hq : mul f64 (flt b) (pow10 (wrap (-j))) with
    | none => rw [hq] at h; cases h
    | some r =>
      rw [hq] at h
      cases ha : flt a with
      | inf => rw [ha] at h; cases r <;> simp [add] at h
      | fin m' e' =>
        rw [ha] at h
        cases r with
        | inf => simp [add] at h
        | fin m'' e'' =>
          have h2 := (add_round (m := m') (e := e') (m' := m'') (e' := e'')).nearest
          simp only [Option.some.injEq] at h
          rw [h] at h2
          exact h2.1
  have isS : ∀ {a b : UInt64} {j sg k m e}, scientificMag a b j sg k = some (.fin m e) → IsFloat f64 m e := by
    intro a b j sg k m e h
    have hmul : ∀ {p q : Mag} {m e}, mul f64 p q = some (.fin m e) → IsFloat f64 m e := by
      intro p q m e h
      match p, q with
      | .fin m' e', .fin m'' e'' =>
        obtain ⟨r, h1, h2⟩ := mul_round (m := m') (e := e') (m' := m'') (e' := e'')
        rw [h1] at h; cases h
        exact h2.nearest.1
      | .fin m' e', .inf => simp only [mul] at h; split at h <;> simp at h
      | .inf, .fin m' e' => simp only [mul] at h; split at h <;> simp at h
      | .inf, .inf => simp [mul] at h
    unfold scientificMag at h
    split at h
    · cases hq : decimalMag a b j with
      | none => rw [hq] at h; cases h
      | some r => rw [hq] at h; exact hmul h
    · cases h1 : mul f64 (flt a) (pow10 k) with
      | none => rw [h1] at h; simp at h
      | some r1 =>
        cases h2 : mul f64 (flt b) (pow10 (wrap (k - j))) with
        | none => rw [h1, h2] at h; simp at h
        | some r2 =>
          rw [h1, h2] at h
          simp only [Option.some.injEq] at h
          match r1, r2, h with
          | .fin m' e', .fin m'' e'', h =>
            have h2 := (add_round (m := m') (e := e') (m' := m'') (e' := e'')).nearest
            rw [h] at h2
            exact h2.1
          | .inf, .fin _ _, h => simp [add] at h
          | .fin _ _, .inf, h => simp [add] at h
          | .inf, .inf, h => simp [add] at h
  have ht := parseFloat_text x hx
  unfold outcome at ht
  cases hex : x.ex with
  | none =>
    rw [hex] at ht
    have ho : x.OneSign := by intro c sg ds h; rw [hex] at h; cases h
    cases hfp : x.fp with
    | none =>
      obtain ⟨r, h1, h2⟩ := round_int x hx hfp hex
      exact fromRound h1 h2
    | some f =>
      rw [hfp] at ht
      have hfr : x.frac = f := by unfold NumText.frac; rw [hfp]; rfl
      simp only at ht
      by_cases h18 : f.length ≤ 18
      · rw [if_pos h18] at ht
        rw [hfr] at hf hfl
        obtain ⟨m, e, h1, h2⟩ := decimalMag_rel hi hf hfl
        rw [h1] at ht
        have hv : x.value = natOf x.ip + natOf f / 10 ^ f.length := by
          unfold NumText.value NumText.exp NumText.expNeg NumText.expAbs; rw [hex, hfr]; simp
        refine ⟨m, e, ht, isF h1, ?_⟩
        rw [hv] at hr ⊢
        exact h2.mono hr.nonneg (by omega)
      · rw [if_neg h18] at ht
        obtain ⟨r, h1, h2⟩ := strconv_nearest x hx ho (handy_plain hex)
        exact fromRound (ht.trans h1) h2
  | some q =>
    obtain ⟨c, sg, ds⟩ := q
    rw [hex] at ht
    have hE : x.expAbs = natOf ds := by unfold NumText.expAbs; rw [hex]
    have hN : x.expNeg = decide (45 ∈ sg) := by unfold NumText.expNeg; rw [hex]
    rw [hE] at he
    simp only at ht
    rw [wrap_small (by omega) (by omega), if_neg (by omega), ← hN] at ht
    have hcount : NumText.count x ≤ 300 ∧ ((natOf x.frac : ℚ) / 10 ^ NumText.count x = natOf x.frac / 10 ^ x.frac.length) := by
      unfold NumText.count NumText.frac
      cases hfp : x.fp with
      | none => exact ⟨hil, by simp [natOf]⟩
      | some f => exact ⟨by unfold NumText.frac at hfl; rw [hfp] at hfl; exact hfl, rfl⟩
    have hv : x.value = (natOf x.ip + natOf x.frac / 10 ^ NumText.count x) * 10 ^ x.exp := by rw [hcount.2]; rfl
    unfold NumText.exp at hv
    cases hs : x.expNeg with
    | true =>
      rw [hs] at ht hv
      rw [if_pos rfl, hE] at hv
      rw [hv] at hr
      obtain ⟨m, e, h1, h2⟩ := sciNeg_rel hi hf hcount.1 he hr
      rw [h1] at ht
      exact ⟨m, e, ht, isS h1, by rw [hv]; exact h2⟩
    | false =>
      rw [hs] at ht hv
      rw [if_neg (by decide), hE] at hv
      rw [hv] at hr
      obtain ⟨m, e, h1, h2⟩ := sciPos_rel hi hf hcount.1 he hr
      rw [h1] at ht
      exact ⟨m, e, ht, isS h1, by rw [hv]; exact h2.mono hr.nonneg (by omega)⟩

example : ∃ m e, parseFloat b!"3.14159e-2" = .num false (.fin m e) ∧ IsFloat f64 m e ∧
    |val m e - NumText.value ⟨false, b!"3", some b!"14159", some (101, [45], b!"2")⟩| ≤
      NumText.value ⟨false, b!"3", some b!"14159", some (101, [45], b!"2")⟩ / 2 ^ 49 := by
  refine C63_error ⟨false, b!"3", some b!"14159", some (101, [45], b!"2")⟩ ⟨⟨by simp, by unfold IsDigitByte; decide⟩, ?_, ?_⟩
    (by decide +kernel) (by decide +kernel) (by decide) (by decide) (by decide) (Or.inr ?_)
  · rintro f ⟨⟩; exact ⟨by simp, by unfold IsDigitByte; decide⟩
  · rintro _ _ _ ⟨⟩; exact ⟨Or.inl rfl, by simp, by simp, by unfold IsDigitByte; decide⟩
  · have hv : NumText.value ⟨false, b!"3", some b!"14159", some (101, [45], b!"2")⟩ = 314159 / 10 ^ 7 := by
      have h1 : natOf b!"3" = 3 := by decide
      have h2 : natOf b!"14159" = 14159 := by decide
      have h3 : natOf b!"2" = 2 := by decide
      simp only [NumText.value, NumText.exp, NumText.expNeg, NumText.expAbs, NumText.frac, Option.getD_some, h1, h2, h3]
      norm_num
    rw [hv]
    constructor
    · calc (10 : ℚ) ^ (-307 : ℤ) ≤ 10 ^ (-7 : ℤ) := zpow_le_zpow_right₀ (by norm_num) (by norm_num)
        _ ≤ _ := by norm_num
    · calc (314159 : ℚ) / 10 ^ 7 ≤ 1 := by norm_num
        _ ≤ _ := one_le_pow₀ (by norm_num)

/-! ## C41, C42: integers -/

theorem decimal_text {i : ℤ} {s : Bytes} (h : IsDecimal i s) :
    ∃ x : NumText, x.Ok ∧ x.fp = none ∧ x.ex = none ∧ x.neg = decide (i < 0) ∧ natOf x.ip = i.natAbs ∧ s = x.text := by
  obtain ⟨ds, h1, h2, rfl⟩ := h
  refine ⟨⟨decide (i < 0), ds, none, none⟩, ⟨h1, by simp, by simp⟩, rfl, rfl, rfl, h2, ?_⟩
  simp [NumText.text, fracText, expText]

/-- A decimal integer of any length parses to the float64 nearest to it. -/
theorem C41_rounded (i : ℤ) (s : Bytes) (h : IsDecimal i s) :
    ∃ r, parseFloat s = .num (decide (i < 0)) r ∧ Nearest f64 (i.natAbs : ℚ) r := by
  obtain ⟨x, h1, h2, h3, h4, h5, rfl⟩ := decimal_text h
  obtain ⟨r, h6, h7⟩ := C43_integers_partial x h1 h2 h3
  rw [value_int h2 h3, h5] at h7
  exact ⟨r, by rw [← h4]; exact h6, h7⟩

theorem parse_representable {i : ℤ} {s : Bytes} (h : IsDecimal i s) {m : Nat} {e : Int} (hf : IsFloat f64 m e) (hv : val m e = i.natAbs) :
    parseFloat s = .num (decide (i < 0)) (.fin m e) := by
  obtain ⟨x, h1, h2, h3, h4, h5, rfl⟩ := decimal_text h
  obtain ⟨r, h6, h7⟩ := round_int x h1 h2 h3
  rw [value_int h2 h3, h5] at h7
  rw [h6, h4, h7.exact hf hv]

/-- C41: decimal integers up to 2^53 parse to exactly that number (of whatever length; the claim asks for 18 digits). -/
theorem C41_exact (i : ℤ) (s : Bytes) (h : IsDecimal i s) (hi : i.natAbs ≤ 2 ^ 53) :
    ∃ m e, parseFloat s = .num (decide (i < 0)) (.fin m e) ∧ IsFloat f64 m e ∧ val m e = i.natAbs := by
  obtain ⟨m, e, h1, h2⟩ := nat_isFloat hi
  exact ⟨m, e, parse_representable h h1 h2, h1, h2⟩

theorem trunc_int {m : Nat} {e : Int} {n : Nat} (hv : val m e = n) : isIntMag m e = true ∧ truncMag m e = n := by
  have w2 := (pow2_pos e).2
  have w2q : ((pow2 e).2 : ℚ) ≠ 0 := by exact_mod_cast w2.ne'
  have h : m * (pow2 e).1 = n * (pow2 e).2 := by
    unfold val at hv
    rw [← pow2_val] at hv
    field_simp at hv
    rw [mul_comm n]
    exact_mod_cast hv
  unfold isIntMag truncMag
  simp only [h]
  exact ⟨by simp, Nat.mul_div_cancel _ w2⟩

theorem int_of_nat {i : ℤ} {m : Nat} {e : Int} (hv : val m e = i.natAbs) : isIntMag m e = true ∧ truncFlt (decide (i < 0)) m e = i := by
  obtain ⟨h1, h2⟩ := trunc_int hv
  refine ⟨h1, ?_⟩
  unfold truncFlt
  rw [h2]
  by_cases h : i < 0
  · rw [decide_eq_true h, if_pos rfl]; omega
  · rw [decide_eq_false h, if_neg (by decide)]; omega

/-- C42 for the int64 that a float64 can represent. Missing from the full statement: the other int64 (beyond 2^53),
for which it is false (`C42_false`). -/
theorem C42_parseInt_partial (i : ℤ) (s : Bytes) (h : IsDecimal i s) (h1 : -2 ^ 63 ≤ i) (h2 : i < 2 ^ 63)
    (hr : ∃ m e, IsFloat f64 m e ∧ val m e = i.natAbs) : parseInt s = (i, true) := by
  obtain ⟨m, e, hf, hv⟩ := hr
  obtain ⟨g1, g2⟩ := int_of_nat hv
  unfold parseInt
  simp only [parse_representable h hf hv]
  simp only [convInt, intFlag]
  rw [g2, if_pos ⟨h1, h2⟩, g1, decide_eq_true h1, decide_eq_true h2]
  rfl

theorem C42_parseUint_partial (i : ℤ) (s : Bytes) (h : IsDecimal i s) (h1 : 0 ≤ i) (h2 : i < 2 ^ 64)
    (hr : ∃ m e, IsFloat f64 m e ∧ val m e = i.natAbs) : parseUint s = (i, true) := by
  obtain ⟨m, e, hf, hv⟩ := hr
  obtain ⟨g1, g2⟩ := int_of_nat hv
  unfold parseUint
  simp only [parse_representable h hf hv]
  simp only [convInt, intFlag]
  rw [g2, if_pos ⟨h1, h2⟩, g1, decide_eq_true h1, decide_eq_true h2]
  rfl

/-- In particular for all integers up to 2^53. -/
theorem C42_small_partial (i : ℤ) (s : Bytes) (h : IsDecimal i s) (hi : i.natAbs ≤ 2 ^ 53) : parseInt s = (i, true) :=
  C42_parseInt_partial i s h (by omega) (by omega) (nat_isFloat hi)

/-- An int64 that is not a float64 is never returned: ParseInt answers with another integer or fails. -/
theorem C42_lossy (i : ℤ) (s : Bytes) (h : IsDecimal i s) (hr : ¬ ∃ m e, IsFloat f64 m e ∧ val m e = i.natAbs) : parseInt s ≠ (i, true) := by
  obtain ⟨r, h1, h2⟩ := C41_rounded i s h
  intro hp
  unfold parseInt at hp
  rw [h1] at hp
  simp only [Prod.mk.injEq] at hp
  cases r with
  | inf => simp [intFlag] at hp
  | fin m e =>
    obtain ⟨p1, p2⟩ := hp
    simp only [intFlag, Bool.and_eq_true, decide_eq_true_eq] at p2
    simp only [convInt] at p1
    rw [if_pos ⟨p2.1.2, p2.2⟩] at p1
    refine hr ⟨m, e, h2.1, ?_⟩
    have hint := p2.1.1
    have ht : truncMag m e = i.natAbs := by
      unfold truncFlt at p1
      split at p1 <;> omega
    have w2 := (pow2_pos e).2
    have w2q : ((pow2 e).2 : ℚ) ≠ 0 := by exact_mod_cast w2.ne'
    have hm : m * (pow2 e).1 = i.natAbs * (pow2 e).2 := by
      unfold isIntMag at hint
      unfold truncMag at ht
      simp only [beq_iff_eq] at hint
      rw [← ht]
      exact (Nat.div_mul_cancel (Nat.dvd_of_mod_eq_zero hint)).symm
    unfold val
    rw [← pow2_val]
    have hm' : (m : ℚ) * (pow2 e).1 = i.natAbs * (pow2 e).2 := by exact_mod_cast hm
    rw [← mul_div_assoc, hm', mul_div_assoc, div_self w2q, mul_one]

/-- C42 is false as stated: 9007199254740993 = 2^53 + 1 is read back as 9007199254740992 with `ok = true`, and the
largest int64 is rejected. -/
theorem C42_false : parseInt b!"9007199254740993" = (9007199254740992, true) ∧ (parseInt b!"9223372036854775807").2 = false ∧
    IsDecimal 9007199254740993 b!"9007199254740993" ∧ IsDecimal 9223372036854775807 b!"9223372036854775807" :=
  ⟨by decide +kernel, by decide +kernel,
    ⟨b!"9007199254740993", ⟨by simp, by unfold IsDigitByte; decide⟩, by decide +kernel, rfl⟩,
    ⟨b!"9223372036854775807", ⟨by simp, by unfold IsDigitByte; decide⟩, by decide +kernel, rfl⟩⟩

example : IsDecimal (-9223372036854775808) b!"-9223372036854775808" ∧ parseInt b!"-9223372036854775808" = (-9223372036854775808, true) := by
  refine ⟨⟨b!"9223372036854775808", ⟨by simp, by unfold IsDigitByte; decide⟩, by decide +kernel, rfl⟩, by decide +kernel⟩

/-- The same for nodes: after SetInt with the text strconv.FormatInt gives, ToInt returns the integer. -/
theorem C42_setInt_partial (h : Njson.Heap) (n : Njson.Node) (i : ℤ) (s : Bytes) (hs : IsDecimal i s) (hn : n.get h ≠ none)
    (h1 : -2 ^ 63 ≤ i) (h2 : i < 2 ^ 63) (hr : ∃ m e, IsFloat f64 m e ∧ val m e = i.natAbs) :
    toInt (n.setScalar h Njson.tNumber s) n = (i, true) := by
  cases hg : n.get h with
  | none => exact absurd hg hn
  | some d =>
    unfold toInt
    rw [(setScalar_get hg _ _).1]
    exact C42_parseInt_partial i s hs h1 h2 hr

/-! ## C44: long digit strings -/


theorem nearest_ge {x : ℚ} {m : Nat} {e : Int} (h : Nearest f64 x (.fin m e)) {m' : Nat} {e' : Int} (hf : IsFloat f64 m' e') (hx : val m' e' ≤ x) :
    val m' e' ≤ val m e := by
  by_contra hc
  have hc := not_le.1 hc
  have h1 := (h.2.2 m' e' hf).1
  rw [abs_of_neg (by linarith), abs_of_nonpos (by linarith)] at h1
  linarith

/-- C44 for numerals without exponent whose fraction is absent or longer than 18 digits: an integer part of 2^63 or more
never parses to less. Missing from the full statement: the numerals with a short fraction or an exponent, for which it
is false (`C44_false`). -/
theorem C44_partial (x : NumText) (hx : x.Ok) (he : x.ex = none) (hf : x.fp = none ∨ 18 < x.frac.length) (hi : 2 ^ 63 ≤ natOf x.ip) :
    ∃ r, parseFloat x.text = .num x.neg r ∧ (r = .inf ∨ ∃ m e, r = .fin m e ∧ 2 ^ 63 ≤ val m e) := by
  obtain ⟨r, h1, h2⟩ : ∃ r, parseFloat x.text = .num x.neg r ∧ Nearest f64 x.value r := by
    rcases hf with hf | hf
    · exact C43_integers_partial x hx hf he
    · exact C43_long_fraction_partial x hx hf he
  refine ⟨r, h1, ?_⟩
  cases r with
  | inf => exact Or.inl rfl
  | fin m e =>
    refine Or.inr ⟨m, e, rfl, ?_⟩
    have hv : (2 : ℚ) ^ 63 ≤ x.value := by
      have h3 : (2 : ℚ) ^ 63 ≤ natOf x.ip := by exact_mod_cast hi
      unfold NumText.value NumText.exp NumText.expNeg NumText.expAbs
      rw [he]
      simp only [Bool.false_eq_true, if_false, Nat.cast_zero, zpow_zero, mul_one]
      have : (0 : ℚ) ≤ natOf x.frac / 10 ^ x.frac.length := by positivity
      linarith
    have h4 : val (2 ^ 52) 11 = 2 ^ 63 := by unfold val; norm_num
    have := nearest_ge h2 (m' := 2 ^ 52) (e' := 11) ⟨by decide, by decide, by decide, Or.inl (by decide)⟩ (by rw [h4]; exact hv)
    rw [h4] at this
    exact this

/-- C44 is false as stated: these JSON numbers are larger than 2^64 and parse to 1 and 0. -/
theorem C44_false : parseFloat b!"18446744073709551617.0" = .num false (.fin (2 ^ 52) (-52)) ∧ val (2 ^ 52) (-52) = 1 ∧
    parseFloat b!"18446744073709551616e0" = .num false (.fin 0 (-1074)) ∧
    RfcNumber b!"18446744073709551617.0" ∧ RfcNumber b!"18446744073709551616e0" := by
  refine ⟨by decide +kernel, by unfold val; norm_num, by decide +kernel, ?_, ?_⟩
  · exact ⟨[], b!"18446744073709551617", b!".0", [], rfl, Or.inl rfl, Or.inr ⟨⟨by simp, by unfold IsDigitByte; decide⟩, by simp⟩,
      Or.inr ⟨b!"0", rfl, by simp, by unfold IsDigitByte; decide⟩, Or.inl rfl⟩
  · exact ⟨[], b!"18446744073709551616", [], b!"e0", rfl, Or.inl rfl, Or.inr ⟨⟨by simp, by unfold IsDigitByte; decide⟩, by simp⟩,
      Or.inl rfl, Or.inr ⟨101, [], b!"0", rfl, Or.inl rfl, Or.inl rfl, by simp, by unfold IsDigitByte; decide⟩⟩

example : ∃ x : NumText, x.Ok ∧ x.ex = none ∧ x.fp = none ∧ 2 ^ 63 ≤ natOf x.ip :=
  ⟨⟨true, b!"99999999999999999999999", none, none⟩, ⟨⟨by simp, by unfold IsDigitByte; decide⟩, by simp, by simp⟩, rfl, rfl, by decide +kernel⟩

/-! ## C45: AppendFloat -/

theorem fixExp_append (p q : Bytes) (h : 4 ≤ q.length) : fixExp (p ++ q) = p ++ fixExp q := by
  have e1 : (((p ++ q).length : Int) - 4).toNat = p.length + (q.length - 4) := by simp; omega
  have e2 : ((q.length : Int) - 4).toNat = q.length - 4 := by omega
  have d1 : (p ++ q).drop (p.length + (q.length - 4)) = q.drop (q.length - 4) := by
    rw [List.drop_append, List.drop_eq_nil_of_le (by omega), List.nil_append]; congr 1; omega
  have t1 : (p ++ q).take (p.length + (q.length - 4)) = p ++ q.take (q.length - 4) := by
    rw [List.take_append, List.take_of_length_le (by omega)]; congr 2; omega
  unfold fixExp
  simp only [e1, e2, d1, t1]
  rw [if_pos (by simp; omega), if_pos (by omega)]
  split
  · rw [List.append_assoc]
  · rfl

theorem text_split (x : NumText) {c : UInt8} {sg ds : Bytes} (h : x.ex = some (c, sg, ds)) :
    x.text = ((if x.neg then [45] else []) ++ x.ip ++ fracText x.fp) ++ (c :: (sg ++ ds)) := by
  unfold NumText.text; rw [h]; simp [expText]

/-- C45, exponent format. The hypotheses on strconv's text are those of its 'e' format: a numeral with exponent `e`, one
sign, at least two digits. -/
theorem C45_exponent (dst : Bytes) (f : Flt) (bits : Nat) (text : UInt8 → Bytes) (x : NumText) (hx : x.Ok) (ht : text 101 = x.text)
    {sg : UInt8} {ds : Bytes} (he : x.ex = some (101, [sg], ds)) (hd : 2 ≤ ds.length) (hfmt : fmtByte f bits = 101) :
    ∃ x' : NumText, x'.Ok ∧ appendFloat dst f bits text = dst ++ x'.text ∧ x'.neg = x.neg ∧ x'.value = x.value ∧
      ((∃ d, x.ex = some (101, [45], [48, d]) ∧ x' = { x with ex := some (101, [45], [d]) }) ∨
        (x' = x ∧ ∀ d, x.ex ≠ some (101, [45], [48, d]))) := by
  obtain ⟨hc, hsg, hds⟩ := hx.2.2 _ _ _ he
  have hal : appendFloat dst f bits text = fixExp (dst ++ x.text) := by
    unfold appendFloat; rw [hfmt, if_pos rfl, ht]
  have hsplit := text_split x he
  have hlen : 4 ≤ x.text.length := by rw [hsplit]; simp; omega
  rw [hal, fixExp_append _ _ hlen, hsplit, fixExp_append _ _ (by simp; omega)]
  generalize hP : ((if x.neg then [45] else []) ++ x.ip ++ fracText x.fp) = P at *
  -- the tail `e sg ds`
  have keep : (∀ d, (101 : UInt8) :: ([sg] ++ ds) ≠ [101, 45, 48, d]) → fixExp (101 :: ([sg] ++ ds)) = 101 :: ([sg] ++ ds) := by
    intro hno
    unfold fixExp
    simp only
    rw [if_pos (by simp; omega)]
    split
    · rename_i d heq
      exfalso
      -- a match further right would need an `e` among the digits
      have hL : ((101 : UInt8) :: ([sg] ++ ds)).length = ds.length + 2 := by simp
      by_cases h2 : ds.length = 2
      · have : (((101 : UInt8) :: ([sg] ++ ds)).length - 4 : Int).toNat = 0 := by rw [hL]; omega
        rw [this, List.drop_zero] at heq
        exact hno d heq
      · have : (((101 : UInt8) :: ([sg] ++ ds)).length - 4 : Int).toNat = (ds.length - 3) + 1 := by rw [hL]; omega
        rw [this, List.drop_succ_cons] at heq
        have hmem : (101 : UInt8) ∈ [sg] ++ ds := List.mem_of_mem_drop (i := ds.length - 3) (by rw [heq]; simp)
        rcases List.mem_append.1 hmem with h | h
        · have := hsg 101 h; revert this; decide
        · have := hds.2 101 h; exact absurd this.2 (by decide)
    · rfl
  by_cases hz : ∃ d, (101 : UInt8) :: ([sg] ++ ds) = [101, 45, 48, d]
  · obtain ⟨d, hd'⟩ := hz
    simp only [List.cons_append, List.nil_append, List.cons.injEq, true_and] at hd'
    obtain ⟨rfl, rfl⟩ := hd'
    have hdd : IsDigitByte d := hds.2 d (by simp)
    have hok : NumText.Ok { x with ex := some (101, [45], [d]) } := by
      refine ⟨hx.1, hx.2.1, ?_⟩
      rintro _ _ _ ⟨⟩
      exact ⟨Or.inl rfl, by simp, by simp, by simpa using hdd⟩
    refine ⟨_, hok, ?_, rfl, ?_, Or.inl ⟨d, he, rfl⟩⟩
    · rw [text_split { x with ex := some (101, [45], [d]) } rfl, hP]
      rfl
    · unfold NumText.value NumText.exp NumText.expNeg NumText.expAbs NumText.frac
      simp [he, natOf]
  · refine ⟨x, hx, ?_, rfl, rfl, Or.inr ⟨rfl, ?_⟩⟩
    · rw [keep (fun d h => hz ⟨d, h⟩), hsplit]
    · intro d h
      rw [he] at h
      simp only [Option.some.injEq, Prod.mk.injEq, true_and] at h
      exact hz ⟨d, by rw [h.1, h.2]; rfl⟩

/-- C45, plain format, and infinities (for which strconv prints "+Inf" or "-Inf" in either format): the text is kept. -/
theorem C45_plain (dst : Bytes) (f : Flt) (bits : Nat) (text : UInt8 → Bytes)
    (h : fmtByte f bits = 102 ∨ text 101 = b!"+Inf" ∨ text 101 = b!"-Inf") :
    appendFloat dst f bits text = dst ++ text (fmtByte f bits) := by
  unfold appendFloat
  by_cases h1 : fmtByte f bits = 101
  · rw [h1]
    rcases h with h | h | h
    · rw [h1] at h; exact absurd h (by decide)
    · rw [if_pos rfl, h, fixExp_append _ _ (by decide)]; rfl
    · rw [if_pos rfl, h, fixExp_append _ _ (by decide)]; rfl
  · simp only [if_neg h1]

theorem ltMag_iff {m e m' e'} : ltMag (.fin m e) (.fin m' e') = true ↔ val m e < val m' e' := by
  have h1 : (0 : ℚ) < (pow2 e).2 := by exact_mod_cast (pow2_pos e).2
  have h2 : (0 : ℚ) < (pow2 e').2 := by exact_mod_cast (pow2_pos e').2
  unfold ltMag val
  rw [decide_eq_true_iff, ← pow2_val, ← pow2_val, ← mul_div_assoc, ← mul_div_assoc, div_lt_div_iff₀ h1 h2]
  constructor
  · intro h
    have : ((m * (pow2 e).1 * (pow2 e').2 : ℕ) : ℚ) < (m' * (pow2 e').1 * (pow2 e).2 : ℕ) := by exact_mod_cast h
    push_cast at this; linarith
  · intro h
    exact_mod_cast h

/-- C45, the choice of format for float64: exponents are used below the float nearest to 1e-6 and from 1e21 on, never for zero. -/
theorem C45_format : ∃ m₆ e₆, Nearest f64 (1 / 10 ^ 6) (.fin m₆ e₆) ∧ ∀ neg m e,
    (fmtByte (.num neg (.fin m e)) 64 = 101 ↔ val m e ≠ 0 ∧ (val m e < val m₆ e₆ ∨ 10 ^ 21 ≤ val m e)) ∧
    (fmtByte (.num neg (.fin m e)) 64 = 101 ∨ fmtByte (.num neg (.fin m e)) 64 = 102) := by
  have h6 : round f64 1 (10 ^ 6) = .fin 4722366482869645 (-72) := by decide +kernel
  have h21 : round f64 (10 ^ 21) 1 = .fin 7629394531250000 17 := by decide +kernel
  have hv21 : val 7629394531250000 17 = 10 ^ 21 := by unfold val; norm_num
  refine ⟨4722366482869645, -72, ?_, fun neg m e => ⟨?_, ?_⟩⟩
  · have := round_nearest f64 f64_ok 1 (d := 10 ^ 6) (by norm_num)
    rw [h6] at this
    norm_num at this ⊢
    exact this
  · have hz : isZeroMag (.fin m e) = false ↔ val m e ≠ 0 := by
      unfold isZeroMag val
      have := two_zpow_pos e
      simp [this.ne']
    have hlt : ltMag (.fin m e) (.fin 7629394531250000 17) = false ↔ 10 ^ 21 ≤ val m e := by
      rw [← hv21, ← not_lt, ← ltMag_iff, Bool.not_eq_true]
    unfold fmtByte
    simp only [h6, h21]
    rw [← hz, ← hlt, ← ltMag_iff]
    cases isZeroMag (.fin m e) <;> cases ltMag (.fin m e) (.fin 4722366482869645 (-72)) <;>
      cases ltMag (.fin m e) (.fin 7629394531250000 17) <;> simp
  · unfold fmtByte
    simp only
    split <;> simp

example : appendFloat b!"x=" (.num false (round f64 1 (10 ^ 7))) 64 (fun c => if c = 101 then b!"1e-07" else []) = b!"x=1e-7" := by decide +kernel
example : appendFloat [] (.num true (round f64 (10 ^ 30) 1)) 64 (fun c => if c = 101 then b!"-1e+30" else []) = b!"-1e+30" := by decide +kernel

/-! ## C61: SetFloat and ToFloat -/

/-- C61 for numbers that strconv prints without point and exponent, which are the integral ones below 1e21: what SetFloat
stores is what ToFloat returns. The hypothesis says that strconv's text `x` rounds to the float, as its shortest format
guarantees. Missing: fractions and large numbers, for which it is false (`C61_false`). -/
theorem C61_partial (h : Njson.Heap) (n : Njson.Node) (hn : n.get h ≠ none) (neg : Bool) (r : Mag) (text : UInt8 → Bytes) (x : NumText)
    (hx : x.Ok) (hf : x.fp = none) (he : x.ex = none) (hneg : x.neg = neg) (hfmt : fmtByte (.num neg r) 64 = 102)
    (ht : text 102 = x.text) (hr : Nearest f64 x.value r) :
    toFloat (n.setScalar h Njson.tNumber (formatFloat (.num neg r) 64 text)) n = (.num neg r, true) := by
  have h1 : formatFloat (.num neg r) 64 text = x.text := by
    unfold formatFloat; rw [C45_plain _ _ _ _ (Or.inl hfmt), hfmt, ht]; rfl
  obtain ⟨r', h2, h3⟩ := round_int x hx hf he
  have h4 : parseFloat x.text = .num neg r := by rw [h2, hneg, h3.unique hr]
  cases hg : n.get h with
  | none => exact absurd hg hn
  | some d =>
    unfold toFloat
    rw [(setScalar_get hg _ _).1, h1]
    simp only [Njson.NodeD.reset, h4]
    rfl

/-- C61 is false as stated: the float64 nearest to 0.3 is printed as "0.3" (which does round to it) and read back as
another float. -/
theorem C61_false : ∃ (h : Njson.Heap) (n : Njson.Node) (r : Mag) (text : UInt8 → Bytes) (x : NumText), n.get h ≠ none ∧ x.Ok ∧
    (∀ c, text c = x.text) ∧ Nearest f64 x.value r ∧
    toFloat (n.setScalar h Njson.tNumber (formatFloat (.num false r) 64 text)) n ≠ (.num false r, true) := by
  refine ⟨fun _ => (Njson.Doc.empty.number b!"1").1, ⟨0, 0, some 0⟩, .fin 5404319552844595 (-54), fun _ => b!"0.3",
    ⟨false, b!"0", some b!"3", none⟩, by decide +kernel, ?_, fun _ => rfl, ?_, by decide +kernel⟩
  · exact ⟨⟨by simp, by unfold IsDigitByte; decide⟩, by rintro f ⟨⟩; exact ⟨by simp, by unfold IsDigitByte; decide⟩, by simp⟩
  · have hv : NumText.value ⟨false, b!"0", some b!"3", none⟩ = (3 : ℕ) / (10 : ℕ) := by
      have h0 : natOf b!"0" = 0 := by decide
      have h3 : natOf b!"3" = 3 := by decide
      simp only [NumText.value, NumText.exp, NumText.expNeg, NumText.expAbs, NumText.frac, Option.getD_some, h0, h3]
      norm_num
    rw [hv]
    have h := round_nearest f64 f64_ok 3 (d := 10) (by norm_num)
    rw [show round f64 3 10 = .fin 5404319552844595 (-54) by decide +kernel] at h
    exact h

/-! ## C62: numbers that are not JSON -/

/-- C62: a NaN or an infinity is accepted by Number and SetFloat and makes the document serialise to something that is not
JSON: strconv's texts "NaN" and "+Inf" are kept as they are, appear in AppendJSON without an error, and the package's own
parser rejects them. -/
theorem C62_nonfinite :
    (∀ text : UInt8 → Bytes, text 102 = b!"NaN" → formatFloat .nan 64 text = b!"NaN") ∧
    (∀ text : UInt8 → Bytes, text 101 = b!"+Inf" → formatFloat (.num false .inf) 64 text = b!"+Inf") ∧
    (∀ raw ∈ [b!"NaN", b!"+Inf"],
      Njson.Node.appendJSON (fun _ => (Njson.Doc.empty.number raw).1) 1 ⟨0, 0, some 0⟩ [] = some (raw, false) ∧
      ∀ id tail, (Njson.Doc.empty.parse raw).2 ≠ .ok id tail) := by
  have bad : ∀ raw ∈ [b!"NaN", b!"+Inf"],
      Njson.Node.appendJSON (fun _ => (Njson.Doc.empty.number raw).1) 1 ⟨0, 0, some 0⟩ [] = some (raw, false) ∧
      (match (Njson.Doc.empty.parse raw).2 with | .ok _ _ => true | _ => false) = false := by decide +kernel
  refine ⟨fun text h => ?_, fun text h => ?_, fun raw hr => ⟨(bad raw hr).1, fun id tail h => ?_⟩⟩
  · unfold formatFloat appendFloat fmtByte; simp [h]
  · have h1 : fmtByte (.num false .inf) 64 = 101 := by decide +kernel
    unfold formatFloat
    rw [C45_plain _ _ _ _ (Or.inr (Or.inl h)), h1, h]; rfl
  · have := (bad raw hr).2
    rw [h] at this
    cases this

/-! ## C64: numeric accessors on other nodes -/

/-- C64: the numeric accessors fail on every node whose raw text is not a numeral: all nulls, booleans, objects, arrays, and
dead nodes. Missing: string nodes, whose text may be a numeral (`C64_false`). -/
theorem C64_partial (h : Njson.Heap) (n : Njson.Node) (hn : ∀ d, n.get h = some d → ¬ ∃ x : NumText, x.Ok ∧ d.raw = x.text) :
    (toFloat h n).2 = false ∧ (toInt h n).2 = false ∧ (toUint h n).2 = false := by
  unfold toFloat toInt toUint
  cases hg : n.get h with
  | none => exact ⟨rfl, rfl, rfl⟩
  | some d =>
    have := C40_malformed d.raw (hn d hg)
    simp only [parseInt, parseUint, this]
    exact ⟨rfl, rfl, rfl⟩

/-- C64 is false as stated: ToInt succeeds on the string "12". -/
theorem C64_false : ∃ (h : Njson.Heap) (n : Njson.Node), n.typ h = Njson.tString ∧ toInt h n = (12, true) :=
  ⟨fun _ => (Njson.Doc.empty.text b!"12").1, ⟨0, 0, some 0⟩, by decide +kernel, by decide +kernel⟩

end Verif.Props
