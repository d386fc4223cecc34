import Verif.Proofs.FloatSteps
import Verif.Props.NumJson

/-!
# What ParseFloat returns, for every numeral (C115), and when that is NaN (C40)
-/

namespace Verif.Props
open Verif Verif.Float Verif.Spec Verif.NumJson

theorem lens_of {x : NumText} (hl : x.text.length < 2 ^ 63) : x.lastDigits < 2 ^ 63 := by
  unfold NumText.text at hl
  unfold NumText.lastDigits
  simp only [List.length_append] at hl
  cases h : x.fp with
  | none => simp only; omega
  | some f => rw [h] at hl; simp only [fracText, List.length_cons] at hl ⊢; omega

/-- C115: a short numeral, or one whose exponent is at most 300, is evaluated with a few rounded operations: ParseFloat
returns `r` exactly when `r` is the result of these operations. -/
theorem C115_steps (x : NumText) (hx : x.Ok) (hl : x.text.length < 2 ^ 63) (hd : x.Direct) (r : Option Mag) :
    parseFloat x.text = signed x.neg r ↔ Steps x r := by
  have hj := lens_of hl
  rw [parseFloat_text x hx]
  unfold outcome Steps
  unfold NumText.Direct at hd
  have ha := flt_u64_mod x.ip
  have hb := flt_u64_mod x.frac
  cases hex : x.ex with
  | none =>
    rw [hex] at hd
    simp only at hd ⊢
    have key : Option.some (decimalMag (u64 x.ip) (u64 x.frac) x.lastDigits) = some r ↔
        ∃ a b, Nearest f64 ((natOf x.ip % 2 ^ 64 : ℕ) : ℚ) a ∧ Nearest f64 ((natOf x.frac % 2 ^ 64 : ℕ) : ℚ) b ∧
          ∃ p q, PowTen (-x.lastDigits) p ∧ Times (some b) p q ∧ Plus (some a) q r := by
      constructor
      · intro h
        refine ⟨_, _, (nat_iff _ _).2 rfl, (nat_iff _ _).2 rfl, (decimal_iff hj ha.symm hb.symm r).2 (Option.some.inj h).symm⟩
      · rintro ⟨a, b, h1, h2, h3⟩
        rw [nat_iff] at h1 h2
        rw [(decimal_iff hj (h1.trans ha.symm) (h2.trans hb.symm) r).1 h3]
    rw [← key]
    cases hfp : x.fp with
    | none =>
      unfold NumText.lastDigits at hd
      rw [hfp] at hd
      simp only at hd
      have hfr : x.frac = [] := by unfold NumText.frac; rw [hfp]; rfl
      have hz : flt (u64 ([] : Bytes)) = ofNat f64 0 := rfl
      obtain ⟨m, e, h3⟩ := pow10_fin (k := wrap (-(x.lastDigits : Int))) (by rw [wrap_small (by omega) (by omega)]; omega)
      have hmul := mul_zero_mag (k := wrap (-(x.lastDigits : Int))) ⟨m, e, h3⟩
      simp only [if_pos hd]
      rw [hfr]
      unfold decimalMag
      rw [hz, hmul]
      simp only
      obtain ⟨m', e', h4, h5⟩ := flt_isFloat (u64 x.ip)
      rw [h4, add_zero_round h5]
      rw [show Flt.num x.neg (.fin m' e') = signed x.neg (some (.fin m' e')) from rfl, signed_inj, Option.some_inj]
    | some f =>
      have hfr : x.frac = f := by unfold NumText.frac; rw [hfp]; rfl
      have hld : x.lastDigits = f.length := by unfold NumText.lastDigits; rw [hfp]
      rw [hld] at hd
      simp only [if_pos hd]
      rw [hfr, hld, result_signed, signed_inj, Option.some_inj]
  | some t =>
    obtain ⟨c, sg, ds⟩ := t
    rw [hex] at hd
    simp only at hd ⊢
    have hw : wrap (natOf ds) = expInt ds := rfl
    rw [hw, if_neg (by omega), result_signed, signed_inj, ← lastDigits_eq]
    unfold scientificMag
    by_cases hs : 45 ∈ sg
    · simp only [hs, decide_true, if_true]
      constructor
      · rintro rfl
        refine ⟨_, _, (nat_iff _ _).2 rfl, (nat_iff _ _).2 rfl, ?_⟩
        obtain ⟨p, q, h1, h2, h3⟩ := (decimal_iff hj ha.symm hb.symm (decimalMag (u64 x.ip) (u64 x.frac) x.lastDigits)).2 rfl
        refine ⟨p, q, _, _, h1, h2, h3, (powTen_iff _ _).2 rfl, (times_iff _ _ _).2 ?_⟩
        cases decimalMag (u64 x.ip) (u64 x.frac) x.lastDigits <;> rfl
      · rintro ⟨a, b, h1, h2, p, q, s, p', h3, h4, h5, h6, h7⟩
        rw [nat_iff] at h1 h2
        have hs' := (decimal_iff hj (h1.trans ha.symm) (h2.trans hb.symm) s).1 ⟨p, q, h3, h4, h5⟩
        rw [powTen_iff] at h6
        rw [times_iff] at h7
        rw [← hs', h7, h6]
        cases s <;> rfl
    · simp only [hs, decide_false, Bool.false_eq_true, if_false]
      constructor
      · rintro rfl
        refine ⟨_, _, (nat_iff _ _).2 rfl, (nat_iff _ _).2 rfl, _, _, _, _, (powTen_iff _ _).2 rfl, (times_iff _ _ _).2 rfl,
          (powTen_iff _ _).2 rfl, (times_iff _ _ _).2 rfl, (plus_iff _ _ _).2 ?_⟩
        rw [ha, hb]
        rfl
      · rintro ⟨a, b, h1, h2, p, q, p', q', h3, h4, h5, h6, h7⟩
        rw [nat_iff] at h1 h2
        rw [powTen_iff] at h3 h5
        rw [times_iff] at h4 h6
        rw [plus_iff] at h7
        rw [h7, h4, h6, h3, h5, ha, hb, h1, h2]
        rfl

/-- C115, the rest: every other numeral with at most one exponent sign is rounded correctly, after its exponent was cut after five digits. -/
theorem C115_cut (x : NumText) (hx : x.Ok) (ho : x.OneSign) (hd : ¬ x.Direct) (r : Mag) :
    parseFloat x.text = .num x.neg r ↔ Nearest f64 x.cutValue r := by
  have : parseFloat x.text = strconvParseFloat x.text := by
    rw [parseFloat_text x hx]
    unfold outcome
    unfold NumText.Direct NumText.lastDigits at hd
    cases hex : x.ex with
    | none =>
      rw [hex] at hd
      cases hfp : x.fp with
      | none => rw [hfp] at hd; simp only at hd ⊢; rw [if_neg hd]
      | some f => rw [hfp] at hd; simp only at hd ⊢; rw [if_neg hd]
    | some t =>
      obtain ⟨c, sg, ds⟩ := t
      rw [hex] at hd
      simp only at hd ⊢
      have hw : wrap (natOf ds) = expInt ds := rfl
      rw [hw, if_pos (by omega)]
  rw [this]
  obtain ⟨r', h1, h2⟩ := strconv_cut x hx ho
  rw [h1, h2.iff]
  simp [eq_comm]

/-- C115, the rest: it is rounded correctly if its exponent has at most five digits, or if there are at most 9600 digits before and after the point. -/
theorem C115_nearest (x : NumText) (hx : x.Ok) (ho : x.OneSign) (hd : ¬ x.Direct) (hh : x.Handy) (r : Mag) :
    parseFloat x.text = .num x.neg r ↔ Nearest f64 x.value r := by
  obtain ⟨r1, h1⟩ := value_round x
  obtain ⟨r2, h2⟩ : ∃ r, Nearest f64 x.cutValue r := (strconv_cut x hx ho).imp fun _ h => h.2.nearest
  have h3 := (C115_cut x hx ho hd r2).2 h2
  have h4 := h1.unique (handy_nearest hx hh h2)
  rw [h3, h1.iff, h4]
  simp [eq_comm]

/-- C115, the rest: several exponent signs with an exponent above 300 give zero. -/
theorem C115_signs (x : NumText) (hx : x.Ok) (ho : ¬ x.OneSign) (hd : ¬ x.Direct) : parseFloat x.text = .num false zeroMag := by
  obtain ⟨c, sg, ds, hex, hne⟩ : ∃ c sg ds, x.ex = some (c, sg, ds) ∧ ¬ (sg = [] ∨ sg = [43] ∨ sg = [45]) := by
    unfold NumText.OneSign at ho
    push Not at ho
    obtain ⟨c, sg, ds, h1, h2⟩ := ho
    exact ⟨c, sg, ds, h1, by tauto⟩
  rw [parseFloat_text x hx]
  unfold outcome
  unfold NumText.Direct at hd
  rw [hex] at hd ⊢
  simp only at hd ⊢
  have hw : wrap (natOf ds) = expInt ds := rfl
  rw [hw, if_pos (by omega)]
  have hns : ∃ b b' t, sg = b :: b' :: t := by
    obtain ⟨-, hs, -⟩ := hx.2.2 c sg ds hex
    cases sg with
    | nil => simp at hne
    | cons b t =>
      cases t with
      | nil => rcases hs b (by simp) with rfl | rfl <;> simp at hne
      | cons b' t => exact ⟨b, b', t, rfl⟩
  obtain ⟨b, b', t, rfl⟩ := hns
  unfold strconvParseFloat
  rw [readNumeral_signs x hx hex]
  rfl

/-! ## C40 -/

/-- C40, exactly: a numeral parses to NaN if and only if its exponent wraps around in such a way that zero is multiplied
with an infinite power of ten. -/
theorem C40_exact (x : NumText) (hx : x.Ok) (hl : x.text.length < 2 ^ 63) :
    parseFloat x.text = .nan ↔ ∃ c sg ds, x.ex = some (c, sg, ds) ∧ expInt ds ≤ 300 ∧
      if 45 ∈ sg then 308 < Int.bmod (-expInt ds) (2 ^ 64) ∧ 2 ^ 64 ∣ natOf x.ip ∧ (2 ^ 64 ∣ natOf x.frac ∨ 323 < x.lastDigits)
      else 308 < Int.bmod (expInt ds - x.lastDigits) (2 ^ 64) ∧ 2 ^ 64 ∣ natOf x.frac := by
  have hj := lens_of hl
  cases hex : x.ex with
  | none =>
    simp only [reduceCtorEq, false_and, exists_const, iff_false]
    exact C40_wellformed_partial x hx hl (by unfold NumText.expAbs; rw [hex]; norm_num)
  | some t =>
    obtain ⟨c, sg, ds⟩ := t
    have hn : (u64 x.ip).toNat = natOf x.ip % 2 ^ 64 := by unfold u64; rw [UInt64.toNat_ofNat']
    have hf : (u64 x.frac).toNat = natOf x.frac % 2 ^ 64 := by unfold u64; rw [UInt64.toNat_ofNat']
    rw [parseFloat_text x hx]
    unfold outcome
    rw [hex]
    simp only
    have hw : wrap (natOf ds) = expInt ds := rfl
    rw [hw, ← lastDigits_eq]
    simp only [Option.some.injEq, Prod.mk.injEq]
    have hsplit : ∀ P : Bytes → Bytes → Prop, (∃ c_1 sg_1 ds_1, (c = c_1 ∧ sg = sg_1 ∧ ds = ds_1) ∧ P sg_1 ds_1) ↔ P sg ds := by
      intro P
      constructor
      · rintro ⟨_, _, _, ⟨rfl, rfl, rfl⟩, h⟩; exact h
      · intro h; exact ⟨c, sg, ds, ⟨rfl, rfl, rfl⟩, h⟩
    rw [hsplit (fun sg ds => expInt ds ≤ 300 ∧
      if 45 ∈ sg then 308 < Int.bmod (-expInt ds) (2 ^ 64) ∧ 2 ^ 64 ∣ natOf x.ip ∧ (2 ^ 64 ∣ natOf x.frac ∨ 323 < x.lastDigits)
      else 308 < Int.bmod (expInt ds - x.lastDigits) (2 ^ 64) ∧ 2 ^ 64 ∣ natOf x.frac)]
    by_cases h300 : expInt ds > 300
    · rw [if_pos h300]
      constructor
      · intro h; exact absurd h (strconv_ne_nan _)
      · rintro ⟨h, -⟩; omega
    rw [if_neg h300, and_iff_right (by omega)]
    have hres : ∀ r : Option Mag, result x.neg r = .nan ↔ r = none := by intro r; cases r <;> simp [result]
    rw [hres]
    unfold scientificMag
    by_cases hs : 45 ∈ sg
    · simp only [hs, decide_true, if_true]
      obtain ⟨m, e, h1, h2⟩ := decimalMag_zero (u64 x.ip) (u64 x.frac) hj
      rw [h1]
      simp only
      rw [hn, hf] at h2
      rw [Nat.dvd_iff_mod_eq_zero, Nat.dvd_iff_mod_eq_zero, ← h2]
      have hwr : wrap (-expInt ds) = Int.bmod (-expInt ds) (2 ^ 64) := rfl
      rw [hwr]
      generalize Int.bmod (-expInt ds) (2 ^ 64) = w
      by_cases hb : 308 < w
      · rw [pow10_inf hb]
        simp only [mul, hb, true_and]
        by_cases hm : m = 0 <;> simp [hm]
      · obtain ⟨p, ep, h3⟩ := pow10_fin (k := w) (by omega)
        rw [h3]
        simp [mul, hb]
    · simp only [hs, decide_false, Bool.false_eq_true, if_false]
      obtain ⟨a, ea, h1, h1'⟩ := flt_isFloat (u64 x.ip)
      obtain ⟨b, eb, h2, h2'⟩ := flt_isFloat (u64 x.frac)
      have zb := flt_zero_iff _ h2
      rw [hf] at zb
      obtain ⟨p, ep, h3⟩ := pow10_fin (k := expInt ds) (by omega)
      have hwr : wrap (expInt ds - x.lastDigits) = Int.bmod (expInt ds - x.lastDigits) (2 ^ 64) := rfl
      rw [h1, h2, h3, hwr, Nat.dvd_iff_mod_eq_zero, ← zb]
      generalize Int.bmod (expInt ds - x.lastDigits) (2 ^ 64) = w
      by_cases hb : 308 < w
      · rw [pow10_inf hb]
        simp only [mul, hb, true_and]
        by_cases hm : b = 0 <;> simp [hm]
      · obtain ⟨p', ep', h4⟩ := pow10_fin (k := w) (by omega)
        rw [h4]
        simp [mul, hb]

/-! ## C45: the choice of format -/

theorem toF32_nearest (m : Nat) (e : Int) (r : Mag) : Nearest f32 (val m e) r ↔ r = toF32 (.fin m e) := by
  have hv : val m e = ((m * (pow2 e).1 : ℕ) : ℚ) / ((pow2 e).2 : ℕ) := by
    unfold val; rw [← pow2_val]; push_cast; ring
  rw [hv]
  constructor
  · exact fun h => nearest_unique f32 f32_ok _ (pow2_pos e).2 h
  · rintro rfl; exact round_nearest f32 f32_ok _ (pow2_pos e).2

/-- C45, the choice of format with bit size 32: the float64 is rounded to a float32 first; exponents are used below the
float32 nearest to 1e-6 and from the float32 nearest to 1e21 on, never for zero. -/
theorem C45_format32 : ∃ m₆ e₆ m₂₁ e₂₁, Nearest f32 (1 / 10 ^ 6) (.fin m₆ e₆) ∧ Nearest f32 (10 ^ 21) (.fin m₂₁ e₂₁) ∧
    ∀ neg m e r, Nearest f32 (val m e) r →
      (fmtByte (.num neg (.fin m e)) 32 = 101 ↔
        val m e ≠ 0 ∧ (r = .inf ∨ ∃ m' e', r = .fin m' e' ∧ (val m' e' < val m₆ e₆ ∨ val m₂₁ e₂₁ ≤ val m' e'))) ∧
      (fmtByte (.num neg (.fin m e)) 32 = 101 ∨ fmtByte (.num neg (.fin m e)) 32 = 102) := by
  obtain ⟨m₆, e₆, h6⟩ : ∃ m e, round f32 1 (10 ^ 6) = .fin m e := ⟨8796093, -43, by decide +kernel⟩
  obtain ⟨m₂₁, e₂₁, h21⟩ : ∃ m e, round f32 (10 ^ 21) 1 = .fin m e := ⟨14210855, 46, by decide +kernel⟩
  refine ⟨m₆, e₆, m₂₁, e₂₁, ?_, ?_, fun neg m e r hr => ⟨?_, ?_⟩⟩
  · have := round_nearest f32 f32_ok 1 (d := 10 ^ 6) (by norm_num)
    rw [h6] at this
    norm_num at this ⊢
    exact this
  · have := round_nearest f32 f32_ok (10 ^ 21) (d := 1) (by norm_num)
    rw [h21] at this
    norm_num at this ⊢
    exact this
  · rw [toF32_nearest] at hr
    have hz : isZeroMag (.fin m e) = false ↔ val m e ≠ 0 := by
      unfold isZeroMag val
      have := two_zpow_pos e
      simp [this.ne']
    unfold fmtByte
    simp only [h6, h21]
    rw [← hz, ← hr]
    cases r with
    | inf => cases isZeroMag (.fin m e) <;> simp [ltMag]
    | fin m' e' =>
      have hlt : ltMag (.fin m' e') (.fin m₂₁ e₂₁) = false ↔ val m₂₁ e₂₁ ≤ val m' e' := by
        rw [← not_lt, ← ltMag_iff, Bool.not_eq_true]
      have hor : ((Mag.fin m' e' = .inf) ∨ ∃ m'' e'', Mag.fin m' e' = .fin m'' e'' ∧ (val m'' e'' < val m₆ e₆ ∨ val m₂₁ e₂₁ ≤ val m'' e'')) ↔
          (val m' e' < val m₆ e₆ ∨ val m₂₁ e₂₁ ≤ val m' e') := by
        constructor
        · rintro (h | ⟨_, _, h, h'⟩)
          · cases h
          · cases h; exact h'
        · exact fun h => Or.inr ⟨_, _, rfl, h⟩
      rw [hor, ← hlt, ← ltMag_iff]
      cases isZeroMag (.fin m e) <;> cases ltMag (.fin m' e') (.fin m₆ e₆) <;>
        cases ltMag (.fin m' e') (.fin m₂₁ e₂₁) <;> simp
  · unfold fmtByte
    simp only
    split <;> simp

/-- C45: NaN is formatted without an exponent, and so is every float for another bit size. -/
theorem C45_other (f : Flt) (bits : Nat) (h : f = .nan ∨ (bits ≠ 32 ∧ bits ≠ 64)) : fmtByte f bits = 102 := by
  unfold fmtByte
  cases f with
  | nan => rfl
  | num neg x =>
    rcases h with h | ⟨h1, h2⟩
    · cases h
    · simp [h1, h2]

/-! ## C62 -/

/-- C62: a negative infinity is written as `-Inf`, which is no JSON number either; Parse accepts this text as a number, and
ToFloat of it fails. -/
theorem C62_minus_inf (text : UInt8 → Bytes) (ht : text 101 = b!"-Inf") :
    formatFloat (.num true .inf) 64 text = b!"-Inf" ∧
    Njson.Node.appendJSON (fun _ => (Njson.Doc.empty.number b!"-Inf").1) 1 ⟨0, 0, some 0⟩ [] = some (b!"-Inf", false) ∧
    ¬ RfcNumber b!"-Inf" ∧ (∃ id, (Njson.Doc.empty.parse b!"-Inf").2 = .ok id []) ∧ parseFloat b!"-Inf" = .nan := by
  have h1 : fmtByte (.num true .inf) 64 = 101 := by decide +kernel
  refine ⟨?_, by decide +kernel, ?_, ⟨0, by decide +kernel⟩, by decide +kernel⟩
  · unfold formatFloat
    rw [C45_plain _ _ _ _ (Or.inr (Or.inr ht)), h1, ht]; rfl
  · intro h
    obtain ⟨x, hx, -, hs⟩ := rfcNumber_text h
    have : parseFloat b!"-Inf" ≠ .nan := by
      rw [hs]
      refine C40_wellformed_partial x hx (by rw [← hs]; decide) ?_
      -- the exponent has at most four digits
      unfold NumText.expAbs
      cases hex : x.ex with
      | none => norm_num
      | some t =>
        obtain ⟨c, sg, ds⟩ := t
        simp only
        have hd := (hx.2.2 c sg ds hex).2.2
        have hl : ds.length ≤ 4 := by
          have := congrArg List.length hs
          rw [show List.length b!"-Inf" = 4 from rfl] at this
          unfold NumText.text expText at this
          rw [hex] at this
          simp only [List.length_append, List.length_cons] at this
          omega
        have h3 := natOf_lt64 hd (by omega)
        have h5 := natOf_lt (allDig_of hd)
        have h6 : 10 ^ ds.length ≤ 10 ^ 4 := Nat.pow_le_pow_right (by norm_num) hl
        have h7 : (10 : ℕ) ^ 4 < 2 ^ 63 := by norm_num
        omega
    exact this (by decide +kernel)

example : (⟨false, b!"0", none, some (101, b!"-", b!"18446744073709551300")⟩ : NumText).text = b!"0e-18446744073709551300" ∧
    expInt b!"18446744073709551300" = -316 := by decide +kernel

-- 1.25 is computed as 1 + 25 * 10^-2
example : (⟨false, b!"1", some b!"25", none⟩ : NumText).Direct := by unfold NumText.Direct NumText.lastDigits; decide
example : parseFloat b!"1.25" = signed false (some (.fin 5629499534213120 (-52))) := by decide +kernel
-- an exponent of 301 is left to strconv
example : ¬ (⟨false, b!"1", none, some (101, [], b!"301")⟩ : NumText).Direct := by unfold NumText.Direct; decide +kernel
-- several signs: accepted with a small exponent, zero with a large one
example : parseFloat b!"1e--301" = .num false zeroMag ∧ parseFloat b!"1e--2" = parseFloat b!"1e-2" := by decide +kernel

end Verif.Props
