import Verif.Proofs.NumErr
import Verif.Spec.FloatSteps

/-! # The arithmetic of ParseFloat, step by step -/

namespace Verif.NumJson
open Verif Verif.Float Verif.Spec

theorem RoundOf.iff {x : ℚ} {r : Mag} (h : RoundOf x r) (r' : Mag) : Nearest f64 x r' ↔ r' = r :=
  ⟨fun h' => h.unique h', by rintro rfl; exact h.nearest⟩

theorem plus_iff (a b : Option Mag) (r : Option Mag) : Plus a b r ↔
    r = (match a, b with | some a, some b => some (add f64 a b) | _, _ => none) := by
  constructor
  · intro h
    cases h with
    | fin h => simp only; rw [add_round.unique h]
    | infL => rename_i b; cases b <;> rfl
    | infR => rename_i a; cases a <;> rfl
    | nanL => cases b <;> rfl
    | nanR => cases a <;> rfl
  · rintro rfl
    cases a with
    | none => exact .nanL
    | some a =>
      cases b with
      | none => exact .nanR
      | some b =>
        cases a with
        | inf => exact .infL
        | fin m e =>
          cases b with
          | inf => exact .infR
          | fin m' e' => exact .fin add_round.nearest

theorem times_iff (a : Option Mag) (b : Mag) (r : Option Mag) : Times a b r ↔
    r = (match a with | some a => mul f64 a b | none => none) := by
  constructor
  · intro h
    cases h with
    | fin h =>
      rename_i m e m' e' r
      obtain ⟨r', h1, h2⟩ := mul_round (m := m) (e := e) (m' := m') (e' := e')
      simp only [h1]; rw [h2.unique h]
    | zeroInf => rfl
    | finInf h => simp [mul, h]
    | infZero => rfl
    | infFin h => simp [mul, h]
    | infInf => rfl
    | nan => rfl
  · rintro rfl
    cases a with
    | none => exact .nan
    | some a =>
      simp only
      cases a with
      | inf =>
        cases b with
        | inf => exact .infInf
        | fin m e =>
          by_cases h : m = 0
          · subst h; exact .infZero
          · simp only [mul, h, if_false]; exact .infFin h
      | fin m e =>
        cases b with
        | inf =>
          by_cases h : m = 0
          · subst h; exact .zeroInf
          · simp only [mul, h, if_false]; exact .finInf h
        | fin m' e' =>
          obtain ⟨r', h1, h2⟩ := mul_round (m := m) (e := e) (m' := m') (e' := e')
          rw [h1]; exact .fin h2.nearest

theorem tab_round (k : Nat) : RoundOf (10 ^ k) (tab k) := ⟨10 ^ k, 1, by omega, by push_cast; simp, rfl⟩
theorem tabNeg_round (k : Nat) : RoundOf (1 / 10 ^ k) (tabNeg k) := ⟨1, 10 ^ k, by positivity, by push_cast; simp, rfl⟩

theorem div_round {m e m' e'} (h : m' ≠ 0) : RoundOf (val m e / val m' e') (div f64 (.fin m e) (.fin m' e')) := by
  refine ⟨_, _, ?_, ?_, rfl⟩
  · exact Nat.mul_pos (by omega) (pow2_pos (e - e')).2
  · unfold val
    have h2 : ((pow2 (e - e')).2 : ℚ) ≠ 0 := by exact_mod_cast (pow2_pos (e - e')).2.ne'
    have hm : (m' : ℚ) ≠ 0 := by exact_mod_cast h
    have := pow2_val (e - e')
    rw [zpow_sub₀ (by norm_num)] at this
    push_cast
    rw [mul_div_mul_comm, mul_div_mul_comm, this]

theorem tab_fin (k : Nat) (h : k ≤ 288) : ∃ m e, tab k = .fin m e ∧ m ≠ 0 := by
  have key : ∀ k ∈ List.range 289, (match tab k with | .fin m _ => decide (m ≠ 0) | .inf => false) = true := by decide +kernel
  have := key k (List.mem_range.2 (by omega))
  cases hq : tab k with
  | fin m e => rw [hq] at this; exact ⟨m, e, rfl, by simpa using this⟩
  | inf => rw [hq] at this; simp at this

theorem tabNeg_fin (k : Nat) (h : k ≤ 320) : ∃ m e, tabNeg k = .fin m e := by
  have key : ∀ k ∈ List.range 321, (match tabNeg k with | .fin _ _ => true | .inf => false) = true := by decide +kernel
  have := key k (List.mem_range.2 (by omega))
  cases hq : tabNeg k with
  | fin m e => exact ⟨m, e, rfl⟩
  | inf => rw [hq] at this; simp at this

theorem powTen_iff (n : ℤ) (r : Mag) : PowTen n r ↔ r = pow10 n := by
  have pos : ∀ n : ℕ, n ≤ 308 → ∃ m e m' e', tab (32 * (n / 32)) = .fin m e ∧ tab (n % 32) = .fin m' e' ∧
      RoundOf (val m e * val m' e') (pow10 n) := by
    intro n hn
    obtain ⟨m, e, h1, -⟩ := tab_fin (32 * (n / 32)) (by omega)
    obtain ⟨m', e', h2, -⟩ := tab_fin (n % 32) (by omega)
    refine ⟨m, e, m', e', h1, h2, ?_⟩
    obtain ⟨r', h3, h4⟩ := mul_round (m := m) (e := e) (m' := m') (e' := e')
    unfold pow10
    rw [if_pos (by omega), Int.toNat_natCast, h1, h2, h3]
    exact h4
  have neg : ∀ n : ℕ, 1 ≤ n → n ≤ 323 → ∃ m e m' e', tabNeg (32 * (n / 32)) = .fin m e ∧ tab (n % 32) = .fin m' e' ∧
      RoundOf (val m e / val m' e') (pow10 (-n)) := by
    intro n hn hn'
    obtain ⟨m, e, h1⟩ := tabNeg_fin (32 * (n / 32)) (by omega)
    obtain ⟨m', e', h2, h0⟩ := tab_fin (n % 32) (by omega)
    refine ⟨m, e, m', e', h1, h2, ?_⟩
    unfold pow10
    rw [if_neg (by omega), if_pos (by omega), neg_neg, Int.toNat_natCast, h1, h2]
    exact div_round h0
  constructor
  · intro h
    cases h with
    | pos hn h1 h2 h3 =>
      rename_i n m e m' e'
      obtain ⟨_, _, _, _, g1, g2, g3⟩ := pos n hn
      have k1 := (tab_round _).unique h1
      have k2 := (tab_round _).unique h2
      rw [g1] at k1; rw [g2] at k2
      cases k1; cases k2
      exact g3.unique h3
    | neg hn hn' h1 h2 h3 =>
      rename_i n m e m' e'
      obtain ⟨_, _, _, _, g1, g2, g3⟩ := neg n hn hn'
      have k1 := (tabNeg_round _).unique h1
      have k2 := (tab_round _).unique h2
      rw [g1] at k1; rw [g2] at k2
      cases k1; cases k2
      exact g3.unique h3
    | large h => unfold pow10; rw [if_neg (by omega), if_neg (by omega), if_pos (by omega)]
    | small h => unfold pow10; rw [if_neg (by omega), if_neg (by omega), if_neg (by omega)]; rfl
  · rintro rfl
    by_cases h1 : 308 < n
    · have := PowTen.large h1
      unfold pow10; rw [if_neg (by omega), if_neg (by omega), if_pos (by omega)]; exact this
    by_cases h2 : n < -323
    · have := PowTen.small h2
      unfold pow10; rw [if_neg (by omega), if_neg (by omega), if_neg (by omega)]; exact this
    by_cases h3 : 0 ≤ n
    · obtain ⟨k, rfl⟩ : ∃ k : ℕ, n = k := ⟨n.toNat, by omega⟩
      obtain ⟨_, _, _, _, g1, g2, g3⟩ := pos k (by omega)
      exact .pos (by omega) (g1 ▸ (tab_round _).nearest) (g2 ▸ (tab_round _).nearest) g3.nearest
    · obtain ⟨k, rfl⟩ : ∃ k : ℕ, n = -k := ⟨(-n).toNat, by omega⟩
      obtain ⟨_, _, _, _, g1, g2, g3⟩ := neg k (by omega) (by omega)
      exact .neg (by omega) (by omega) (g1 ▸ (tabNeg_round _).nearest) (g2 ▸ (tab_round _).nearest) g3.nearest

theorem nat_iff (n : Nat) (r : Mag) : Nearest f64 (n : ℚ) r ↔ r = ofNat f64 n := (ofNat_round n).iff r

theorem flt_u64_mod (ds : Bytes) : flt (u64 ds) = ofNat f64 (natOf ds % 2 ^ 64) := by
  unfold flt u64
  rw [UInt64.toNat_ofNat']

theorem lastDigits_eq (x : NumText) : x.lastDigits = NumText.count x := rfl

theorem signed_inj {neg : Bool} {a b : Option Mag} : signed neg a = signed neg b ↔ a = b := by
  cases a <;> cases b <;> simp [signed]

theorem result_signed (neg : Bool) (r : Option Mag) : result neg r = signed neg r := by cases r <;> rfl

theorem decimal_iff {a b : Mag} {num dec : UInt64} {j : Nat} (hj : j < 2 ^ 63) (ha : a = flt num) (hb : b = flt dec) (r : Option Mag) :
    (∃ p q, PowTen (-j) p ∧ Times (some b) p q ∧ Plus (some a) q r) ↔ r = decimalMag num dec j := by
  subst ha hb
  unfold decimalMag
  rw [wrap_small (by omega) (by omega)]
  constructor
  · rintro ⟨p, q, h1, h2, h3⟩
    rw [powTen_iff] at h1; subst h1
    rw [times_iff] at h2; subst h2
    rw [plus_iff] at h3; subst h3
    simp only
    cases mul f64 (flt dec) (pow10 (-(j : Int))) <;> rfl
  · rintro rfl
    refine ⟨_, _, (powTen_iff _ _).2 rfl, (times_iff _ _ _).2 rfl, (plus_iff _ _ _).2 ?_⟩
    simp only
    cases mul f64 (flt dec) (pow10 (-(j : Int))) <;> rfl

theorem pow10_fin {k : Int} (hk : k ≤ 308) : ∃ m e, pow10 k = .fin m e := by
  by_cases h : -307 ≤ k
  · obtain ⟨m, e, h3, -, -⟩ := pow10_rel h hk; exact ⟨m, e, h3⟩
  · unfold pow10
    rw [if_neg (by omega)]
    by_cases h2 : -323 ≤ k ∧ k ≤ 0
    · rw [if_pos h2]
      have key : ∀ i ∈ List.range 17, (match div f64 (tabNeg (32 * ((-((i : Int) - 323)).toNat / 32))) (tab ((-((i : Int) - 323)).toNat % 32)) with | .fin _ _ => true | .inf => false) = true := by decide +kernel
      have := key (k + 323).toNat (List.mem_range.2 (by omega))
      rw [show (((k + 323).toNat : Nat) : Int) - 323 = k by omega] at this
      cases hq : div f64 (tabNeg (32 * ((-k).toNat / 32))) (tab ((-k).toNat % 32)) with
      | fin m e => exact ⟨m, e, rfl⟩
      | inf => rw [hq] at this; simp at this
    · rw [if_neg h2, if_neg (by omega)]; exact ⟨_, _, rfl⟩

theorem pow10_inf {k : Int} (hk : 308 < k) : pow10 k = .inf := by
  unfold pow10; rw [if_neg (by omega), if_neg (by omega), if_pos (by omega)]

theorem pow10_zero {k : Int} (hk : k < -323) : pow10 k = zeroMag := by
  unfold pow10; rw [if_neg (by omega), if_neg (by omega), if_neg (by omega)]; rfl

/-- powers that are not zero are at least the least float -/
theorem pow10_ge {k : Int} (h1 : -323 ≤ k) (h2 : k ≤ 308) : ∃ m e, pow10 k = .fin m e ∧ val 1 (-1074) ≤ val m e := by
  have key : ∀ i ∈ List.range 632, (match pow10 ((i : Int) - 323) with
      | .fin m e => decide ((pow2 (-1074)).1 * (pow2 e).2 ≤ m * (pow2 e).1 * (pow2 (-1074)).2) | .inf => false) = true := by decide +kernel
  have := key (k + 323).toNat (List.mem_range.2 (by omega))
  rw [show (((k + 323).toNat : Nat) : Int) - 323 = k by omega] at this
  cases hq : pow10 k with
  | inf => rw [hq] at this; simp at this
  | fin m e =>
    rw [hq] at this
    simp only [decide_eq_true_eq] at this
    refine ⟨m, e, rfl, ?_⟩
    unfold val
    rw [← pow2_val, ← pow2_val]
    have w1 : (0 : ℚ) < (pow2 (-1074)).2 := by exact_mod_cast (pow2_pos _).2
    have w2 : (0 : ℚ) < (pow2 e).2 := by exact_mod_cast (pow2_pos _).2
    rw [Nat.cast_one, one_mul, ← mul_div_assoc, div_le_div_iff₀ w1 w2]
    exact_mod_cast this

theorem flt_isFloat (v : UInt64) : ∃ m e, flt v = .fin m e ∧ IsFloat f64 m e := by
  obtain ⟨m, e, h, -⟩ := flt_rel (n := v.toNat) v.toNat_lt
  refine ⟨m, e, h, ?_⟩
  have := (ofNat_round v.toNat).nearest
  rw [h] at this
  exact this.1

/-- a number of at least the least float is not rounded to zero -/
theorem round_ne_zero {x : ℚ} {m e} (h : RoundOf x (.fin m e)) (hx : val 1 (-1074) ≤ x) : m ≠ 0 := by
  rintro rfl
  have hn := h.nearest.2.2 1 (-1074) ⟨by decide, by decide, by decide, Or.inr rfl⟩
  have hp : (0 : ℚ) < val 1 (-1074) := by unfold val; positivity
  have h0 : val 0 e = 0 := by simp [val]
  rw [h0, zero_sub, abs_neg, abs_of_pos (lt_of_lt_of_le hp hx), abs_of_nonpos (by linarith)] at hn
  linarith [hn.1]

theorem round_zero {x : ℚ} {r : Mag} (h : RoundOf x r) (hx : x = 0) : r = zeroMag :=
  h.exact ⟨by decide, by decide, by decide, Or.inr rfl⟩ (by rw [hx]; simp [val])

theorem one_le_of_ne {m e} (h : IsFloat f64 m e) (h0 : m ≠ 0) : val 1 (-1074) ≤ val m e := by
  unfold val
  have h1 : (1 : ℚ) ≤ m := by exact_mod_cast Nat.one_le_iff_ne_zero.2 h0
  have h2 : (2 : ℚ) ^ (-1074 : ℤ) ≤ 2 ^ e := zpow_le_zpow_right₀ (by norm_num) h.2.1
  have h3 : (0 : ℚ) < 2 ^ (-1074 : ℤ) := by positivity
  rw [Nat.cast_one, one_mul]
  nlinarith

/-- a non-zero natural number is not rounded to zero -/
theorem flt_zero_iff (v : UInt64) {m e} (h : flt v = .fin m e) : m = 0 ↔ v.toNat = 0 := by
  constructor
  · intro hm
    by_contra hv
    have hr := ofNat_round v.toNat
    have hle : val 1 (-1074) ≤ (v.toNat : ℚ) := by
      have h1 : (1 : ℚ) ≤ v.toNat := by exact_mod_cast Nat.one_le_iff_ne_zero.2 hv
      have : val 1 (-1074) ≤ 1 := by
        unfold val; rw [Nat.cast_one, one_mul]; exact zpow_le_one_of_nonpos₀ (by norm_num) (by norm_num)
      linarith
    unfold flt at h
    rw [h] at hr
    exact round_ne_zero hr hle hm
  · intro hv
    unfold flt at h
    rw [hv] at h
    cases h; rfl

/-- when the sum of integer part and fraction is zero -/
theorem decimalMag_zero (num dec : UInt64) {j : Nat} (hj : j < 2 ^ 63) :
    ∃ m e, decimalMag num dec j = some (.fin m e) ∧ (m = 0 ↔ num.toNat = 0 ∧ (dec.toNat = 0 ∨ 323 < j)) := by
  obtain ⟨a, ea, h1, h1'⟩ := flt_isFloat num
  obtain ⟨b, eb, h2, h2'⟩ := flt_isFloat dec
  have za := flt_zero_iff num h1
  have zb := flt_zero_iff dec h2
  obtain ⟨p, ep, h3⟩ := pow10_fin (k := -(j : Int)) (by omega)
  obtain ⟨r, h4, h5⟩ := mul_round (m := b) (e := eb) (m' := p) (e' := ep)
  have hsmall : val p ep ≤ 1 := by
    by_cases hj' : 323 < j
    · rw [pow10_zero (by omega)] at h3
      cases h3
      simp [val]
    · by_cases hj0 : 307 < j
      · have key : ∀ i ∈ List.range 17, (match pow10 ((i : Int) - 323) with
            | .fin m e => decide (m * (pow2 e).1 ≤ (pow2 e).2) | .inf => false) = true := by decide +kernel
        have := key (323 - j) (List.mem_range.2 (by omega))
        rw [show (((323 - j : Nat) : Int)) - 323 = -(j : Int) by omega, h3] at this
        simp only [decide_eq_true_eq] at this
        unfold val
        rw [← pow2_val, ← mul_div_assoc, div_le_one (by exact_mod_cast (pow2_pos _).2)]
        exact_mod_cast this
      · have key : ∀ i ∈ List.range 308, (match pow10 (-(i : Int)) with
            | .fin m e => decide (m * (pow2 e).1 ≤ (pow2 e).2) | .inf => false) = true := by decide +kernel
        have := key j (List.mem_range.2 (by omega))
        rw [h3] at this
        simp only [decide_eq_true_eq] at this
        unfold val
        rw [← pow2_val, ← mul_div_assoc, div_le_one (by exact_mod_cast (pow2_pos _).2)]
        exact_mod_cast this
  have nn : ∀ m e, 0 ≤ val m e := fun m e => by unfold val; positivity
  have big : ∀ {v : UInt64} {m e}, flt v = .fin m e → val m e ≤ 2 ^ 64 := by
    intro v m e h
    have hr := (ofNat_round v.toNat).nearest
    unfold flt at h
    rw [h] at hr
    have h64 : IsFloat f64 (2 ^ 52) 12 := ⟨by decide, by decide, by decide, Or.inl (by decide)⟩
    have hv64 : val (2 ^ 52) 12 = 2 ^ 64 := by unfold val; norm_num
    have hlt : (v.toNat : ℚ) ≤ 2 ^ 64 := by exact_mod_cast v.toNat_lt.le
    have h6 := (hr.2.2 _ _ h64).1
    rw [hv64] at h6
    by_contra hc
    push Not at hc
    rw [abs_of_nonneg (by linarith), abs_of_nonneg (by linarith)] at h6
    linarith
  have ovf' : ∀ {x : ℚ} {r : Mag}, RoundOf x r → x ≤ 2 ^ 66 → ∃ m e, r = .fin m e := by
    intro x r h hx
    cases r with
    | fin m e => exact ⟨m, e, rfl⟩
    | inf =>
      have := h.nearest
      unfold Nearest overflow at this
      have h7 : (2 : ℚ) ^ 66 < (2 ^ f64.p - 1 / 2) * 2 ^ f64.emax := by
        have e1 : (2 : ℚ) ^ (66 : ℤ) ≤ 2 ^ f64.emax := zpow_le_zpow_right₀ (by norm_num) (by decide)
        rw [show (66 : ℤ) = ((66 : ℕ) : ℤ) from rfl, zpow_natCast] at e1
        have e3 : (2 : ℚ) ≤ 2 ^ f64.p - 1 / 2 := by simp only [f64]; norm_num
        have e4 : (0 : ℚ) < 2 ^ (66 : ℕ) := by positivity
        generalize (2 : ℚ) ^ f64.emax = A at *
        generalize (2 : ℚ) ^ f64.p - 1 / 2 = B at *
        generalize (2 : ℚ) ^ (66 : ℕ) = C at *
        nlinarith
      linarith
  have hbp : val b eb * val p ep ≤ 2 ^ 64 := by
    have := big h2
    have := nn b eb
    have := nn p ep
    nlinarith
  obtain ⟨q, eq, rfl⟩ := ovf' h5 (by linarith [show (2 : ℚ) ^ 64 ≤ 2 ^ 66 by norm_num])
  have hq64 : val q eq ≤ 2 ^ 64 := by
    have h64 : IsFloat f64 (2 ^ 52) 12 := ⟨by decide, by decide, by decide, Or.inl (by decide)⟩
    have hv64 : val (2 ^ 52) 12 = 2 ^ 64 := by unfold val; norm_num
    have h6 := (h5.nearest.2.2 _ _ h64).1
    rw [hv64] at h6
    by_contra hc
    push Not at hc
    rw [abs_of_nonneg (by linarith), abs_of_nonneg (by linarith)] at h6
    linarith
  have h6 := add_round (m := a) (e := ea) (m' := q) (e' := eq)
  obtain ⟨s, es, h7⟩ := ovf' h6 (by have := big h1; linarith [show (2 : ℚ) ^ 64 + 2 ^ 64 ≤ 2 ^ 66 by norm_num])
  refine ⟨s, es, ?_, ?_⟩
  · unfold decimalMag
    rw [wrap_small (by omega) (by omega), h1, h2, h3, h4]
    simp only
    rw [h7]
  · rw [h7] at h6
    have hqz : q = 0 ↔ dec.toNat = 0 ∨ 323 < j := by
      constructor
      · intro hq
        by_contra hc
        push Not at hc
        obtain ⟨_, _, k1, k2⟩ := pow10_ge (k := -(j : Int)) (by omega) (by omega)
        rw [h3] at k1
        cases k1
        refine round_ne_zero h5 ?_ hq
        have hb0 : b ≠ 0 := fun h => hc.1 (zb.1 h)
        have hb1 : (1 : ℚ) ≤ val b eb := by
          have hr := (ofNat_round dec.toNat).nearest
          have h2u := h2
          unfold flt at h2u
          rw [h2u] at hr
          have h1f : IsFloat f64 (2 ^ 52) (-52) := ⟨by decide, by decide, by decide, Or.inl (by decide)⟩
          have hv1 : val (2 ^ 52) (-52) = 1 := by unfold val; norm_num
          have h8 := (hr.2.2 _ _ h1f).1
          rw [hv1] at h8
          have hge : (1 : ℚ) ≤ dec.toNat := by exact_mod_cast Nat.one_le_iff_ne_zero.2 hc.1
          by_contra hlt
          push Not at hlt
          rw [abs_of_nonpos (by linarith), abs_of_nonpos (by linarith)] at h8
          linarith
        have := nn p ep
        nlinarith
      · intro h
        have hz : val b eb * val p ep = 0 := by
          rcases h with h | h
          · rw [zb.2 h]; simp [val]
          · rw [pow10_zero (by omega)] at h3
            cases h3
            simp [val]
        have := round_zero h5 hz
        cases this; rfl
    rw [← za, ← hqz]
    constructor
    · intro hs
      constructor
      · by_contra hc
        exact round_ne_zero h6 (by have := one_le_of_ne h1' hc; have := nn q eq; linarith) hs
      · by_contra hc
        exact round_ne_zero h6 (by have := one_le_of_ne h5.nearest.1 hc; have := nn a ea; linarith) hs
    · rintro ⟨rfl, rfl⟩
      have := round_zero h6 (by simp [val])
      cases this; rfl

theorem readNumeral_signs (x : NumText) (hx : x.Ok) {c : UInt8} {b b' : UInt8} {sg ds : Bytes} (hex : x.ex = some (c, b :: b' :: sg, ds)) :
    readNumeral x.text = none := by
  obtain ⟨neg, ip, fp, ex⟩ := x
  obtain ⟨h1, h2, h3⟩ := hx
  simp only at h1 h2 h3 hex
  subst hex
  have hip := allDig_of h1
  obtain ⟨hc, hsg, hd⟩ := h3 _ _ _ rfl
  have hrest : NoDig (fracText fp ++ expText (some (c, b :: b' :: sg, ds))) := by
    cases fp with
    | some f => exact noDig_cons (Or.inl rfl)
    | none => exact noDig_cons (Or.inr hc)
  have hexp : NoDig (expText (some (c, b :: b' :: sg, ds))) := noDig_cons (Or.inr hc)
  have hs := sign_split (neg := neg) (rest := fracText fp ++ expText (some (c, b :: b' :: sg, ds))) h1
  unfold readNumeral NumText.text
  simp only [hs]
  rw [spanDig_append hip hrest]
  simp only
  rw [if_neg h1.1]
  have hf : splitFrac (fracText fp ++ expText (some (c, b :: b' :: sg, ds))) = (fp.getD [], expText (some (c, b :: b' :: sg, ds))) := by
    cases fp with
    | some f =>
      simp only [fracText, List.cons_append]
      exact spanDig_append (allDig_of (h2 f rfl)) hexp
    | none => rcases hc with rfl | rfl <;> rfl
  rw [hf]
  simp only [expText]
  rw [if_pos hc]
  have h4 : splitExpSign ((b :: b' :: sg) ++ ds) = (decide (b = 45), b' :: (sg ++ ds)) := by
    rcases hsg b (by simp) with rfl | rfl <;> rfl
  have h5 : spanDig (b' :: (sg ++ ds)) = ([], b' :: (sg ++ ds)) := by
    rcases hsg b' (by simp) with rfl | rfl <;> rfl
  rw [h4]
  simp only
  rw [h5]
  simp

end Verif.NumJson
