import Verif.Proofs.NumJson
import Mathlib.Tactic.Linarith
import Mathlib.Tactic.NormNum

/-! # Rounding errors of the float operations in numjson -/

namespace Verif.NumJson
open Verif Verif.Float Verif.Spec

theorem f64_ok : f64.Ok := by unfold Fmt.Ok f64; decide
theorem f32_ok : f32.Ok := by unfold Fmt.Ok f32; decide

/-- `r` is the rounding of the number `x` -/
def RoundOf (x : ℚ) (r : Mag) : Prop := ∃ n d : ℕ, 0 < d ∧ x = n / d ∧ r = round f64 n d

theorem RoundOf.nearest {x : ℚ} {r : Mag} (h : RoundOf x r) : Nearest f64 x r := by
  obtain ⟨n, d, hd, rfl, rfl⟩ := h
  exact round_nearest f64 f64_ok n hd

theorem RoundOf.exact {x : ℚ} {r : Mag} {m : Nat} {e : Int} (h : RoundOf x r) (hf : IsFloat f64 m e) (hv : val m e = x) : r = .fin m e := by
  obtain ⟨n, d, hd, rfl, rfl⟩ := h
  exact round_exact f64 f64_ok hd hf hv

theorem RoundOf.unique {x : ℚ} {r r' : Mag} (h : RoundOf x r) (h' : Nearest f64 x r') : r' = r := by
  obtain ⟨n, d, hd, rfl, rfl⟩ := h
  exact nearest_unique f64 f64_ok n hd h'

theorem ofNat_round (n : Nat) : RoundOf n (ofNat f64 n) := ⟨n, 1, by omega, by simp, rfl⟩

theorem add_round {m e m' e'} : RoundOf (val m e + val m' e') (add f64 (.fin m e) (.fin m' e')) := by
  refine ⟨_, _, ?_, ?_, rfl⟩
  · exact Nat.mul_pos (pow2_pos e).2 (pow2_pos e').2
  · have h1 : ((pow2 e).2 : ℚ) ≠ 0 := by exact_mod_cast (pow2_pos e).2.ne'
    have h2 : ((pow2 e').2 : ℚ) ≠ 0 := by exact_mod_cast (pow2_pos e').2.ne'
    unfold val
    rw [← pow2_val, ← pow2_val]
    push_cast; field_simp

theorem mul_round {m e m' e'} : ∃ r, mul f64 (.fin m e) (.fin m' e') = some r ∧ RoundOf (val m e * val m' e') r := by
  refine ⟨_, rfl, _, _, (pow2_pos (e + e')).2, ?_, rfl⟩
  unfold val
  have := pow2_val (e + e')
  rw [zpow_add₀ (by norm_num)] at this
  push_cast
  rw [mul_div_assoc, this]; ring

/-! ## Relative errors -/

def u : ℚ := 1 / 2 ^ 53

/-- `y` is `x` after `k` roundings -/
def Rel (k : Nat) (x y : ℚ) : Prop := x * (1 - u) ^ k ≤ y ∧ y ≤ x * (1 + u) ^ k

theorem u_pos : 0 < u := by unfold u; positivity
theorem u_lt : u < 1 := by unfold u; norm_num

theorem Rel.refl (x : ℚ) : Rel 0 x x := by constructor <;> simp

theorem Rel.mono {k l : Nat} {x y : ℚ} (hx : 0 ≤ x) (h : Rel k x y) (hkl : k ≤ l) : Rel l x y := by
  have := u_pos; have := u_lt
  refine ⟨le_trans ?_ h.1, le_trans h.2 ?_⟩
  · exact mul_le_mul_of_nonneg_left (pow_le_pow_of_le_one (by linarith) (by linarith) hkl) hx
  · exact mul_le_mul_of_nonneg_left (pow_le_pow_right₀ (by linarith) hkl) hx

theorem Rel.trans {k l : Nat} {x y z : ℚ} (h : Rel k x y) (h' : Rel l y z) : Rel (k + l) x z := by
  have h1 : (0 : ℚ) < (1 - u) ^ l := pow_pos (by linarith [u_lt]) _
  have h2 : (0 : ℚ) < (1 + u) ^ l := pow_pos (by linarith [u_pos]) _
  refine ⟨le_trans ?_ h'.1, le_trans h'.2 ?_⟩
  · rw [pow_add, ← mul_assoc]; exact mul_le_mul_of_nonneg_right h.1 h1.le
  · rw [pow_add, ← mul_assoc]; exact mul_le_mul_of_nonneg_right h.2 h2.le

theorem Rel.nonneg {k : Nat} {x y : ℚ} (hx : 0 ≤ x) (h : Rel k x y) : 0 ≤ y := by
  have h1 : (0 : ℚ) < (1 - u) ^ k := pow_pos (by linarith [u_lt]) _
  exact le_trans (mul_nonneg hx h1.le) h.1

theorem Rel.mul {k l : Nat} {x y x' y' : ℚ} (hx : 0 ≤ x) (hx' : 0 ≤ x') (h : Rel k x y) (h' : Rel l x' y') : Rel (k + l) (x * x') (y * y') := by
  have h1 : (0 : ℚ) < (1 - u) ^ k := pow_pos (by linarith [u_lt]) _
  have h2 : (0 : ℚ) < (1 - u) ^ l := pow_pos (by linarith [u_lt]) _
  have hy := h.nonneg hx
  have hy' := h'.nonneg hx'
  constructor
  · calc x * x' * (1 - u) ^ (k + l) = (x * (1 - u) ^ k) * (x' * (1 - u) ^ l) := by rw [pow_add]; ring
      _ ≤ y * y' := mul_le_mul h.1 h'.1 (mul_nonneg hx' h2.le) hy
  · calc y * y' ≤ (x * (1 + u) ^ k) * (x' * (1 + u) ^ l) := mul_le_mul h.2 h'.2 hy' (le_trans hy h.2)
      _ = x * x' * (1 + u) ^ (k + l) := by rw [pow_add]; ring

theorem Rel.add {k : Nat} {x y x' y' : ℚ} (h : Rel k x y) (h' : Rel k x' y') : Rel k (x + x') (y + y') := by
  constructor
  · rw [add_mul]; exact add_le_add h.1 h'.1
  · rw [add_mul]; exact add_le_add h.2 h'.2

/-- one rounding of a number in the normal range (or zero) -/
theorem RoundOf.rel {x : ℚ} {r : Mag} (h : RoundOf x r) (hlo : x = 0 ∨ 2 ^ (-1022 : ℤ) ≤ x) (hhi : x < overflow f64) :
    ∃ m e, r = .fin m e ∧ Rel 1 x (val m e) := by
  obtain ⟨n, d, hd, rfl, rfl⟩ := h
  have hN := round_nearest f64 f64_ok n hd
  by_cases hn : n = 0
  · subst hn
    rw [round_zero]
    exact ⟨0, _, rfl, by simp [Rel, val]⟩
  have hdq : (0 : ℚ) < d := by exact_mod_cast hd
  have hnq : (0 : ℚ) < n := by exact_mod_cast Nat.pos_of_ne_zero hn
  have hlo : (2 : ℚ) ^ (-1022 : ℤ) ≤ n / d := hlo.resolve_left (by positivity)
  obtain ⟨c1, c2, c3, c4⟩ := core f64 (by decide) hn hd
  obtain ⟨e1, e2, e3⟩ := roundExp_spec f64 hn hd
  cases hq : round f64 n d with
  | inf => rw [hq] at hN; exact absurd hhi (not_lt.2 hN)
  | fin m e =>
    refine ⟨m, e, rfl, ?_⟩
    rw [hq] at hN
    -- the value is that of the mantissa before normalisation, and nothing is nearer
    have hb : |val m e - n / d| ≤ u * (n / d) := by
      have hv : val m e = (divRound (n * (pow2 (roundExp f64 n d)).2) (d * (pow2 (roundExp f64 n d)).1) : ℕ) * 2 ^ roundExp f64 n d := by
        rw [round_pos f64 hn] at hq
        by_cases hm : divRound (n * (pow2 (roundExp f64 n d)).2) (d * (pow2 (roundExp f64 n d)).1) = 2 ^ f64.p
        · rw [if_pos hm] at hq
          by_cases he : roundExp f64 n d + 1 > f64.emax
          · rw [if_pos he] at hq; cases hq
          · rw [if_neg he] at hq
            cases hq
            rw [hm]
            unfold val
            rw [zpow_add₀ (by norm_num)]; push_cast
            show (2 : ℚ) ^ 52 * _ = 2 ^ 53 * _
            ring
        · rw [if_neg hm] at hq
          by_cases he : roundExp f64 n d > f64.emax
          · rw [if_pos he] at hq; cases hq
          · rw [if_neg he] at hq
            cases hq
            rfl
      rw [hv, abs_scale]
      have hpe := two_zpow_pos (roundExp f64 n d)
      have hge : (2 : ℚ) ^ (52 + roundExp f64 n d) ≤ n / d := by
        rcases e3 with h | h
        · rw [h]; exact hlo
        · exact h
      have h1 : u * (2 : ℚ) ^ (52 + roundExp f64 n d) = 1 / 2 * 2 ^ roundExp f64 n d := by
        rw [zpow_add₀ (by norm_num)]; unfold u
        rw [show (2 : ℚ) ^ (52 : ℤ) = 2 ^ 52 from rfl]
        ring
      have h2 := c1.1
      calc _ ≤ 1 / 2 * (2 : ℚ) ^ roundExp f64 n d := by gcongr
        _ = u * (2 : ℚ) ^ (52 + roundExp f64 n d) := h1.symm
        _ ≤ _ := by have := u_pos; gcongr
    obtain ⟨h1, h2⟩ := abs_le.1 hb
    constructor
    · rw [pow_one]; linarith
    · rw [pow_one]; linarith

/-! ## math.Pow10 -/

/-- the check of one entry -/
def chkPow (n : Int) : Bool :=
  match pow10 n with
  | .inf => false
  | .fin m e =>
    let w := pow2 e
    let x := m * w.1 * 10 ^ (-n).toNat
    let y := 10 ^ n.toNat * w.2
    decide (x * 2 ^ 53 ≤ y * 2 ^ 53 + 3 * y) && decide (y * 2 ^ 53 ≤ x * 2 ^ 53 + 3 * y) && decide (m ≠ 0)

theorem chkPow_all : ((List.range 616).all fun i => chkPow ((i : Int) - 307)) = true := by decide +kernel

theorem ten_zpow (n : Int) : (10 : ℚ) ^ n = (10 ^ n.toNat : ℕ) / (10 ^ (-n).toNat : ℕ) := by
  rcases le_or_gt 0 n with h | h
  · obtain ⟨k, rfl⟩ := Int.eq_ofNat_of_zero_le h
    simp
  · obtain ⟨k, hk⟩ := Int.eq_ofNat_of_zero_le (a := -n) (by omega)
    rw [show n = -(k : ℤ) by omega, zpow_neg, zpow_natCast]
    simp

/-- `math.Pow10` is within three roundings of the power. -/
theorem pow10_rel {n : Int} (h1 : -307 ≤ n) (h2 : n ≤ 308) : ∃ m e, pow10 n = .fin m e ∧ m ≠ 0 ∧ Rel 4 (10 ^ n) (val m e) := by
  have h := List.all_eq_true.1 chkPow_all (n + 307).toNat (by rw [List.mem_range]; omega)
  have hn : (((n + 307).toNat : ℕ) : Int) - 307 = n := by omega
  rw [hn] at h
  unfold chkPow at h
  cases hq : pow10 n with
  | inf => rw [hq] at h; simp at h
  | fin m e =>
    rw [hq] at h
    simp only [Bool.and_eq_true, decide_eq_true_eq] at h
    obtain ⟨⟨ha, hb⟩, hc⟩ := h
    refine ⟨m, e, rfl, hc, ?_⟩
    have w2 : (0 : ℚ) < (pow2 e).2 := by exact_mod_cast (pow2_pos e).2
    have hB : (0 : ℚ) < (10 ^ (-n).toNat : ℕ) := by exact_mod_cast Nat.pow_pos (by norm_num)
    have hA : (0 : ℚ) < (10 ^ n.toNat : ℕ) := by exact_mod_cast Nat.pow_pos (by norm_num)
    rw [ten_zpow]
    unfold val
    rw [← pow2_val]
    generalize (10 ^ (-n).toNat : ℕ) = B at *
    generalize (10 ^ n.toNat : ℕ) = A at *
    generalize (pow2 e).1 = w at *
    generalize (pow2 e).2 = v at *
    have ha' : (m : ℚ) * w * B * 2 ^ 53 ≤ A * v * 2 ^ 53 + 3 * (A * v) := by exact_mod_cast ha
    have hb' : (A : ℚ) * v * 2 ^ 53 ≤ m * w * B * 2 ^ 53 + 3 * (A * v) := by exact_mod_cast hb
    have hu : (1 : ℚ) + 3 / 2 ^ 53 ≤ (1 + u) ^ 4 := by unfold u; norm_num
    have hl : (1 - u) ^ 4 ≤ (1 : ℚ) - 3 / 2 ^ 53 := by unfold u; norm_num
    have lo : (A : ℚ) / B * (1 - 3 / 2 ^ 53) ≤ m * ((w : ℚ) / v) := by
      rw [← sub_nonneg]
      have : m * ((w : ℚ) / v) - A / B * (1 - 3 / 2 ^ 53) = (m * w * B * 2 ^ 53 + 3 * (A * v) - A * v * 2 ^ 53) / (v * B * 2 ^ 53) := by
        field_simp; ring
      rw [this]
      exact div_nonneg (by linarith) (by positivity)
    have hi : (m : ℚ) * ((w : ℚ) / v) ≤ A / B * (1 + 3 / 2 ^ 53) := by
      rw [← sub_nonneg]
      have : (A : ℚ) / B * (1 + 3 / 2 ^ 53) - m * ((w : ℚ) / v) = (A * v * 2 ^ 53 + 3 * (A * v) - m * w * B * 2 ^ 53) / (v * B * 2 ^ 53) := by
        field_simp
      rw [this]
      exact div_nonneg (by linarith) (by positivity)
    have hq : (0 : ℚ) < A / B := by positivity
    exact ⟨le_trans (mul_le_mul_of_nonneg_left hl hq.le) lo, le_trans hi (mul_le_mul_of_nonneg_left hu hq.le)⟩

/-! ## Composite operations -/

set_option exponentiation.threshold 2000

theorem ovf : (10 : ℚ) ^ 308 * (1 + u) ^ 12 < overflow f64 := by
  unfold u overflow f64; norm_num

theorem unf : (2 : ℚ) ^ (-1022 : ℤ) ≤ 10 ^ (-307 : ℤ) * (1 - u) ^ 12 := by
  unfold u; norm_num

/-- in the range where neither overflow nor underflow happens -/
def InRange (x : ℚ) : Prop := x = 0 ∨ (10 ^ (-307 : ℤ) ≤ x ∧ x ≤ 10 ^ 308)

theorem InRange.nonneg {x : ℚ} (h : InRange x) : 0 ≤ x := by
  rcases h with h | h
  · exact h.ge
  · exact le_trans (by positivity) h.1

theorem range_of_rel {k : Nat} {x y : ℚ} (h : Rel k x y) (hx : InRange x) (hk : k ≤ 12) :
    (y = 0 ∨ 2 ^ (-1022 : ℤ) ≤ y) ∧ y < overflow f64 := by
  have h := h.mono hx.nonneg hk
  have up : (0 : ℚ) < (1 + u) ^ 12 := pow_pos (by linarith [u_pos]) _
  have dn : (0 : ℚ) < (1 - u) ^ 12 := pow_pos (by linarith [u_lt]) _
  rcases hx with rfl | ⟨h1, h2⟩
  · have : y = 0 := le_antisymm (by simpa using h.2) (by simpa using h.1)
    refine ⟨Or.inl this, ?_⟩
    rw [this]
    exact lt_of_le_of_lt (by positivity) ovf
  · exact ⟨Or.inr (le_trans unf (le_trans (mul_le_mul_of_nonneg_right h1 dn.le) h.1)),
      lt_of_le_of_lt (le_trans h.2 (mul_le_mul_of_nonneg_right h2 up.le)) ovf⟩

theorem round_rel {k : Nat} {x y : ℚ} {r : Mag} (hr : RoundOf y r) (h : Rel k x y) (hx : InRange x) (hk : k ≤ 12) :
    ∃ m e, r = .fin m e ∧ Rel (k + 1) x (val m e) := by
  obtain ⟨h1, h2⟩ := range_of_rel h hx hk
  obtain ⟨m, e, h3, h4⟩ := hr.rel h1 h2
  exact ⟨m, e, h3, h.trans h4⟩

theorem mul_rel {a b : Nat} {x y : ℚ} {m m' : Nat} {e e' : Int} (h : Rel a x (val m e)) (h' : Rel b y (val m' e')) (hx : 0 ≤ x) (hy : 0 ≤ y)
    (hr : InRange (x * y)) (hk : a + b ≤ 12) :
    ∃ m'' e'', mul f64 (.fin m e) (.fin m' e') = some (.fin m'' e'') ∧ Rel (a + b + 1) (x * y) (val m'' e'') := by
  obtain ⟨r, h1, h2⟩ := mul_round (m := m) (e := e) (m' := m') (e' := e')
  obtain ⟨m'', e'', h3, h4⟩ := round_rel h2 (Rel.mul hx hy h h') hr hk
  exact ⟨m'', e'', by rw [h1, h3], h4⟩

theorem add_rel {a : Nat} {x y : ℚ} {m m' : Nat} {e e' : Int} (h : Rel a x (val m e)) (h' : Rel a y (val m' e'))
    (hr : InRange (x + y)) (hk : a ≤ 12) :
    ∃ m'' e'', add f64 (.fin m e) (.fin m' e') = .fin m'' e'' ∧ Rel (a + 1) (x + y) (val m'' e'') :=
  round_rel add_round (Rel.add h h') hr hk

theorem flt_u64 {ds : Bytes} (h : natOf ds < 2 ^ 64) : flt (u64 ds) = ofNat f64 (natOf ds) := by
  unfold flt u64
  rw [UInt64.toNat_ofNat', Nat.mod_eq_of_lt h]

theorem inRange_nat {n : Nat} (h : n < 2 ^ 64) : InRange (n : ℚ) := by
  rcases Nat.eq_zero_or_pos n with h0 | h0
  · exact Or.inl (by simp [h0])
  · refine Or.inr ⟨le_trans (b := 1) (by norm_num) (by exact_mod_cast h0), ?_⟩
    have : (n : ℚ) ≤ 2 ^ 64 := by exact_mod_cast h.le
    exact le_trans this (by norm_num)

theorem flt_rel {n : Nat} (h : n < 2 ^ 64) : ∃ m e, ofNat f64 n = .fin m e ∧ Rel 1 n (val m e) :=
  round_rel (ofNat_round n) (Rel.refl _) (inRange_nat h) (by omega)

theorem wrap_small {x : Int} (h1 : -2 ^ 63 ≤ x) (h2 : x < 2 ^ 63) : wrap x = x := by
  unfold wrap
  apply Int.bmod_eq_of_le
  · norm_num at *; omega
  · norm_num at *; omega

/-- a number times a power of ten, both in range -/
theorem scaled_rel {n : Nat} (h : n < 2 ^ 64) {k : Int} (hk : -300 ≤ k ∧ k ≤ 300) (hr : (n : ℚ) * 10 ^ k ≤ 10 ^ 308) :
    ∃ m e, mul f64 (ofNat f64 n) (pow10 k) = some (.fin m e) ∧ Rel 6 (n * 10 ^ k) (val m e) := by
  obtain ⟨m, e, h1, h2⟩ := flt_rel h
  obtain ⟨m', e', h3, -, h4⟩ := pow10_rel (n := k) (by omega) (by omega)
  have hp : (0 : ℚ) < 10 ^ k := by positivity
  have hrange : InRange ((n : ℚ) * 10 ^ k) := by
    rcases Nat.eq_zero_or_pos n with h0 | h0
    · exact Or.inl (by simp [h0])
    · refine Or.inr ⟨?_, hr⟩
      have h5 : (1 : ℚ) ≤ n := by exact_mod_cast h0
      have h6 : (10 : ℚ) ^ (-307 : ℤ) ≤ 10 ^ k := zpow_le_zpow_right₀ (by norm_num) (by omega)
      nlinarith
  rw [h1, h3]
  exact mul_rel h2 h4 (by positivity) hp.le hrange (by omega)

theorem zpow_neg_nat (j : Nat) : (10 : ℚ) ^ (-(j : ℤ)) = 1 / 10 ^ j := by rw [zpow_neg, zpow_natCast, one_div]

theorem neg_pow_le_one (j : Nat) : (10 : ℚ) ^ (-(j : ℤ)) ≤ 1 := by
  rw [zpow_neg_nat, div_le_one (by positivity)]
  exact one_le_pow₀ (by norm_num)

/-- numjson.go:72 -/
theorem decimalMag_rel {a b : Bytes} (ha : natOf a < 2 ^ 64) (hb : natOf b < 2 ^ 64) {j : Nat} (hj : j ≤ 300) :
    ∃ m e, decimalMag (u64 a) (u64 b) j = some (.fin m e) ∧ Rel 7 (natOf a + natOf b / 10 ^ j) (val m e) := by
  have hle : (natOf b : ℚ) * 10 ^ (-(j : ℤ)) ≤ 2 ^ 64 := by
    have h1 : (natOf b : ℚ) ≤ 2 ^ 64 := by exact_mod_cast hb.le
    have h2 := neg_pow_le_one j
    have h3 : (0 : ℚ) ≤ 10 ^ (-(j : ℤ)) := by positivity
    nlinarith
  obtain ⟨m, e, h1, h2⟩ := scaled_rel hb (k := -(j : ℤ)) (by omega) (le_trans hle (by norm_num))
  obtain ⟨m', e', h3, h4⟩ := flt_rel ha
  have hx : (natOf b : ℚ) * 10 ^ (-(j : ℤ)) = natOf b / 10 ^ j := by rw [zpow_neg_nat]; ring
  rw [hx] at h2 hle
  have hrange : InRange ((natOf a : ℚ) + natOf b / 10 ^ j) := by
    have ha' : (natOf a : ℚ) ≤ 2 ^ 64 := by exact_mod_cast ha.le
    have hup : (natOf a : ℚ) + natOf b / 10 ^ j ≤ 10 ^ 308 := le_trans (add_le_add ha' hle) (by norm_num)
    by_cases h0 : (natOf a : ℚ) + natOf b / 10 ^ j = 0
    · exact Or.inl h0
    · refine Or.inr ⟨?_, hup⟩
      have hfl : (10 : ℚ) ^ (-307 : ℤ) ≤ 1 / 10 ^ j := by
        rw [← zpow_neg_nat]; exact zpow_le_zpow_right₀ (by norm_num) (by omega)
      have hj1 : (1 : ℚ) / 10 ^ j ≤ 1 := by rw [← zpow_neg_nat]; exact neg_pow_le_one j
      have hpj : (0 : ℚ) < 10 ^ j := by positivity
      rcases Nat.eq_zero_or_pos (natOf a) with h5 | h5
      · rcases Nat.eq_zero_or_pos (natOf b) with h6 | h6
        · exact absurd (by simp [h5, h6]) h0
        · have h7 : (1 : ℚ) ≤ natOf b := by exact_mod_cast h6
          have h8 : (1 : ℚ) / 10 ^ j ≤ natOf b / 10 ^ j := by gcongr
          have h9 : (0 : ℚ) ≤ natOf a := by positivity
          linarith
      · have h7 : (1 : ℚ) ≤ natOf a := by exact_mod_cast h5
        have h8 : (0 : ℚ) ≤ natOf b / 10 ^ j := by positivity
        linarith
  obtain ⟨m'', e'', h5, h6⟩ := add_rel (h4.mono (by positivity) (by omega : 1 ≤ 6)) h2 hrange (by omega)
  refine ⟨m'', e'', ?_, h6⟩
  unfold decimalMag
  rw [flt_u64 ha, flt_u64 hb, wrap_small (by omega) (by omega), h1, h3]
  simp only [h5]

/-- numjson.go:114-118, negative exponent -/
theorem sciNeg_rel {a b : Bytes} (ha : natOf a < 2 ^ 64) (hb : natOf b < 2 ^ 64) {j k : Nat} (hj : j ≤ 300) (hk : k ≤ 300)
    (hr : InRange ((natOf a + natOf b / 10 ^ j : ℚ) * 10 ^ (-(k : ℤ)))) :
    ∃ m e, scientificMag (u64 a) (u64 b) j true k = some (.fin m e) ∧ Rel 12 ((natOf a + natOf b / 10 ^ j) * 10 ^ (-(k : ℤ))) (val m e) := by
  obtain ⟨m, e, h1, h2⟩ := decimalMag_rel ha hb hj
  obtain ⟨m', e', h3, -, h4⟩ := pow10_rel (n := -(k : ℤ)) (by omega) (by omega)
  obtain ⟨m'', e'', h5, h6⟩ := mul_rel h2 h4 (by positivity) (by positivity) hr (by omega)
  refine ⟨m'', e'', ?_, h6⟩
  unfold scientificMag
  rw [if_pos rfl, h1]
  simp only
  rw [wrap_small (by omega) (by omega), h3, h5]

/-- numjson.go:114-118, positive exponent -/
theorem sciPos_rel {a b : Bytes} (ha : natOf a < 2 ^ 64) (hb : natOf b < 2 ^ 64) {j k : Nat} (hj : j ≤ 300) (hk : k ≤ 300)
    (hr : InRange ((natOf a + natOf b / 10 ^ j : ℚ) * 10 ^ (k : ℤ))) :
    ∃ m e, scientificMag (u64 a) (u64 b) j false k = some (.fin m e) ∧ Rel 7 ((natOf a + natOf b / 10 ^ j) * 10 ^ (k : ℤ)) (val m e) := by
  have hpk : (0 : ℚ) < 10 ^ (k : ℤ) := by positivity
  have hxb : (natOf b : ℚ) * 10 ^ ((k : ℤ) - j) = natOf b / 10 ^ j * 10 ^ (k : ℤ) := by
    rw [zpow_sub₀ (by norm_num), zpow_natCast (10 : ℚ) j]; field_simp
  have hsum : (natOf a : ℚ) * 10 ^ (k : ℤ) + natOf b * 10 ^ ((k : ℤ) - j) = (natOf a + natOf b / 10 ^ j) * 10 ^ (k : ℤ) := by
    rw [hxb]; ring
  have htop : (natOf a : ℚ) * 10 ^ (k : ℤ) + natOf b * 10 ^ ((k : ℤ) - j) ≤ 10 ^ 308 := by
    rw [hsum]
    rcases hr with h | h
    · rw [h]; positivity
    · exact h.2
  have hpa : (0 : ℚ) ≤ (natOf a : ℚ) * 10 ^ (k : ℤ) := by positivity
  have hpb : (0 : ℚ) ≤ (natOf b : ℚ) * 10 ^ ((k : ℤ) - j) := by positivity
  obtain ⟨m, e, h1, h2⟩ := scaled_rel ha (k := (k : ℤ)) (by omega) (by linarith)
  obtain ⟨m', e', h3, h4⟩ := scaled_rel hb (k := (k : ℤ) - j) (by omega) (by linarith)
  obtain ⟨m'', e'', h5, h6⟩ := add_rel h2 h4 (by rw [hsum]; exact hr) (by omega)
  rw [hsum] at h6
  refine ⟨m'', e'', ?_, h6⟩
  unfold scientificMag
  rw [if_neg (by decide), flt_u64 ha, flt_u64 hb, wrap_small (by omega) (by omega), h1, h3]
  simp only [h5]

theorem rel_abs {k : Nat} {x y : ℚ} (hx : 0 ≤ x) (h : Rel k x y) (hk : k ≤ 12) : |y - x| ≤ x / 2 ^ 49 := by
  have h := h.mono hx hk
  have h1 : (1 + u) ^ 12 ≤ 1 + 1 / 2 ^ 49 := by unfold u; norm_num
  have h2 : (1 : ℚ) - 1 / 2 ^ 49 ≤ (1 - u) ^ 12 := by unfold u; norm_num
  have h3 := mul_le_mul_of_nonneg_left h1 hx
  have h4 := mul_le_mul_of_nonneg_left h2 hx
  rw [abs_le]
  constructor
  · have := h.1; rw [mul_sub] at h4; linarith
  · have := h.2; rw [mul_add] at h3; linarith

end Verif.NumJson
