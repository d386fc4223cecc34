import Verif.Proofs.NumJson
import Verif.Proofs.NumErr

/-!
# Exponents that strconv does not read to the end
-/

namespace Verif.NumJson
open Verif Verif.Float Verif.Spec

theorem fiveDigits_small {n : Nat} (h : n < 100000) : fiveDigits n = n := by rw [fiveDigits, if_pos h]

theorem fiveDigits_step {n d : Nat} (hn : 10000 ≤ n) (hd : d < 10) : fiveDigits (n * 10 + d) = fiveDigits n := by
  rw [fiveDigits, if_neg (by omega), show (n * 10 + d) / 10 = n by omega]

theorem fiveDigits_ge (n : Nat) (h : 10000 ≤ n) : 10000 ≤ fiveDigits n := by
  induction n using Nat.strongRecOn with
  | ind n ih =>
    rw [fiveDigits]
    split
    · exact h
    · exact ih (n / 10) (by omega) (by omega)

theorem expVal_eq {ds : Bytes} (h : AllDig ds) : expVal ds = fiveDigits (natOf ds) := by
  induction ds using List.reverseRecOn with
  | nil => rw [show natOf [] = 0 from rfl, fiveDigits_small (by omega)]; rfl
  | append_singleton s c ih =>
    have hs : AllDig s := fun b hb => h b (by simp [hb])
    have hc : c.toNat - 48 < 10 := by
      have := ((isDig_iff c).1 (h c (by simp))).2
      omega
    have hn : natOf (s ++ [c]) = natOf s * 10 + (c.toNat - 48) := by
      rw [natOf_append]; simp [natOf]
    have ih := ih hs
    unfold expVal at ih ⊢
    rw [List.foldl_append, ih, hn]
    simp only [List.foldl_cons, List.foldl_nil]
    by_cases hb : natOf s < 10000
    · rw [fiveDigits_small (by omega), if_pos hb, fiveDigits_small (by omega)]
    · rw [if_neg (by have := fiveDigits_ge _ (not_lt.1 hb); omega), fiveDigits_step (by omega) hc]

theorem cutValue_eq {x : NumText} (h : x.expAbs < 100000) : x.cutValue = x.value := by
  unfold NumText.cutValue NumText.value NumText.exp
  rw [fiveDigits_small h]

/-- Numbers that are closer to 0 than to any other float. -/
theorem nearest_tiny {v : ℚ} (h0 : 0 ≤ v) (h1 : v < 2 ^ (-1075 : ℤ)) : Nearest f64 v (.fin 0 (-1074)) := by
  have e1 : (2 : ℚ) ^ (-1075 : ℤ) = 2 ^ (-1074 : ℤ) / 2 := by
    rw [show (-1075 : ℤ) = -1074 - 1 by norm_num, zpow_sub₀ (by norm_num)]; norm_num
  refine ⟨⟨by decide, by decide, by decide, Or.inr rfl⟩, ?_, ?_⟩
  · refine h1.trans ?_
    unfold overflow f64
    have h2 : (2 : ℚ) ^ (-1075 : ℤ) ≤ 1 := zpow_le_one_of_nonpos₀ (by norm_num) (by norm_num)
    have h3 : (1 : ℚ) ≤ 2 ^ (971 : ℤ) := one_le_zpow₀ (by norm_num) (by norm_num)
    have h4 : (2 : ℚ) ≤ 2 ^ 53 - 1 / 2 := by norm_num
    simp only
    calc (2 : ℚ) ^ (-1075 : ℤ) ≤ 1 := h2
      _ < 2 * 1 := by norm_num
      _ ≤ (2 ^ 53 - 1 / 2) * 2 ^ (971 : ℤ) := mul_le_mul h4 h3 (by norm_num) (by linarith)
  · intro m' e' hf
    obtain ⟨-, f1, -, -⟩ := id hf
    have hz : val 0 (-1074) = 0 := by simp [val]
    rw [hz, zero_sub, abs_neg, abs_of_nonneg h0]
    rcases Nat.eq_zero_or_pos m' with rfl | hm
    · have : val 0 e' = 0 := by simp [val]
      rw [this, zero_sub, abs_neg, abs_of_nonneg h0]
      exact ⟨le_refl _, fun _ _ => rfl⟩
    · have hv : (2 : ℚ) ^ (-1074 : ℤ) ≤ val m' e' := by
        unfold val
        have g1 : (2 : ℚ) ^ (-1074 : ℤ) ≤ 2 ^ e' := zpow_le_zpow_right₀ (by norm_num) f1
        have g2 : (1 : ℚ) ≤ m' := by exact_mod_cast hm
        have g3 := two_zpow_pos e'
        nlinarith
      have : v < |val m' e' - v| := by
        rw [abs_of_nonneg (by linarith)]
        linarith
      exact ⟨this.le, fun e => absurd e this.ne⟩

theorem tiny_of_ten {k : ℕ} {v : ℚ} (hk : 400 ≤ k) (h : v ≤ 10 ^ (-(k : ℤ))) : v < 2 ^ (-1075 : ℤ) := by
  have h1 : (10 : ℚ) ^ (-(k : ℤ)) ≤ 10 ^ (-400 : ℤ) := zpow_le_zpow_right₀ (by norm_num) (by omega)
  refine (h.trans h1).trans_lt ?_
  rw [zpow_neg, zpow_neg]
  apply inv_strictAnti₀ (by positivity)
  have : (2 : ℕ) ^ 1075 < 10 ^ 400 := by decide +kernel
  exact_mod_cast this

theorem huge_of_ten {k : ℕ} {v : ℚ} (hk : 400 ≤ k) (h : 10 ^ (k : ℤ) ≤ v) : overflow f64 ≤ v := by
  have h1 : (10 : ℚ) ^ (400 : ℤ) ≤ 10 ^ (k : ℤ) := zpow_le_zpow_right₀ (by norm_num) (by omega)
  refine le_trans ?_ (h1.trans h)
  unfold overflow f64
  have : (2 : ℕ) ^ 53 * 2 ^ 971 ≤ 10 ^ 400 := by decide +kernel
  have h2 : (2 : ℚ) ^ 53 * 2 ^ (971 : ℤ) ≤ 10 ^ (400 : ℤ) := by exact_mod_cast this
  refine le_trans (mul_le_mul_of_nonneg_right (by norm_num) (two_zpow_pos 971).le) h2

/-- The digits before the exponent. -/
def NumText.mant (x : NumText) : ℚ := (natOf x.ip : ℚ) + natOf x.frac / 10 ^ x.frac.length

theorem mant_lt {x : NumText} (hx : x.Ok) : NumText.mant x ≤ 10 ^ x.ip.length := by
  have h1 := natOf_lt (allDig_of hx.1)
  have h2 : natOf x.frac < 10 ^ x.frac.length := by
    unfold NumText.frac
    cases hf : x.fp with
    | none => simp [natOf]
    | some f => exact natOf_lt (allDig_of (hx.2.1 f hf))
  have h3 : (natOf x.frac : ℚ) / 10 ^ x.frac.length ≤ 1 := by
    rw [div_le_one (by positivity)]
    exact_mod_cast h2.le
  have h4 : (natOf x.ip : ℚ) + 1 ≤ 10 ^ x.ip.length := by exact_mod_cast h1
  unfold NumText.mant
  linarith

theorem mant_gt {x : NumText} (h : NumText.mant x ≠ 0) : (10 : ℚ) ^ (-(x.frac.length : ℤ)) ≤ NumText.mant x := by
  have h0 : (0 : ℚ) < 10 ^ x.frac.length := by positivity
  rw [zpow_neg, zpow_natCast]
  have key : (1 : ℚ) ≤ NumText.mant x * 10 ^ x.frac.length := by
    have e : NumText.mant x * 10 ^ x.frac.length = ((natOf x.ip * 10 ^ x.frac.length + natOf x.frac : ℕ) : ℚ) := by
      unfold NumText.mant
      push_cast
      field_simp
    have h1 : NumText.mant x * 10 ^ x.frac.length ≠ 0 := mul_ne_zero h h0.ne'
    rw [e] at h1 ⊢
    have : natOf x.ip * 10 ^ x.frac.length + natOf x.frac ≠ 0 := by exact_mod_cast h1
    exact_mod_cast Nat.one_le_iff_ne_zero.2 this
  rw [inv_le_iff_one_le_mul₀ h0]
  exact key

/-- For handy numerals it makes no difference that the exponent is cut. -/
theorem handy_nearest {x : NumText} (hx : x.Ok) (h : x.Handy) {r : Mag} (hr : Nearest f64 x.cutValue r) : Nearest f64 x.value r := by
  by_cases hb : x.expAbs < 100000
  · rwa [cutValue_eq hb] at hr
  rcases h with h | ⟨hi, hf⟩
  · exact absurd h hb
  have h5 := fiveDigits_ge x.expAbs (by omega)
  have hv : x.value = NumText.mant x * 10 ^ (if x.expNeg then -(x.expAbs : ℤ) else x.expAbs) := rfl
  have hc : x.cutValue = NumText.mant x * 10 ^ (if x.expNeg then -(fiveDigits x.expAbs : ℤ) else fiveDigits x.expAbs) := rfl
  have hm0 : 0 ≤ NumText.mant x := by unfold NumText.mant; positivity
  by_cases hz : NumText.mant x = 0
  · rw [hz, zero_mul] at hv hc
    rwa [hv, ← hc]
  have cases2 : ∀ {a b : ℚ}, (0 ≤ a ∧ a < 2 ^ (-1075 : ℤ)) → (0 ≤ b ∧ b < 2 ^ (-1075 : ℤ)) → Nearest f64 a r → Nearest f64 b r := by
    intro a b ha hb hr
    have h1 := nearest_tiny ha.1 ha.2
    obtain ⟨n, hn⟩ := Int.eq_ofNat_of_zero_le (Rat.num_nonneg.2 ha.1)
    have hv : a = (n : ℚ) / (a.den : ℕ) := by
      conv_lhs => rw [← Rat.num_div_den a, hn]
      simp
    have hR : RoundOf a (round f64 n a.den) := ⟨n, a.den, a.den_pos, hv, rfl⟩
    rw [hR.unique hr, ← hR.unique h1]
    exact nearest_tiny hb.1 hb.2
  cases hn : x.expNeg with
  | true =>
    rw [hn] at hv hc
    simp only [if_true] at hv hc
    have key : ∀ k : ℕ, 10000 ≤ k → 0 ≤ NumText.mant x * 10 ^ (-(k : ℤ)) ∧ NumText.mant x * 10 ^ (-(k : ℤ)) < 2 ^ (-1075 : ℤ) := by
      intro k hk
      refine ⟨by positivity, tiny_of_ten (k := k - x.ip.length) (by omega) ?_⟩
      refine le_trans (mul_le_mul_of_nonneg_right (mant_lt hx) (by positivity)) ?_
      rw [← zpow_natCast, ← zpow_add₀ (by norm_num)]
      exact zpow_le_zpow_right₀ (by norm_num) (by omega)
    exact cases2 (hc ▸ key _ h5) (hv ▸ key _ (by omega)) hr
  | false =>
    rw [hn] at hv hc
    simp only [Bool.false_eq_true, if_false] at hv hc
    have key : ∀ k : ℕ, 10000 ≤ k → overflow f64 ≤ NumText.mant x * 10 ^ (k : ℤ) := by
      intro k hk
      refine huge_of_ten (k := k - x.frac.length) (by omega) ?_
      refine le_trans ?_ (mul_le_mul_of_nonneg_right (mant_gt hz) (by positivity))
      rw [← zpow_add₀ (by norm_num)]
      exact zpow_le_zpow_right₀ (by norm_num) (by omega)
    cases r with
    | inf => exact hv ▸ key _ (by omega)
    | fin m e => exact absurd (hc ▸ hr.2.1) (not_lt.2 (key _ h5))

end Verif.NumJson
