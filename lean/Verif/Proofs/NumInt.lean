import Verif.Spec.NumInt
import Verif.Props.NumJson

/-!
# Lemmas: integers as float64
-/

namespace Verif.Props
open Verif Verif.Float Verif.Spec Verif.NumJson

theorem zpow_mono {a b : Int} (h : a ≤ b) : (2 : ℚ) ^ a ≤ 2 ^ b := zpow_le_zpow_right₀ (by norm_num) h
theorem zpow_pos2 (a : Int) : (0 : ℚ) < 2 ^ a := zpow_pos (by norm_num) a

/-- Floats below `2 ^ 52 * 2 ^ q`. -/
theorem float_below {m : Nat} {e q : Int} (hf : IsFloat f64 m e) (hq : -1074 < q) (h : val m e < 2 ^ 52 * 2 ^ q) :
    val m e ≤ (2 ^ 53 - 1) * 2 ^ (q - 1) ∧ (val m e = (2 ^ 53 - 1) * 2 ^ (q - 1) → m % 2 = 1) := by
  obtain ⟨h1, h2, h3, h4⟩ := hf
  simp only [f64] at h1 h2 h3 h4
  have hm : (m : ℚ) ≤ 2 ^ 53 - 1 := by
    have : ((m + 1 : ℕ) : ℚ) ≤ ((2 ^ 53 : ℕ) : ℚ) := by exact_mod_cast h1
    push_cast at this
    linarith
  have heq : e ≤ q - 1 := by
    by_contra hc
    have h5 : 2 ^ 52 ≤ m := by
      rcases h4 with h4 | h4
      · exact h4
      · omega
    have h6 : (2 ^ 52 : ℚ) ≤ m := by exact_mod_cast h5
    have h7 := zpow_mono (by omega : q ≤ e)
    have h8 := zpow_pos2 q
    unfold val at h
    have : (2 ^ 52 : ℚ) * 2 ^ q ≤ m * 2 ^ e := mul_le_mul h6 h7 h8.le (by positivity)
    linarith
  have h5 := zpow_mono heq
  have h6 := zpow_pos2 (q - 1)
  have h7 := zpow_pos2 e
  unfold val
  constructor
  · exact mul_le_mul hm h5 h7.le (by norm_num)
  · intro hv
    rcases Int.lt_or_le e (q - 1) with hlt | hge
    · exfalso
      have h8 := zpow_mono (by omega : e ≤ q - 2)
      have h9 : (2 : ℚ) ^ (q - 1) = 2 * 2 ^ (q - 2) := by
        rw [show q - 1 = (q - 2) + 1 by ring, zpow_add_one₀ (by norm_num)]; ring
      have h10 : (m : ℚ) * 2 ^ e ≤ (2 ^ 53 - 1) * 2 ^ (q - 2) := mul_le_mul hm h8 h7.le (by norm_num)
      have h11 := zpow_pos2 (q - 2)
      rw [hv, h9] at h10
      nlinarith
    · have : e = q - 1 := by omega
      rw [this] at hv
      have h8 := mul_right_cancel₀ h6.ne' hv
      have : m = 2 ^ 53 - 1 := by
        have : ((m + 1 : ℕ) : ℚ) = ((2 ^ 53 : ℕ) : ℚ) := by push_cast; linarith
        have := Nat.cast_injective this
        omega
      omega

/-- Floats above `2 ^ 52 * 2 ^ q`. -/
theorem float_above {m : Nat} {e q : Int} (hf : IsFloat f64 m e) (hq : -1074 < q) (h : 2 ^ 52 * 2 ^ q < val m e) :
    (2 ^ 52 + 1) * 2 ^ q ≤ val m e ∧ (val m e = (2 ^ 52 + 1) * 2 ^ q → m % 2 = 1) := by
  obtain ⟨h1, h2, h3, h4⟩ := hf
  simp only [f64] at h1 h2 h3 h4
  have hm : (m : ℚ) ≤ 2 ^ 53 - 1 := by
    have : ((m + 1 : ℕ) : ℚ) ≤ ((2 ^ 53 : ℕ) : ℚ) := by exact_mod_cast h1
    push_cast at this
    linarith
  have hqp := zpow_pos2 q
  have heq : q ≤ e := by
    by_contra hc
    have h5 := zpow_mono (by omega : e ≤ q - 1)
    have h6 : (2 : ℚ) ^ q = 2 * 2 ^ (q - 1) := by
      rw [show q = (q - 1) + 1 by ring, zpow_add_one₀ (by norm_num)]; ring_nf
    have h7 : (m : ℚ) * 2 ^ e ≤ (2 ^ 53 - 1) * 2 ^ (q - 1) := mul_le_mul hm h5 (zpow_pos2 e).le (by norm_num)
    have h8 := zpow_pos2 (q - 1)
    unfold val at h
    rw [h6] at h
    nlinarith
  unfold val at h ⊢
  rcases Int.lt_or_le q e with hlt | hge
  · have h5 : 2 ^ 52 ≤ m := by
      rcases h4 with h4 | h4
      · exact h4
      · omega
    have h6 : (2 ^ 52 : ℚ) ≤ m := by exact_mod_cast h5
    have h7 := zpow_mono (by omega : q + 1 ≤ e)
    have h8 : (2 : ℚ) ^ (q + 1) = 2 * 2 ^ q := by rw [zpow_add_one₀ (by norm_num)]; ring
    rw [h8] at h7
    have h9 : (2 ^ 52 : ℚ) * (2 * 2 ^ q) ≤ m * 2 ^ e := mul_le_mul h6 h7 (by positivity) (by positivity)
    exact ⟨by nlinarith, fun hv => by exfalso; nlinarith⟩
  · have : e = q := by omega
    subst this
    have h5 : (2 ^ 52 : ℚ) < m := lt_of_mul_lt_mul_right h hqp.le
    have h6 : 2 ^ 52 < m := by exact_mod_cast h5
    have h7 : ((2 ^ 52 + 1 : ℕ) : ℚ) ≤ m := by exact_mod_cast h6
    push_cast at h7
    refine ⟨mul_le_mul_of_nonneg_right (by linarith) hqp.le, fun hv => ?_⟩
    have h8 := mul_right_cancel₀ hqp.ne' hv
    have h9 : m = 2 ^ 52 + 1 := by
      have : (m : ℚ) = ((2 ^ 52 + 1 : ℕ) : ℚ) := by push_cast; linarith
      exact Nat.cast_injective this
    omega

theorem isFloat_at {q : Int} (h1 : -1074 ≤ q) (h2 : q ≤ 971) {m : Nat} (h3 : 2 ^ 52 ≤ m) (h4 : m < 2 ^ 53) : IsFloat f64 m q :=
  ⟨h4, h1, h2, .inl h3⟩

/-- Rounding reaches `2 ^ 52 * 2 ^ q` from half a unit below on. -/
theorem nearest_reach {x : ℚ} {m : Nat} {e q : Int} (h : Nearest f64 x (.fin m e)) (h1 : -1074 < q) (h2 : q ≤ 971) :
    2 ^ 52 * 2 ^ q ≤ val m e ↔ 2 ^ 52 * 2 ^ q - 2 ^ (q - 1) / 2 ≤ x := by
  have hp := zpow_pos2 (q - 1)
  have hq : (2 : ℚ) ^ q = 2 * 2 ^ (q - 1) := by
    rw [show q = (q - 1) + 1 by ring, zpow_add_one₀ (by norm_num)]; ring_nf
  have f1 := h.2.2 _ _ (isFloat_at (by omega) h2 (le_refl _) (by norm_num) : IsFloat f64 (2 ^ 52) q)
  have f2 := h.2.2 _ _ (isFloat_at (by omega) (by omega) (by norm_num) (by norm_num) : IsFloat f64 (2 ^ 53 - 1) (q - 1))
  have v1 : val (2 ^ 52) q = 2 ^ 52 * 2 ^ q := by unfold val; push_cast; rfl
  have v2 : val (2 ^ 53 - 1) (q - 1) = (2 ^ 53 - 1) * 2 ^ (q - 1) := by unfold val; norm_num
  rw [v1] at f1
  rw [v2] at f2
  constructor
  · intro hv
    by_contra hc
    have hc := not_le.1 hc
    have f2 := f2.1
    rw [abs_of_nonneg (by linarith)] at f2
    rcases le_total x ((2 ^ 53 - 1) * 2 ^ (q - 1)) with hx | hx
    · rw [abs_of_nonneg (by linarith)] at f2
      rw [hq] at hv
      nlinarith
    · rw [abs_of_nonpos (by linarith)] at f2
      rw [hq] at hv hc
      nlinarith
  · intro hx
    by_contra hc
    have hc := not_le.1 hc
    obtain ⟨g1, g2⟩ := float_below h.1 h1 hc
    rcases le_total (2 ^ 52 * 2 ^ q) x with hx2 | hx2
    · have f1 := f1.1
      rw [abs_of_nonpos (by linarith), abs_of_nonpos (by linarith)] at f1
      linarith
    · have e1 : |2 ^ 52 * 2 ^ q - x| = 2 ^ 52 * 2 ^ q - x := abs_of_nonneg (by linarith)
      have e2 : |val m e - x| = x - val m e := by
        rw [abs_of_nonpos]
        · ring
        · rw [hq] at hx
          nlinarith
      rw [e1, e2] at f1
      have hv : val m e = (2 ^ 53 - 1) * 2 ^ (q - 1) := by
        have := f1.1
        rw [hq] at this hx
        nlinarith
      have hodd := g2 hv
      have heven := f1.2 (by rw [hv, hq] at *; nlinarith [f1.1]) (by
        rintro ⟨⟩
        rw [v1] at hc
        exact lt_irrefl _ hc)
      omega

/-- Rounding leaves `2 ^ 52 * 2 ^ q` from more than half a unit above on. -/
theorem nearest_leave {x : ℚ} {m : Nat} {e q : Int} (h : Nearest f64 x (.fin m e)) (h1 : -1074 < q) (h2 : q ≤ 971) :
    val m e ≤ 2 ^ 52 * 2 ^ q ↔ x ≤ 2 ^ 52 * 2 ^ q + 2 ^ q / 2 := by
  have hp := zpow_pos2 q
  have f1 := h.2.2 _ _ (isFloat_at (by omega) h2 (le_refl _) (by norm_num) : IsFloat f64 (2 ^ 52) q)
  have f2 := h.2.2 _ _ (isFloat_at (by omega) h2 (by norm_num) (by norm_num) : IsFloat f64 (2 ^ 52 + 1) q)
  have v1 : val (2 ^ 52) q = 2 ^ 52 * 2 ^ q := by unfold val; push_cast; rfl
  have v2 : val (2 ^ 52 + 1) q = (2 ^ 52 + 1) * 2 ^ q := by unfold val; norm_num
  rw [v1] at f1
  rw [v2] at f2
  constructor
  · intro hv
    by_contra hc
    have hc := not_le.1 hc
    have f2 := f2.1
    rw [abs_of_nonpos (by linarith)] at f2
    rcases le_total x ((2 ^ 52 + 1) * 2 ^ q) with hx | hx
    · rw [abs_of_nonneg (by linarith)] at f2
      nlinarith
    · rw [abs_of_nonpos (by linarith)] at f2
      nlinarith
  · intro hx
    by_contra hc
    have hc := not_le.1 hc
    obtain ⟨g1, g2⟩ := float_above h.1 h1 hc
    rcases le_total x (2 ^ 52 * 2 ^ q) with hx2 | hx2
    · have f1 := f1.1
      rw [abs_of_nonneg (by linarith), abs_of_nonneg (by linarith)] at f1
      linarith
    · have e1 : |2 ^ 52 * 2 ^ q - x| = x - 2 ^ 52 * 2 ^ q := by rw [abs_of_nonpos (by linarith)]; ring
      have e2 : |val m e - x| = val m e - x := abs_of_nonneg (by nlinarith)
      rw [e1, e2] at f1
      have hv : val m e = (2 ^ 52 + 1) * 2 ^ q := by
        have := f1.1
        nlinarith
      have hodd := g2 hv
      have heven := f1.2 (by rw [hv] at *; nlinarith [f1.1]) (by
        rintro ⟨⟩
        rw [v1] at hc
        exact lt_irrefl _ hc)
      omega

/-- A natural number is rounded to a natural number. -/
theorem nearest_nat {n : Nat} {m : Nat} {e : Int} (h : Nearest f64 (n : ℚ) (.fin m e)) : ∃ k : Nat, val m e = k ∧ (k = 0 ↔ n = 0) := by
  rcases Nat.lt_or_ge (2 ^ 53) n with hn | hn
  · have hv := nearest_ge h (m' := 2 ^ 52) (e' := 1) ⟨by decide, by decide, by decide, .inl (by decide)⟩ (by
      have : val (2 ^ 52) 1 = ((2 ^ 53 : ℕ) : ℚ) := by unfold val; norm_num
      rw [this]; exact_mod_cast hn.le)
    have hv1 : val (2 ^ 52) 1 = 2 ^ 53 := by unfold val; norm_num
    rw [hv1] at hv
    have he : 0 ≤ e := by
      by_contra hc
      have h1 : (m : ℚ) < 2 ^ 53 := by exact_mod_cast h.1.1
      have h2 : (2 : ℚ) ^ e ≤ 2 ^ (0 : ℤ) := zpow_mono (by omega)
      have h3 : (m : ℚ) * 2 ^ e ≤ m * 2 ^ (0 : ℤ) := mul_le_mul_of_nonneg_left h2 (by positivity)
      unfold val at hv
      simp at h3
      linarith
    obtain ⟨k, rfl⟩ := Int.eq_ofNat_of_zero_le he
    refine ⟨m * 2 ^ k, by unfold val; push_cast; simp, ?_⟩
    have : 0 < val m k := by linarith [show (0 : ℚ) < 2 ^ 53 by norm_num]
    have hm : m ≠ 0 := by rintro rfl; simp [val] at this
    simp [hm]
    omega
  · obtain ⟨m', e', h1, h2⟩ := nat_isFloat hn
    have := (h.2.2 m' e' h1).1
    rw [h2, sub_self, abs_zero] at this
    have := abs_eq_zero.1 (le_antisymm this (abs_nonneg _))
    exact ⟨n, by linarith, Iff.rfl⟩

end Verif.Props
