import Verif.Spec.Float
import Mathlib.Tactic.Linarith
import Mathlib.Tactic.FieldSimp
import Mathlib.Tactic.Positivity
import Mathlib.Tactic.Ring
import Mathlib.Tactic.NormNum

/-! Correctness of `round`. -/

namespace Verif.Float

theorem pow2_val (e : Int) : ((pow2 e).1 : ℚ) / (pow2 e).2 = 2 ^ e := by
  unfold pow2
  split
  · rename_i h
    obtain ⟨k, rfl⟩ := Int.eq_ofNat_of_zero_le h
    simp
  · rename_i h
    obtain ⟨k, hk⟩ := Int.eq_ofNat_of_zero_le (a := -e) (by omega)
    have : e = -(k : Int) := by omega
    subst this
    simp

theorem pow2_pos (e : Int) : 0 < (pow2 e).1 ∧ 0 < (pow2 e).2 := by
  unfold pow2
  split <;> simp

theorem two_zpow_pos (e : Int) : (0 : ℚ) < 2 ^ e := by positivity

/-- nearest integer -/
theorem divRound_spec {n d : Nat} (hd : 0 < d) :
    |(divRound n d : ℚ) - n / d| ≤ 1 / 2 ∧ (|(divRound n d : ℚ) - n / d| = 1 / 2 → divRound n d % 2 = 0) := by
  have hdq : (0 : ℚ) < d := by exact_mod_cast hd
  have hdm : d * (n / d) + n % d = n := Nat.div_add_mod n d
  have hlt : n % d < d := Nat.mod_lt n hd
  unfold divRound
  simp only
  generalize hq : n / d = q at *
  generalize hr : n % d = r at *
  have hn : (n : ℚ) / d = q + r / d := by
    rw [← hdm]; push_cast; field_simp
  rw [hn]
  by_cases hc : 2 * r > d ∨ (2 * r = d ∧ q % 2 = 1)
  · rw [if_pos hc]
    have h1 : (d : ℚ) ≤ 2 * r := by
      have : d ≤ 2 * r := by omega
      exact_mod_cast this
    have h2 : (r : ℚ) < d := by exact_mod_cast hlt
    have e : ((q + 1 : Nat) : ℚ) - (q + r / d) = 1 - r / d := by push_cast; ring
    rw [e]
    have h3 : (r : ℚ) / d < 1 := (div_lt_one hdq).2 h2
    have h4 : (1 : ℚ) / 2 ≤ r / d := by rw [div_le_div_iff₀ (by norm_num) hdq]; linarith
    rw [abs_of_pos (by linarith)]
    refine ⟨by linarith, fun he => ?_⟩
    have h5 : (r : ℚ) / d = 1 / 2 := by linarith
    rw [div_eq_div_iff hdq.ne' (by norm_num)] at h5
    have h6 : r * 2 = 1 * d := by exact_mod_cast h5
    omega
  · rw [if_neg hc]
    have h1 : (2 : ℚ) * r ≤ d := by
      have : 2 * r ≤ d := by omega
      exact_mod_cast this
    have e : ((q : Nat) : ℚ) - (q + r / d) = -(r / d) := by ring
    rw [e, abs_neg]
    have h3 : (0 : ℚ) ≤ r / d := by positivity
    rw [abs_of_nonneg h3]
    have h4 : (r : ℚ) / d ≤ 1 / 2 := by rw [div_le_div_iff₀ hdq (by norm_num)]; linarith
    refine ⟨h4, fun he => ?_⟩
    rw [div_eq_div_iff hdq.ne' (by norm_num)] at he
    have h6 : r * 2 = 1 * d := by exact_mod_cast he
    omega

/-- an integer at distance at most 1/2 is nearest among the integers -/
theorem nearest_int {a k : ℤ} {y : ℚ} (h : |(a : ℚ) - y| ≤ 1 / 2) : |(a : ℚ) - y| ≤ |(k : ℚ) - y| := by
  by_cases hk : k = a
  · rw [hk]
  · have h1 : (1 : ℚ) ≤ |(k : ℚ) - a| := by
      have : (1 : ℤ) ≤ |k - a| := Int.one_le_abs (by omega)
      have : ((1 : ℤ) : ℚ) ≤ ((|k - a| : ℤ) : ℚ) := by exact_mod_cast this
      simpa using this
    have h2 : |(k : ℚ) - a| ≤ |(k : ℚ) - y| + |(a : ℚ) - y| := by
      have := abs_add_le ((k : ℚ) - y) (y - a)
      rw [show (k : ℚ) - y + (y - a) = k - a by ring, abs_sub_comm y] at this
      exact this
    linarith

theorem log2_bounds {n : Nat} (hn : n ≠ 0) : (2 : ℚ) ^ (Nat.log2 n : ℤ) ≤ n ∧ (n : ℚ) < 2 ^ ((Nat.log2 n : ℤ) + 1) := by
  have h1 := Nat.log2_self_le hn
  have h2 := Nat.lt_log2_self (n := n)
  constructor
  · rw [zpow_natCast]; exact_mod_cast h1
  · have : ((Nat.log2 n : ℤ) + 1) = ((Nat.log2 n + 1 : ℕ) : ℤ) := by push_cast; ring
    rw [this, zpow_natCast]; exact_mod_cast h2

/-- the rounding exponent: `2^(p-1+e) ≤ x < 2^(p+e)`, or `e` is the least exponent -/
theorem roundExp_spec (F : Fmt) {n d : Nat} (hn : n ≠ 0) (hd : 0 < d) :
    F.emin ≤ roundExp F n d ∧ (n : ℚ) / d < 2 ^ (F.p + roundExp F n d) ∧
    (roundExp F n d = F.emin ∨ (2 : ℚ) ^ (F.p - 1 + roundExp F n d) ≤ n / d) := by
  have hdq : (0 : ℚ) < d := by exact_mod_cast hd
  obtain ⟨n1, n2⟩ := log2_bounds hn
  obtain ⟨d1, d2⟩ := log2_bounds (Nat.pos_iff_ne_zero.1 hd)
  -- 2^(k-1) < x < 2^(k+1)
  have x2 : (n : ℚ) / d < 2 ^ ((Nat.log2 n : ℤ) - Nat.log2 d + 1) := by
    rw [div_lt_iff₀ hdq]
    calc (n : ℚ) < 2 ^ ((Nat.log2 n : ℤ) + 1) := n2
      _ = 2 ^ ((Nat.log2 n : ℤ) - Nat.log2 d + 1) * 2 ^ (Nat.log2 d : ℤ) := by
        rw [← zpow_add₀ (by norm_num)]; congr 1; ring
      _ ≤ _ := by gcongr
  have x1 : (2 : ℚ) ^ ((Nat.log2 n : ℤ) - Nat.log2 d - 1) < n / d := by
    rw [lt_div_iff₀ hdq]
    calc (2 : ℚ) ^ ((Nat.log2 n : ℤ) - Nat.log2 d - 1) * d < 2 ^ ((Nat.log2 n : ℤ) - Nat.log2 d - 1) * 2 ^ ((Nat.log2 d : ℤ) + 1) := by
          gcongr
      _ = 2 ^ (Nat.log2 n : ℤ) := by rw [← zpow_add₀ (by norm_num)]; congr 1; ring
      _ ≤ n := n1
  unfold roundExp
  simp only
  generalize he : max ((Nat.log2 n : Int) - Nat.log2 d - F.p) F.emin = e
  have hcmp : (n * (pow2 (e + F.p)).2 < d * (pow2 (e + F.p)).1) ↔ (n : ℚ) / d < 2 ^ (F.p + e) := by
    obtain ⟨w1, w2⟩ := pow2_pos (e + F.p)
    have w2q : (0 : ℚ) < (pow2 (e + F.p)).2 := by exact_mod_cast w2
    rw [add_comm (F.p : ℤ) e, ← pow2_val, div_lt_div_iff₀ hdq w2q, mul_comm ((pow2 (e + F.p)).1 : ℚ)]
    exact_mod_cast Iff.rfl
  by_cases hc : (n : ℚ) / d < 2 ^ (F.p + e)
  · rw [if_pos (hcmp.2 hc)]
    refine ⟨by omega, hc, ?_⟩
    by_cases hm : e = F.emin
    · exact Or.inl hm
    · right
      have hk : e = (Nat.log2 n : Int) - Nat.log2 d - F.p := by omega
      refine le_of_lt (lt_of_le_of_lt ?_ x1)
      apply zpow_le_zpow_right₀ (by norm_num)
      omega
  · rw [if_neg (fun h => hc (hcmp.1 h))]
    refine ⟨by omega, ?_, Or.inr ?_⟩
    · refine lt_of_lt_of_le x2 ?_
      apply zpow_le_zpow_right₀ (by norm_num)
      omega
    · rw [show (F.p : ℤ) - 1 + (e + 1) = F.p + e by ring]
      exact not_lt.1 hc

theorem val_nonneg (m : Nat) (e : Int) : 0 ≤ val m e := by unfold val; positivity

theorem zpow_split (a b : ℤ) : (2 : ℚ) ^ a = 2 ^ (a - b) * 2 ^ b := by
  rw [← zpow_add₀ (by norm_num)]; congr 1; ring

/-- a float with a larger exponent is an integer multiple -/
theorem val_multiple {m' : Nat} {e e' : Int} (h : e ≤ e') : ∃ k : ℕ, val m' e' = (k : ℚ) * 2 ^ e ∧ k = m' * 2 ^ (e' - e).toNat := by
  obtain ⟨j, hj⟩ := Int.eq_ofNat_of_zero_le (a := e' - e) (by omega)
  refine ⟨m' * 2 ^ j, ?_, by rw [hj]; simp⟩
  unfold val
  rw [zpow_split e' e, hj]
  push_cast
  rw [zpow_natCast]; ring

theorem isFloat_lt {F : Fmt} {m : Nat} {e : Int} (h : IsFloat F m e) : val m e < 2 ^ (F.p + e) := by
  unfold val
  rw [zpow_add₀ (by norm_num), zpow_natCast]
  have : (m : ℚ) < 2 ^ F.p := by exact_mod_cast h.1
  have := two_zpow_pos e
  gcongr

theorem isFloat_lt_overflow {F : Fmt} {m : Nat} {e : Int} (h : IsFloat F m e) : val m e < overflow F := by
  have h1 : (m : ℚ) + 1 ≤ 2 ^ F.p := by exact_mod_cast h.1
  have h2 : (2 : ℚ) ^ e ≤ 2 ^ F.emax := zpow_le_zpow_right₀ (by norm_num) h.2.2.1
  have h3 := two_zpow_pos e
  have hpq : (1 : ℚ) ≤ 2 ^ F.p := one_le_pow₀ (by norm_num)
  unfold val overflow
  calc (m : ℚ) * 2 ^ e < (2 ^ F.p - 1 / 2) * 2 ^ e := by
        have : (m : ℚ) < 2 ^ F.p - 1 / 2 := by linarith
        gcongr
    _ ≤ _ := by
        have : (0 : ℚ) < 2 ^ F.p - 1 / 2 := by linarith
        gcongr

theorem val_inj {F : Fmt} (hp : 1 ≤ F.p) {m m' : Nat} {e e' : Int} (h : IsFloat F m e) (h' : IsFloat F m' e') (hv : val m e = val m' e') :
    m = m' ∧ e = e' := by
  have key : ∀ {m m' : Nat} {e e' : Int}, IsFloat F m e → IsFloat F m' e' → val m e = val m' e' → ¬ e < e' := by
    intro m m' e e' h h' hv hlt
    have h1 : 2 ^ (F.p - 1) ≤ m' := by
      rcases h'.2.2.2 with h1 | h1
      · exact h1
      · have := h.2.1; omega
    have h2 : (2 : ℚ) ^ ((F.p : ℤ) - 1 + e') ≤ val m' e' := by
      unfold val
      rw [zpow_add₀ (by norm_num), show (F.p : ℤ) - 1 = ((F.p - 1 : ℕ) : ℤ) by omega, zpow_natCast]
      have : ((2 : ℚ) ^ (F.p - 1)) ≤ m' := by exact_mod_cast h1
      have := two_zpow_pos e'
      gcongr
    have h3 := isFloat_lt h
    rw [hv] at h3
    have h4 : (2 : ℚ) ^ ((F.p : ℤ) + e) ≤ 2 ^ ((F.p : ℤ) - 1 + e') := zpow_le_zpow_right₀ (by norm_num) (by omega)
    linarith
  have he : e = e' := by
    have h1 := key h h' hv
    have h2 := key h' h hv.symm
    omega
  subst he
  refine ⟨?_, rfl⟩
  unfold val at hv
  have := mul_right_cancel₀ (two_zpow_pos e).ne' hv
  exact_mod_cast this

theorem abs_scale (a x : ℚ) (e : Int) : |a * 2 ^ e - x| = |a - x / 2 ^ e| * 2 ^ e := by
  have h := two_zpow_pos e
  rw [show a * 2 ^ e - x = (a - x / 2 ^ e) * 2 ^ e by field_simp, abs_mul, abs_of_pos h]

/-- the mantissa computed by `round` before normalisation: nearest among all floats -/
theorem core (F : Fmt) (hp : 1 ≤ F.p) {n d : Nat} (hn : n ≠ 0) (hd : 0 < d) :
    let x : ℚ := n / d
    let e := roundExp F n d
    let w := pow2 e
    let m := divRound (n * w.2) (d * w.1)
    (|(m : ℚ) - x / 2 ^ e| ≤ 1 / 2 ∧ (|(m : ℚ) - x / 2 ^ e| = 1 / 2 → m % 2 = 0)) ∧
    (e ≠ F.emin → 2 ^ (F.p - 1) ≤ m) ∧ m ≤ 2 ^ F.p ∧
    ∀ m' e', IsFloat F m' e' → |(m : ℚ) * 2 ^ e - x| ≤ |val m' e' - x| ∧
      (|(m : ℚ) * 2 ^ e - x| = |val m' e' - x| → val m' e' ≠ m * 2 ^ e → m % 2 = 0 ∧ m' % 2 = 1) := by
  intro x e w m
  obtain ⟨e1, e2, e3⟩ := roundExp_spec F hn hd
  have hdq : (0 : ℚ) < d := by exact_mod_cast hd
  have hpe := two_zpow_pos e
  obtain ⟨w1, w2⟩ := pow2_pos e
  have w1q : (0 : ℚ) < w.1 := by exact_mod_cast w1
  have w2q : (0 : ℚ) < w.2 := by exact_mod_cast w2
  have hx : (0 : ℚ) < x := by
    have : (0 : ℚ) < n := by exact_mod_cast Nat.pos_of_ne_zero hn
    positivity
  have hy : ((n * w.2 : ℕ) : ℚ) / ((d * w.1 : ℕ) : ℚ) = x / 2 ^ e := by
    rw [← pow2_val]
    show _ = (n : ℚ) / d / ((w.1 : ℚ) / w.2)
    push_cast; field_simp
  have hm := divRound_spec (n := n * w.2) (d := d * w.1) (Nat.mul_pos hd w1)
  rw [hy] at hm
  have hm' : |(m : ℚ) - x / 2 ^ e| ≤ 1 / 2 ∧ (|(m : ℚ) - x / 2 ^ e| = 1 / 2 → m % 2 = 0) := hm
  have ylt : x / 2 ^ e < 2 ^ F.p := by
    rw [div_lt_iff₀ hpe]
    have := e2
    rw [zpow_add₀ (by norm_num), zpow_natCast] at this
    exact this
  have yge : e ≠ F.emin → (2 : ℚ) ^ (F.p - 1) ≤ x / 2 ^ e := by
    intro hne
    rw [le_div_iff₀ hpe]
    have := e3.resolve_left hne
    rw [zpow_add₀ (by norm_num), show (F.p : ℤ) - 1 = ((F.p - 1 : ℕ) : ℤ) by omega, zpow_natCast] at this
    exact this
  obtain ⟨ha, hb⟩ := abs_le.1 hm'.1
  have near : ∀ k : ℕ, |(m : ℚ) - x / 2 ^ e| ≤ |(k : ℚ) - x / 2 ^ e| := fun k => by
    have := nearest_int (a := (m : ℤ)) (k := (k : ℤ)) (y := x / 2 ^ e) (by exact_mod_cast hm'.1)
    exact_mod_cast this
  refine ⟨hm', fun hne => ?_, ?_, fun m' e' hf => ?_⟩
  · have h1 := yge hne
    have h2 : (2 : ℚ) ^ (F.p - 1) < m + 1 := by linarith
    have h3 : 2 ^ (F.p - 1) < m + 1 := by exact_mod_cast h2
    omega
  · have h2 : (m : ℚ) < 2 ^ F.p + 1 := by linarith
    have h3 : m < 2 ^ F.p + 1 := by exact_mod_cast h2
    omega
  · by_cases hle : e ≤ e'
    · obtain ⟨k, hk, hk'⟩ := val_multiple (m' := m') hle
      rw [hk, abs_scale, abs_scale]
      refine ⟨by have := near k; gcongr, fun heq hne => ?_⟩
      have heq := mul_right_cancel₀ hpe.ne' heq
      have hkm : k ≠ m := fun h => hne (by rw [h])
      have h1 : (1 : ℚ) ≤ |(k : ℚ) - m| := by
        have : (1 : ℤ) ≤ |(k : ℤ) - m| := Int.one_le_abs (by omega)
        have : ((1 : ℤ) : ℚ) ≤ ((|(k : ℤ) - m| : ℤ) : ℚ) := by exact_mod_cast this
        simpa using this
      have h2 : |(k : ℚ) - m| ≤ |(k : ℚ) - x / 2 ^ e| + |(m : ℚ) - x / 2 ^ e| := by
        have := abs_add_le ((k : ℚ) - x / 2 ^ e) (x / 2 ^ e - m)
        rw [show (k : ℚ) - x / 2 ^ e + (x / 2 ^ e - m) = k - m by ring, abs_sub_comm (x / 2 ^ e)] at this
        exact this
      have h3 : |(m : ℚ) - x / 2 ^ e| = 1 / 2 := by
        have := hm'.1
        rw [← heq] at h2
        linarith
      have hev := hm'.2 h3
      refine ⟨hev, ?_⟩
      -- k = m ± 1
      have h4 : |(k : ℚ) - m| ≤ 1 := by rw [← heq] at h2; linarith
      have h5 : |(k : ℤ) - m| ≤ 1 := by
        have : ((|(k : ℤ) - m| : ℤ) : ℚ) ≤ ((1 : ℤ) : ℚ) := by push_cast; exact h4
        exact_mod_cast this
      obtain ⟨h6, h7⟩ := abs_le.1 h5
      have hodd : k % 2 = 1 := by omega
      rcases Nat.eq_zero_or_pos (e' - e).toNat with hz | hz
      · rw [hz] at hk'; simp at hk'; rw [← hk']; exact hodd
      · exfalso
        obtain ⟨j, hj⟩ : ∃ j, (e' - e).toNat = j + 1 := ⟨_, (Nat.succ_pred_eq_of_pos hz).symm⟩
        rw [hj, pow_succ, ← mul_assoc] at hk'
        omega
    · have hne : e ≠ F.emin := by have := hf.2.1; omega
      have h1 := isFloat_lt hf
      have h2 : (2 : ℚ) ^ (F.p + e') ≤ 2 ^ (F.p - 1) * 2 ^ e := by
        rw [← zpow_natCast (2 : ℚ) (F.p - 1), ← zpow_add₀ (by norm_num)]
        exact zpow_le_zpow_right₀ (by norm_num) (by omega)
      have h3 := yge hne
      have h4 : val m' e' / 2 ^ e < 2 ^ (F.p - 1) := by rw [div_lt_iff₀ hpe]; linarith
      have h5 : |(m : ℚ) - x / 2 ^ e| < |val m' e' / 2 ^ e - x / 2 ^ e| := by
        have := near (2 ^ (F.p - 1))
        push_cast at this
        refine lt_of_le_of_lt this ?_
        rw [abs_of_nonpos (by linarith), abs_of_neg (by linarith)]
        linarith
      have h6 : |(m : ℚ) * 2 ^ e - x| < |val m' e' - x| := by
        have e1 : val m' e' = val m' e' / 2 ^ e * 2 ^ e := by field_simp
        rw [e1, abs_scale, abs_scale]
        gcongr
      exact ⟨h6.le, fun h => absurd h h6.ne⟩

/-- the two outcomes of `round` on a positive number, in terms of the mantissa before normalisation -/
theorem round_pos (F : Fmt) {n d : Nat} (hn : n ≠ 0) :
    round F n d = (if divRound (n * (pow2 (roundExp F n d)).2) (d * (pow2 (roundExp F n d)).1) = 2 ^ F.p
      then (if roundExp F n d + 1 > F.emax then .inf else .fin (2 ^ (F.p - 1)) (roundExp F n d + 1))
      else (if roundExp F n d > F.emax then .inf
        else .fin (divRound (n * (pow2 (roundExp F n d)).2) (d * (pow2 (roundExp F n d)).1)) (roundExp F n d))) := by
  unfold round; rw [if_neg hn]

theorem round_zero (F : Fmt) (d : Nat) : round F 0 d = .fin 0 F.emin := by unfold round; rw [if_pos rfl]

/-- `round` is rounding to nearest even. -/
theorem round_nearest (F : Fmt) (hF : F.Ok) (n : Nat) {d : Nat} (hd : 0 < d) : Nearest F (n / d) (round F n d) := by
  obtain ⟨hp, hem⟩ := hF
  have hpq : (1 : ℚ) ≤ 2 ^ F.p := one_le_pow₀ (by norm_num)
  have hov : 0 < overflow F := by
    unfold overflow
    have := two_zpow_pos F.emax
    have : (0 : ℚ) < 2 ^ F.p - 1 / 2 := by linarith
    positivity
  by_cases hn : n = 0
  · subst hn
    rw [round_zero]
    refine ⟨⟨by positivity, by omega, by omega, Or.inr rfl⟩, by simpa using hov, fun m' e' _ => ⟨?_, fun _ _ => rfl⟩⟩
    have := val_nonneg m' e'
    simpa [val] using this
  · obtain ⟨c1, c2, c3, c4⟩ := core F (by omega) hn hd
    obtain ⟨e1, e2, e3⟩ := roundExp_spec F hn hd
    rw [round_pos F hn]
    generalize roundExp F n d = e at *
    generalize divRound (n * (pow2 e).2) (d * (pow2 e).1) = m at *
    have hpe := two_zpow_pos e
    obtain ⟨ha, hb⟩ := abs_le.1 c1.1
    have hp1 : (2 : ℚ) ^ F.p = 2 ^ (F.p - 1) * 2 := by rw [← pow_succ]; congr 1; omega
    have emax_le : e ≤ F.emax → (2 : ℚ) ^ e ≤ 2 ^ F.emax := fun h => zpow_le_zpow_right₀ (by norm_num) h
    by_cases hm : m = 2 ^ F.p
    · rw [if_pos hm]
      have hy : (2 : ℚ) ^ F.p - 1 / 2 ≤ n / d / 2 ^ e := by
        have : (m : ℚ) = 2 ^ F.p := by rw [hm]; push_cast; rfl
        linarith
      rw [le_div_iff₀ hpe] at hy
      by_cases he : e + 1 > F.emax
      · rw [if_pos he]
        show overflow F ≤ _
        refine le_trans ?_ hy
        unfold overflow
        have : (2 : ℚ) ^ F.emax ≤ 2 ^ e := zpow_le_zpow_right₀ (by norm_num) (by omega)
        have : (0 : ℚ) < 2 ^ F.p - 1 / 2 := by linarith
        gcongr
      · rw [if_neg he]
        have hv : val (2 ^ (F.p - 1)) (e + 1) = m * 2 ^ e := by
          unfold val
          rw [hm, zpow_add₀ (by norm_num)]; push_cast; rw [hp1]; ring
        have hfl : IsFloat F (2 ^ (F.p - 1)) (e + 1) :=
          ⟨Nat.pow_lt_pow_right (by norm_num) (by omega), by omega, by omega, Or.inl (le_refl _)⟩
        refine ⟨hfl, ?_, fun m' e' hf => ?_⟩
        · unfold overflow
          rw [zpow_add₀ (by norm_num), zpow_natCast] at e2
          have h1 : (2 : ℚ) ^ e * 2 ≤ 2 ^ F.emax := by
            have : (2 : ℚ) ^ (e + 1) ≤ 2 ^ F.emax := zpow_le_zpow_right₀ (by norm_num) (by omega)
            rw [zpow_add₀ (by norm_num)] at this; simpa using this
          have h2 : (2 : ℚ) ^ F.p * 2 ^ e ≤ (2 ^ F.p - 1 / 2) * 2 ^ F.emax := by
            have h3 : (2 : ℚ) ^ F.p ≤ (2 ^ F.p - 1 / 2) * 2 := by linarith
            nlinarith
          linarith
        · rw [hv]
          obtain ⟨q1, q2⟩ := c4 m' e' hf
          refine ⟨q1, fun _ _ => ?_⟩
          obtain ⟨j, hj⟩ : ∃ j, F.p - 1 = j + 1 := ⟨F.p - 2, by omega⟩
          rw [hj, pow_succ]; omega
    · rw [if_neg hm]
      have hlt : m < 2 ^ F.p := by omega
      by_cases he : e > F.emax
      · rw [if_pos he]
        show overflow F ≤ _
        have h1 := e3.resolve_left (by omega)
        have h2 : (2 : ℚ) ^ (F.p + F.emax) ≤ 2 ^ ((F.p : ℤ) - 1 + e) := zpow_le_zpow_right₀ (by norm_num) (by omega)
        rw [zpow_add₀ (by norm_num), zpow_natCast] at h2
        unfold overflow
        have := two_zpow_pos F.emax
        nlinarith
      · rw [if_neg he]
        have hfl : IsFloat F m e := by
          refine ⟨hlt, e1, by omega, ?_⟩
          by_cases h : e = F.emin
          · exact Or.inr h
          · exact Or.inl (c2 h)
        have hv : val m e = m * 2 ^ e := rfl
        refine ⟨hfl, ?_, fun m' e' hf => ?_⟩
        · have h1 : (n : ℚ) / d / 2 ^ e < 2 ^ F.p - 1 / 2 := by
            rcases Nat.lt_or_ge (m + 1) (2 ^ F.p) with h | h
            · have : (m : ℚ) + 1 < 2 ^ F.p := by exact_mod_cast h
              linarith
            · have h2 : m + 1 = 2 ^ F.p := by omega
              have h3 : (m : ℚ) + 1 = 2 ^ F.p := by exact_mod_cast h2
              by_contra hc
              have h4 : |(m : ℚ) - n / d / 2 ^ e| = 1 / 2 := by
                rw [abs_of_nonpos (by linarith)]; linarith
              have h5 := c1.2 h4
              obtain ⟨j, hj⟩ : ∃ j, F.p = j + 1 := ⟨F.p - 1, by omega⟩
              rw [hj, pow_succ] at h2
              omega
          rw [div_lt_iff₀ hpe] at h1
          refine lt_of_lt_of_le h1 ?_
          unfold overflow
          have := emax_le (by omega)
          have : (0 : ℚ) < 2 ^ F.p - 1 / 2 := by linarith
          gcongr
        · rw [hv]
          obtain ⟨q1, q2⟩ := c4 m' e' hf
          refine ⟨q1, fun heq hne => ?_⟩
          by_cases hvv : val m' e' = m * 2 ^ e
          · exact absurd (val_inj (by omega) hfl hf (by rw [hv, hvv])) (fun h => hne (by rw [h.1, h.2]))
          · exact (q2 heq hvv).1

/-- and the only function that is. -/
theorem nearest_unique (F : Fmt) (hF : F.Ok) (n : Nat) {d : Nat} (hd : 0 < d) {r : Mag} (hr : Nearest F (n / d) r) : r = round F n d := by
  have h := round_nearest F hF n hd
  generalize hq : round F n d = q at h
  match r, q, hr, h with
  | .inf, .inf, _, _ => rfl
  | .inf, .fin m e, h1, h2 => exact absurd h2.2.1 (not_lt.2 h1)
  | .fin m e, .inf, h1, h2 => exact absurd h1.2.1 (not_lt.2 h2)
  | .fin m e, .fin m2 e2, h1, h2 =>
    by_contra hne
    have hne' : (m, e) ≠ (m2, e2) := fun h => hne (by cases h; rfl)
    obtain ⟨a1, a2⟩ := h1.2.2 m2 e2 h2.1
    obtain ⟨b1, b2⟩ := h2.2.2 m e h1.1
    have heq := le_antisymm b1 a1
    have hev := a2 heq.symm hne'
    have hvne : val m e ≠ val m2 e2 := fun h => by
      obtain ⟨h3, h4⟩ := val_inj (by have := hF.1; omega) h1.1 h2.1 h
      exact hne' (by rw [h3, h4])
    by_cases hn : n = 0
    · subst hn
      rw [round_zero] at hq
      cases hq
      have : val 0 F.emin = 0 := by simp [val]
      rw [this] at heq hvne
      simp at heq
      exact hvne (by simpa using heq.symm)
    · obtain ⟨c1, c2, c3, c4⟩ := core F (by have := hF.1; omega) hn hd
      obtain ⟨q1, q2⟩ := c4 m e h1.1
      have hv2 : val m2 e2 = (divRound (n * (pow2 (roundExp F n d)).2) (d * (pow2 (roundExp F n d)).1) : ℕ) * 2 ^ roundExp F n d := by
        rw [round_pos F hn] at hq
        by_cases hm : divRound (n * (pow2 (roundExp F n d)).2) (d * (pow2 (roundExp F n d)).1) = 2 ^ F.p
        · rw [if_pos hm] at hq
          by_cases he : roundExp F n d + 1 > F.emax
          · rw [if_pos he] at hq; cases hq
          · rw [if_neg he] at hq
            cases hq
            rw [hm]
            unfold val
            have hp1 : (2 : ℚ) ^ F.p = 2 ^ (F.p - 1) * 2 := by rw [← pow_succ]; congr 1; have := hF.1; omega
            rw [zpow_add₀ (by norm_num)]; push_cast; rw [hp1]; ring
        · rw [if_neg hm] at hq
          by_cases he : roundExp F n d > F.emax
          · rw [if_pos he] at hq; cases hq
          · rw [if_neg he] at hq
            cases hq
            rfl
      rw [← hv2] at q2
      have := (q2 heq hvne).2
      omega

/-- a number that is representable is not changed -/
theorem round_exact (F : Fmt) (hF : F.Ok) {n d m : Nat} {e : Int} (hd : 0 < d) (hf : IsFloat F m e) (hv : val m e = n / d) :
    round F n d = .fin m e := by
  refine (nearest_unique F hF n hd (r := .fin m e) ⟨hf, ?_, fun m' e' hf' => ⟨?_, fun h hne => ?_⟩⟩).symm
  · rw [← hv]
    exact isFloat_lt_overflow hf
  · rw [hv]; simp
  · rw [hv] at h
    simp at h
    have h2 : val m' e' = val m e := by rw [hv]; linarith [abs_eq_zero.1 h.symm]
    obtain ⟨h3, h4⟩ := val_inj (by have := hF.1; omega) hf' hf h2
    exact absurd (by rw [h3, h4]) hne

end Verif.Float
