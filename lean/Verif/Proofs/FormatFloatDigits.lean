import Verif.Proofs.FormatFloatPick
import Verif.Proofs.NumErr

/-! # Shortest decimals: the digits -/

namespace Verif.Strconv
open Verif Verif.Float Verif.Spec Verif.Unjson

theorem formatUint_length {n : Nat} (h : n ≠ 0) : 10 ^ ((formatUint n).length - 1) ≤ n ∧ n < 10 ^ (formatUint n).length := by
  obtain ⟨h1, h2, h3⟩ := formatUint_spec n
  constructor
  · obtain ⟨c, cs, hc⟩ := List.exists_cons_of_ne_nil h3.1
    rw [hc] at h1 h2 h3 ⊢
    rcases h1 with h1 | ⟨_, h1⟩
    · rw [h1] at h2; simp [natOf] at h2; omega
    · simp only [natOf] at h2
      have hd := h3.2 c (by simp)
      simp at h1
      have : 1 ≤ c.toNat - 48 := by
        have h4 : c.toNat ≠ 48 := fun h => h1 (by rw [← UInt8.ofNat_toNat (x := c), h]; rfl)
        unfold IsDigitByte at hd
        have := hd.1
        omega
      simp only [List.length_cons, Nat.add_sub_cancel]
      nlinarith
  · have := NumJson.natOf_lt (NumJson.allDig_of h3)
    omega

theorem log10_spec {n d : Nat} (hn : n ≠ 0) (hd : 0 < d) : (10 : ℚ) ^ log10 n d ≤ n / d ∧ (n : ℚ) / d < 10 ^ (log10 n d + 1) := by
  have hdq : (0 : ℚ) < d := by exact_mod_cast hd
  have hnq : (0 : ℚ) < n := by exact_mod_cast Nat.pos_of_ne_zero hn
  unfold log10
  split
  · rename_i h
    have hq : n / d ≠ 0 := by
      have := Nat.div_pos h hd
      omega
    obtain ⟨l1, l2⟩ := formatUint_length hq
    have hl : 1 ≤ (formatUint (n / d)).length := List.length_pos_of_ne_nil (formatUint_spec _).2.2.1
    generalize (formatUint (n / d)).length = l at *
    rw [show ((l : ℤ) - 1 + 1) = (l : ℤ) by ring, show ((l : ℤ) - 1) = ((l - 1 : ℕ) : ℤ) by omega, zpow_natCast, zpow_natCast]
    constructor
    · rw [le_div_iff₀ hdq]
      have : 10 ^ (l - 1) * d ≤ n := (Nat.mul_le_mul_right d l1).trans (Nat.div_mul_le_self n d)
      exact_mod_cast this
    · rw [div_lt_iff₀ hdq]
      have : n < 10 ^ l * d := by
        rw [Nat.mul_comm]
        exact (Nat.lt_mul_div_succ n hd).trans_le (Nat.mul_le_mul_left d l2)
      exact_mod_cast this
  · rename_i h
    have hnp : 0 < n := Nat.pos_of_ne_zero hn
    have hq : (d - 1) / n ≠ 0 := by
      have := Nat.div_pos (a := d - 1) (b := n) (by omega) hnp
      omega
    obtain ⟨l1, l2⟩ := formatUint_length hq
    have hl : 1 ≤ (formatUint ((d - 1) / n)).length := List.length_pos_of_ne_nil (formatUint_spec _).2.2.1
    generalize (formatUint ((d - 1) / n)).length = l at *
    rw [show (-(l : ℤ) + 1) = -((l - 1 : ℕ) : ℤ) by omega, zpow_neg, zpow_neg, zpow_natCast, zpow_natCast]
    constructor
    · rw [inv_le_iff_one_le_mul₀ (by positivity), div_mul_eq_mul_div, le_div_iff₀ hdq, one_mul]
      have h1 : d - 1 < n * (d - 1) / n + n := by
        rw [Nat.mul_div_cancel_left _ hnp]; omega
      have h2 : d - 1 < n * ((d - 1) / n + 1) := Nat.lt_mul_div_succ _ hnp
      have h3 : n * ((d - 1) / n + 1) ≤ n * 10 ^ l := Nat.mul_le_mul_left n l2
      have : d ≤ n * 10 ^ l := by omega
      exact_mod_cast this
    · rw [lt_inv_comm₀ (by positivity) (by positivity), inv_div, lt_div_iff₀ hnq]
      have h1 : 10 ^ (l - 1) * n ≤ d - 1 := (Nat.mul_le_mul_right n l1).trans (Nat.div_mul_le_self _ n)
      have : 10 ^ (l - 1) * n < d := by omega
      exact_mod_cast this

/-- seventeen digits are enough for formats with up to 53 bits -/
theorem search_ends {F : Fmt} (hp : F.p ≤ 53) {m : Nat} {e : Int} (h : IsFloat F m e) (h0 : m ≠ 0) {K : Int} (hK : (10 : ℚ) ^ K ≤ val m e) :
    pick F m e (K - (16 : ℕ)) ≠ none := by
  refine pick_ends h0 ?_
  have he := two_zpow_pos e
  have h1 : (10 : ℚ) ^ (K - (16 : ℕ)) ≤ val m e / 10 ^ 16 := by
    rw [zpow_sub₀ (by norm_num), zpow_natCast]
    gcongr
  refine h1.trans_lt ?_
  rw [div_lt_iff₀ (by positivity)]
  unfold gap
  split
  · rename_i hc
    have hm : (m : ℚ) ≤ 2 ^ 52 := by
      rw [hc.1]
      have : 2 ^ (F.p - 1) ≤ 2 ^ 52 := Nat.pow_le_pow_right (by norm_num) (by omega)
      exact_mod_cast this
    have := half_pow e
    have h2 : (2 : ℚ) ^ (e - 1) = 2 ^ e / 2 := by linarith
    rw [h2]
    unfold val
    nlinarith
  · have hm : (m : ℚ) < 2 ^ 53 := by
      have h2 : 2 ^ F.p ≤ 2 ^ 53 := Nat.pow_le_pow_right (by norm_num) hp
      have := h.1
      exact_mod_cast (by omega : m < 2 ^ 53)
    unfold val
    nlinarith

theorem in_pos {F : Fmt} {m : Nat} {e : Int} (h0 : m ≠ 0) {x : ℚ} (h : In F m e x) : 0 < x := by
  have h1 := (gap_le F m e).1
  have he := two_zpow_pos e
  have hm : (1 : ℚ) ≤ m := by exact_mod_cast Nat.pos_of_ne_zero h0
  have h2 : 2 ^ e ≤ val m e := by unfold val; nlinarith
  unfold In at h
  split at h
  · linarith [h.1]
  · linarith [h.1]

theorem multiple {a b : ℤ} (h : a ≤ b) (d : ℕ) : ∃ d' : ℕ, (d : ℚ) * 10 ^ b = d' * 10 ^ a := by
  obtain ⟨j, hj⟩ := Int.eq_ofNat_of_zero_le (a := b - a) (by omega)
  refine ⟨d * 10 ^ j, ?_⟩
  rw [show b = (j : ℤ) + a by omega, zpow_add₀ (by norm_num), zpow_natCast]
  push_cast; ring

theorem trim_id {ds : Bytes} (h : ds.getLast? ≠ some 48) : trim ds = ds := by
  unfold trim
  rcases List.eq_nil_or_concat ds with rfl | ⟨xs, x, rfl⟩
  · rfl
  · rw [List.concat_eq_append] at h ⊢
    simp at h
    simp [h]

theorem last_digit {n : Nat} (h : n % 10 ≠ 0) : (formatUint n).getLast? ≠ some 48 := by
  obtain ⟨_, h2, h3⟩ := formatUint_spec n
  rcases List.eq_nil_or_concat (formatUint n) with hc | ⟨xs, x, hc⟩
  · exact absurd hc h3.1
  · rw [hc, List.concat_eq_append] at h2 ⊢
    rw [NumJson.natOf_append] at h2
    simp [natOf] at h2
    simp
    rintro rfl
    simp at h2
    omega

/-- **the digits of a float**: those of its shortest decimal -/
theorem digits_spec {F : Fmt} (hF : F.Ok) (hp : F.p ≤ 53) {m : Nat} {e : Int} (h : IsFloat F m e) (h0 : m ≠ 0) :
    ∃ d k, ShortestDec F m e d k ∧ d < 10 ^ 17 ∧ digits F m e = (formatUint d, k + (formatUint d).length) := by
  obtain ⟨v1, v2⟩ := log10_spec (n := m * (pow2 e).1) (d := (pow2 e).2) (Nat.mul_ne_zero h0 (pow2_pos e).1.ne') (pow2_pos e).2
  rw [← val_frac] at v1 v2
  unfold digits
  rw [if_neg h0]
  simp only
  generalize log10 (m * (pow2 e).1) (pow2 e).2 = K at *
  obtain ⟨i, hi, r, hs, hr, hn⟩ := search_spec (F := F) (m := m) (e := e) 17 K ⟨16, by omega, search_ends hp h h0 v1⟩
  rw [hs]
  simp only
  obtain ⟨r1, r2, r3⟩ := pick_some h0 hr
  have nIn : ∀ x, Nearest F x (.fin m e) ↔ In F m e x := nearest_iff hF h h0
  have ht := ten_pos (K - i)
  have hT : (10 : ℚ) ^ (K + 1) = 10 ^ (i + 1) * 10 ^ (K - i) := by
    rw [← zpow_natCast, ← zpow_add₀ (by norm_num)]; congr 1; push_cast; ring
  have hT' : (10 : ℚ) ^ K = 10 ^ i * 10 ^ (K - i) := by
    rw [← zpow_natCast, ← zpow_add₀ (by norm_num)]; congr 1; ring
  have hr0 : r ≠ 0 := by
    rintro rfl
    have := in_pos h0 r1
    simp at this
  have hrle : r ≤ 10 ^ (i + 1) := by
    have h1 : (r : ℚ) * 10 ^ (K - i) < (10 ^ (i + 1) + 1) * 10 ^ (K - i) := by rw [add_mul, ← hT]; linarith
    have h2 := lt_of_mul_lt_mul_right h1 ht.le
    have : r < 10 ^ (i + 1) + 1 := by exact_mod_cast h2
    omega
  -- decimals with few digits
  have key : ∀ (d' : ℕ) (k' : ℤ), In F m e (d' * 10 ^ k') → d' < 10 ^ (i + 1) →
      (d' < 10 ^ i → i = 0) ∧ |(r : ℚ) * 10 ^ (K - i) - val m e| ≤ |(d' : ℚ) * 10 ^ k' - val m e| := by
    intro d' k' hin hlt
    refine ⟨fun hlt' => ?_, ?_⟩
    · by_contra hi0
      have hnone := hn (i - 1) (by omega)
      rw [show K - ((i - 1 : ℕ) : ℤ) = K - i + 1 by omega] at hnone
      by_cases hk : K - i + 1 ≤ k'
      · obtain ⟨d'', hd''⟩ := multiple hk d'
        rw [hd''] at hin
        exact pick_none h0 hnone _ hin
      · -- 10 ^ K is in between
        have h1 : (d' : ℚ) * 10 ^ k' ≤ 10 ^ K := by
          have h2 : (d' : ℚ) ≤ 10 ^ i := by exact_mod_cast hlt'.le
          have h3 : (10 : ℚ) ^ k' ≤ 10 ^ (K - i) := zpow_le_zpow_right₀ (by norm_num) (by omega)
          rw [hT']
          have := ten_pos k'
          gcongr
        have h2 := in_convex hin in_self h1 v1
        obtain ⟨d'', hd''⟩ := multiple (a := K - i + 1) (b := K) (by omega) 1
        rw [Nat.cast_one, one_mul] at hd''
        rw [hd''] at h2
        exact pick_none h0 hnone _ h2
    · by_cases hk : K - i ≤ k'
      · obtain ⟨d'', hd''⟩ := multiple hk d'
        rw [hd''] at hin ⊢
        exact (r2 d'' hin).1
      · have h1 : (d' : ℚ) * 10 ^ k' ≤ 10 ^ K := by
          have h2 : (d' : ℚ) ≤ 10 ^ (i + 1) := by exact_mod_cast hlt.le
          have h3 : (10 : ℚ) ^ k' ≤ 10 ^ (K - i - 1) := zpow_le_zpow_right₀ (by norm_num) (by omega)
          have h4 : (10 : ℚ) ^ K = 10 ^ (i + 1) * 10 ^ (K - i - 1) := by
            rw [← zpow_natCast, ← zpow_add₀ (by norm_num)]; congr 1; push_cast; ring
          rw [h4]
          have := ten_pos k'
          gcongr
        have h2 := in_convex hin in_self h1 v1
        obtain ⟨d'', hd''⟩ := multiple (a := K - i) (b := K) (by omega) 1
        rw [Nat.cast_one, one_mul] at hd''
        have h3 := (r2 d'' (hd'' ▸ h2)).1
        rw [← hd''] at h3
        refine h3.trans ?_
        rw [abs_of_nonpos (by linarith), abs_of_nonpos (by linarith)]
        linarith
  have short : ∀ (d' : ℕ) (k' : ℤ) (n : ℕ), In F m e (d' * 10 ^ k') → d' < 10 ^ n → i + 1 ≤ n := by
    intro d' k' n hin hlt
    by_contra hc
    have hlt' : d' < 10 ^ i := hlt.trans_le (Nat.pow_le_pow_right (by norm_num) (by omega))
    have hi0 := (key d' k' hin (hlt'.trans_le (Nat.pow_le_pow_right (by norm_num) (by omega)))).1 hlt'
    subst hi0
    have : d' = 0 := by simpa using hlt'
    subst this
    have := in_pos h0 hin
    simp at this
  by_cases h10 : r % 10 = 0
  · -- ten at the first position
    have hi0 : i = 0 := by
      by_contra hi0
      have hnone := hn (i - 1) (by omega)
      rw [show K - ((i - 1 : ℕ) : ℤ) = K - i + 1 by omega] at hnone
      refine pick_none h0 hnone (r / 10) ?_
      have : (r : ℚ) * 10 ^ (K - i) = ((r / 10 : ℕ) : ℚ) * 10 ^ (K - i + 1) := by
        rw [zpow_add₀ (by norm_num), zpow_one]
        have : (r : ℚ) = ((r / 10 : ℕ) : ℚ) * 10 := by
          have : r = r / 10 * 10 := by omega
          exact_mod_cast this
        rw [this]; ring
      rw [← this]; exact r1
    subst hi0
    have hr10 : r = 10 := by
      simp at hrle
      omega
    subst hr10
    simp only [Nat.cast_zero, sub_zero, zero_add, pow_one] at *
    have hv : ((10 : ℕ) : ℚ) * 10 ^ K = (1 : ℕ) * 10 ^ (K + 1) := by rw [zpow_add₀ (by norm_num), zpow_one]; push_cast; ring
    rw [hv] at r1 key
    refine ⟨1, K + 1, ⟨(nIn _).2 r1, ?_, ?_, ?_, by norm_num⟩, by norm_num, ?_⟩
    · intro d' k' n hin hlt
      have := short d' k' n ((nIn _).1 hin) hlt
      calc 1 < 10 ^ 1 := by norm_num
        _ ≤ 10 ^ n := Nat.pow_le_pow_right (by norm_num) this
    · intro d' k' hin hall
      exact (key d' k' ((nIn _).1 hin) (hall 1 (by norm_num))).2
    · intro d' hne hin heq
      exfalso
      have hin := (nIn _).1 hin
      have hd0 : d' ≠ 0 := by
        rintro rfl
        have := in_pos h0 hin
        simp at this
      have hd2 : (2 : ℚ) ≤ d' := by exact_mod_cast (by omega : 2 ≤ d')
      have hpos := ten_pos (K + 1)
      rw [Nat.cast_one, one_mul, abs_of_pos (by linarith), abs_of_pos (by nlinarith)] at heq
      nlinarith
    · have : formatUint 10 = [49, 48] := by decide
      have h1 : formatUint 1 = [49] := by decide
      rw [this, h1]
      simp [trim]
      ring
  · have hlt : r < 10 ^ (i + 1) := by
      refine lt_of_le_of_ne hrle ?_
      rintro rfl
      exact h10 (by rw [pow_succ]; simp)
    refine ⟨r, K - i, ⟨(nIn _).2 r1, ?_, ?_, ?_, h10⟩, hlt.trans_le (Nat.pow_le_pow_right (by norm_num) (by omega)), ?_⟩
    · intro d' k' n hin hlt'
      exact hlt.trans_le (Nat.pow_le_pow_right (by norm_num) (short d' k' n ((nIn _).1 hin) hlt'))
    · intro d' k' hin hall
      exact (key d' k' ((nIn _).1 hin) (hall _ hlt)).2
    · intro d' hne hin heq
      exact (r2 d' ((nIn _).1 hin)).2 hne heq
    · rw [trim_id (last_digit h10)]

end Verif.Strconv
