import Verif.Proofs.FormatFloat

/-! # Shortest decimals: the search -/

namespace Verif.Strconv
open Verif Verif.Float Verif.Spec Verif.Unjson

theorem pow10_val (k : Int) : ((pow10 k).1 : ℚ) / (pow10 k).2 = 10 ^ k := by
  unfold pow10
  split
  · rename_i h
    obtain ⟨j, rfl⟩ := Int.eq_ofNat_of_zero_le h
    simp
  · rename_i h
    obtain ⟨j, hj⟩ := Int.eq_ofNat_of_zero_le (a := -k) (by omega)
    have : k = -(j : Int) := by omega
    subst this
    simp

theorem pow10_pos (k : Int) : 0 < (pow10 k).1 ∧ 0 < (pow10 k).2 := by
  unfold pow10
  split <;> simp

theorem ten_pos (k : Int) : (0 : ℚ) < 10 ^ k := by positivity

theorem quarter (e : Int) : (2 : ℚ) ^ e = 4 * 2 ^ (e - 2) := by
  rw [zpow_split e 2]; simp; ring

theorem lower_val (F : Fmt) {m : Nat} {e : Int} (h0 : m ≠ 0) : (lower F m e : ℚ) * 2 ^ (e - 2) = val m e - gap F m e / 2 := by
  have h1 := quarter e
  have h2 : (2 : ℚ) ^ (e - 1) = 2 * 2 ^ (e - 2) := by rw [half_pow (e - 1)]; congr 2; ring
  unfold lower gap val
  split
  · rw [Nat.cast_sub (by omega), h1, h2]; push_cast; ring
  · rw [Nat.cast_sub (by omega), h1]; push_cast; ring

theorem upper_val (m : Nat) (e : Int) : (upper m : ℚ) * 2 ^ (e - 2) = val m e + 2 ^ e / 2 := by
  unfold upper val
  rw [quarter e]; push_cast; ring

theorem within_iff (m a b : Nat) : within m a b = true ↔ if m % 2 = 0 then a ≤ b else a < b := by
  unfold within; split <;> simp

/-- comparing fractions with the denominators of the model -/
theorem scale (u t : Nat × Nat) (hu : 0 < u.2) (ht : 0 < t.2) (a b : Nat) :
    (a * u.1 * t.2 ≤ b * (u.2 * t.1) ↔ (a : ℚ) * ((u.1 : ℚ) / u.2) ≤ b * ((t.1 : ℚ) / t.2)) ∧
    (a * u.1 * t.2 < b * (u.2 * t.1) ↔ (a : ℚ) * ((u.1 : ℚ) / u.2) < b * ((t.1 : ℚ) / t.2)) ∧
    (b * (u.2 * t.1) ≤ a * u.1 * t.2 ↔ (b : ℚ) * ((t.1 : ℚ) / t.2) ≤ a * ((u.1 : ℚ) / u.2)) ∧
    (b * (u.2 * t.1) < a * u.1 * t.2 ↔ (b : ℚ) * ((t.1 : ℚ) / t.2) < a * ((u.1 : ℚ) / u.2)) := by
  have h1 : (0 : ℚ) < u.2 := by exact_mod_cast hu
  have h2 : (0 : ℚ) < t.2 := by exact_mod_cast ht
  have e1 : (a : ℚ) * ((u.1 : ℚ) / u.2) = ((a * u.1 * t.2 : ℕ) : ℚ) / (u.2 * t.2) := by push_cast; field_simp
  have e2 : (b : ℚ) * ((t.1 : ℚ) / t.2) = ((b * (u.2 * t.1) : ℕ) : ℚ) / (u.2 * t.2) := by push_cast; field_simp
  have h3 : (0 : ℚ) < u.2 * t.2 := by positivity
  rw [e1, e2, div_le_div_iff_of_pos_right h3, div_lt_div_iff_of_pos_right h3, div_le_div_iff_of_pos_right h3, div_lt_div_iff_of_pos_right h3]
  refine ⟨?_, ?_, ?_, ?_⟩ <;> norm_cast

/-- what `pick` returns, in terms of numbers -/
theorem pick_cases (F : Fmt) {m : Nat} {e : Int} (h0 : m ≠ 0) (k : Int) : ∃ q : ℕ,
    (q : ℚ) * 10 ^ k ≤ val m e ∧ val m e < ((q + 1 : ℕ) : ℚ) * 10 ^ k ∧
    ((In F m e (q * 10 ^ k) ∧ In F m e ((q + 1 : ℕ) * 10 ^ k) ∧ ∃ r, pick F m e k = some r ∧ |(r : ℚ) - val m e / 10 ^ k| ≤ 1 / 2 ∧
        (|(r : ℚ) - val m e / 10 ^ k| = 1 / 2 → r % 2 = 0)) ∨
      (In F m e (q * 10 ^ k) ∧ ¬ In F m e ((q + 1 : ℕ) * 10 ^ k) ∧ pick F m e k = some q) ∨
      (¬ In F m e (q * 10 ^ k) ∧ In F m e ((q + 1 : ℕ) * 10 ^ k) ∧ pick F m e k = some (q + 1)) ∨
      (¬ In F m e (q * 10 ^ k) ∧ ¬ In F m e ((q + 1 : ℕ) * 10 ^ k) ∧ pick F m e k = none)) := by
  obtain ⟨u1, u2⟩ := pow2_pos (e - 2)
  obtain ⟨t1, t2⟩ := pow10_pos k
  have hu := pow2_val (e - 2)
  have ht := pow10_val k
  have hl := lower_val F (e := e) h0
  have hh := upper_val m e
  have hv : val m e = (4 * m : ℕ) * 2 ^ (e - 2) := by unfold val; rw [quarter e]; push_cast; ring
  have hv' : val m e / 10 ^ k = ((4 * m * (pow2 (e - 2)).1 * (pow10 k).2 : ℕ) : ℚ) / ((pow2 (e - 2)).2 * (pow10 k).1 : ℕ) := by
    rw [hv, ← hu, ← ht]
    have h1 : (0 : ℚ) < (pow2 (e - 2)).2 := by exact_mod_cast u2
    have h2 : (0 : ℚ) < (pow10 k).2 := by exact_mod_cast t2
    have h3 : (0 : ℚ) < (pow10 k).1 := by exact_mod_cast t1
    push_cast; field_simp
  have he := two_zpow_pos e
  have hg := gap_pos F m e
  unfold pick
  simp only
  generalize hU : pow2 (e - 2) = u at *
  generalize hT : pow10 k = t at *
  have hd : 0 < u.2 * t.1 := Nat.mul_pos u2 t1
  generalize hq : 4 * m * u.1 * t.2 / (u.2 * t.1) = q
  have hq1 : q * (u.2 * t.1) ≤ 4 * m * u.1 * t.2 := by rw [← hq]; exact Nat.div_mul_le_self _ _
  have hq2 : 4 * m * u.1 * t.2 < (q + 1) * (u.2 * t.1) := by
    rw [← hq, Nat.mul_comm (4 * m * u.1 * t.2 / (u.2 * t.1) + 1)]; exact Nat.lt_mul_div_succ _ hd
  have s1 := (scale u t u2 t2 (4 * m) q).2.2.1.1 hq1
  have s2 := (scale u t u2 t2 (4 * m) (q + 1)).2.1.1 hq2
  rw [hu, ht, ← hv] at s1 s2
  refine ⟨q, s1, s2, ?_⟩
  have o1 : within m (lower F m e * u.1 * t.2) (q * (u.2 * t.1)) = true ↔ In F m e (q * 10 ^ k) := by
    rw [within_iff, (scale u t u2 t2 (lower F m e) q).1, (scale u t u2 t2 (lower F m e) q).2.1, hu, ht, hl]
    unfold In
    split
    · exact ⟨fun h => ⟨h, by linarith⟩, fun h => h.1⟩
    · exact ⟨fun h => ⟨h, by linarith⟩, fun h => h.1⟩
  have o2 : within m ((q + 1) * (u.2 * t.1)) (upper m * u.1 * t.2) = true ↔ In F m e ((q + 1 : ℕ) * 10 ^ k) := by
    rw [within_iff, (scale u t u2 t2 (upper m) (q + 1)).2.2.1, (scale u t u2 t2 (upper m) (q + 1)).2.2.2, hu, ht, hh]
    unfold In
    split
    · exact ⟨fun h => ⟨by linarith, h⟩, fun h => h.2⟩
    · exact ⟨fun h => ⟨by linarith, h⟩, fun h => h.2⟩
  by_cases c1 : within m (lower F m e * u.1 * t.2) (q * (u.2 * t.1)) = true
  · by_cases c2 : within m ((q + 1) * (u.2 * t.1)) (upper m * u.1 * t.2) = true
    · refine .inl ⟨o1.1 c1, o2.1 c2, _, by rw [c1, c2]; rfl, ?_⟩
      rw [hv']
      exact divRound_spec hd
    · refine .inr (.inl ⟨o1.1 c1, fun h => c2 (o2.2 h), ?_⟩)
      rw [c1, (Bool.not_eq_true _).mp c2]; rfl
  · by_cases c2 : within m ((q + 1) * (u.2 * t.1)) (upper m * u.1 * t.2) = true
    · refine .inr (.inr (.inl ⟨fun h => c1 (o1.2 h), o2.1 c2, ?_⟩))
      rw [c2, (Bool.not_eq_true _).mp c1]; rfl
    · refine .inr (.inr (.inr ⟨fun h => c1 (o1.2 h), fun h => c2 (o2.2 h), ?_⟩))
      rw [(Bool.not_eq_true _).mp c2, (Bool.not_eq_true _).mp c1]; rfl

theorem pick_none {F : Fmt} {m : Nat} {e : Int} (h0 : m ≠ 0) {k : Int} (h : pick F m e k = none) (d : ℕ) : ¬ In F m e (d * 10 ^ k) := by
  obtain ⟨q, q1, q2, hc⟩ := pick_cases F (e := e) h0 k
  have ht := ten_pos k
  rcases hc with ⟨_, _, r, hr, _⟩ | ⟨_, _, hr⟩ | ⟨_, _, hr⟩ | ⟨n1, n2, _⟩
  · rw [h] at hr; cases hr
  · rw [h] at hr; cases hr
  · rw [h] at hr; cases hr
  · intro hd
    rcases Nat.lt_or_ge q d with hlt | hge
    · refine n2 (in_convex in_self hd q2.le ?_)
      have : ((q + 1 : ℕ) : ℚ) ≤ d := by exact_mod_cast hlt
      gcongr
    · refine n1 (in_convex hd in_self ?_ q1)
      have : (d : ℚ) ≤ q := by exact_mod_cast hge
      gcongr

theorem pick_some {F : Fmt} {m : Nat} {e : Int} (h0 : m ≠ 0) {k : Int} {d : Nat} (h : pick F m e k = some d) :
    In F m e (d * 10 ^ k) ∧ (∀ d' : ℕ, In F m e (d' * 10 ^ k) → |(d : ℚ) * 10 ^ k - val m e| ≤ |(d' : ℚ) * 10 ^ k - val m e| ∧
      (d' ≠ d → |(d : ℚ) * 10 ^ k - val m e| = |(d' : ℚ) * 10 ^ k - val m e| → d % 2 = 0)) ∧
    (d : ℚ) * 10 ^ k ≤ val m e + 10 ^ k := by
  obtain ⟨q, q1, q2, hc⟩ := pick_cases F (e := e) h0 k
  have ht := ten_pos k
  generalize (10 : ℚ) ^ k = T at *
  push_cast at q2
  rcases hc with ⟨i1, i2, r, hr, a1, a2⟩ | ⟨i1, i2, hr⟩ | ⟨i1, i2, hr⟩ | ⟨_, _, hr⟩
  · rw [h] at hr; cases hr
    have hy : ∀ c : ℕ, |(c : ℚ) * T - val m e| = |(c : ℚ) - val m e / T| * T := by
      intro c
      rw [show (c : ℚ) * T - val m e = ((c : ℚ) - val m e / T) * T by field_simp, abs_mul, abs_of_pos ht]
    have hqy : (q : ℚ) ≤ val m e / T := by rw [le_div_iff₀ ht]; exact q1
    have hqy' : val m e / T < q + 1 := by rw [div_lt_iff₀ ht]; exact q2
    have hdq : d = q ∨ d = q + 1 := by
      have h1 := abs_le.1 a1
      have h2 : (q : ℚ) < d + 1 := by linarith
      have h3 : (d : ℚ) < q + 2 := by linarith
      have h4 : q < d + 1 := by exact_mod_cast h2
      have h5 : d < q + 2 := by exact_mod_cast h3
      omega
    refine ⟨?_, fun d' _ => ?_, ?_⟩
    · rcases hdq with rfl | rfl <;> assumption
    · rw [hy, hy]
      have hn := nearest_int (a := d) (k := d') (y := val m e / T) (by exact_mod_cast a1)
      push_cast at hn
      refine ⟨by gcongr, fun hne heq => a2 ?_⟩
      have heq' := mul_right_cancel₀ ht.ne' heq
      -- two different integers equally near
      refine le_antisymm a1 ?_
      by_contra hlt
      push Not at hlt
      have h1 := abs_lt.1 hlt
      have h2 := abs_lt.1 (heq' ▸ hlt)
      have h3 : (d' : ℚ) < d + 1 := by linarith
      have h4 : (d : ℚ) < d' + 1 := by linarith
      have h5 : d' < d + 1 := by exact_mod_cast h3
      have h6 : d < d' + 1 := by exact_mod_cast h4
      omega
    · rcases hdq with rfl | rfl
      · linarith
      · push_cast; linarith
  · rw [h] at hr; obtain rfl : d = q := Option.some.inj hr
    refine ⟨i1, fun d' hd' => ?_, by linarith⟩
    have hle : d' ≤ d := by
      by_contra hc
      refine i2 (in_convex in_self hd' (by push_cast; exact q2.le) ?_)
      have : ((d + 1 : ℕ) : ℚ) ≤ d' := by exact_mod_cast Nat.lt_of_not_le hc
      gcongr
    have hle' : (d' : ℚ) * T ≤ d * T := by
      have : (d' : ℚ) ≤ d := by exact_mod_cast hle
      gcongr
    rw [abs_of_nonpos (by linarith), abs_of_nonpos (by linarith)]
    refine ⟨by linarith, fun hne heq => ?_⟩
    have : (d' : ℚ) = d := mul_right_cancel₀ ht.ne' (by linarith)
    exact absurd (by exact_mod_cast this) hne
  · rw [h] at hr; cases hr
    refine ⟨i2, fun d' hd' => ?_, by push_cast; linarith⟩
    have hle : q + 1 ≤ d' := by
      by_contra hc
      refine i1 (in_convex hd' in_self ?_ q1)
      have : (d' : ℚ) ≤ q := by exact_mod_cast (by omega : d' ≤ q)
      gcongr
    have hle' : ((q + 1 : ℕ) : ℚ) * T ≤ d' * T := by
      have : ((q + 1 : ℕ) : ℚ) ≤ d' := by exact_mod_cast hle
      gcongr
    have h2' : val m e < ((q + 1 : ℕ) : ℚ) * T := by push_cast; exact q2
    rw [abs_of_nonneg (by linarith), abs_of_nonneg (by linarith)]
    refine ⟨by linarith, fun hne heq => ?_⟩
    have : (d' : ℚ) = (q + 1 : ℕ) := mul_right_cancel₀ ht.ne' (by linarith)
    exact absurd (by exact_mod_cast this) hne
  · rw [h] at hr; cases hr

/-- the search ends when the step is smaller than the interval -/
theorem pick_ends {F : Fmt} {m : Nat} {e : Int} (h0 : m ≠ 0) {k : Int} (h : (10 : ℚ) ^ k < gap F m e / 2 + 2 ^ e / 2) : pick F m e k ≠ none := by
  obtain ⟨q, q1, q2, hc⟩ := pick_cases F (e := e) h0 k
  have he := two_zpow_pos e
  have hg := gap_pos F m e
  rcases hc with ⟨_, _, r, hr, _⟩ | ⟨_, _, hr⟩ | ⟨_, _, hr⟩ | ⟨n1, n2, _⟩
  · rw [hr]; simp
  · rw [hr]; simp
  · rw [hr]; simp
  · exfalso
    push_cast at n2 q2
    unfold In at n1 n2
    split at n1
    · rename_i hm
      rw [if_pos hm] at n2
      have h1 : (q : ℚ) * 10 ^ k < val m e - gap F m e / 2 := by
        by_contra hc
        exact n1 ⟨by linarith, by linarith⟩
      have h2 : val m e + 2 ^ e / 2 < (q + 1) * 10 ^ k := by
        by_contra hc
        exact n2 ⟨by linarith, by linarith⟩
      linarith
    · rename_i hm
      rw [if_neg hm] at n2
      have h1 : (q : ℚ) * 10 ^ k ≤ val m e - gap F m e / 2 := by
        by_contra hc
        exact n1 ⟨by linarith, by linarith⟩
      have h2 : val m e + 2 ^ e / 2 ≤ (q + 1) * 10 ^ k := by
        by_contra hc
        exact n2 ⟨by linarith, by linarith⟩
      linarith

/-- what the search returns, if it finds something in time -/
theorem search_spec {F : Fmt} {m : Nat} {e : Int} : ∀ (fuel : Nat) (k : Int), (∃ i < fuel, pick F m e (k - i) ≠ none) →
    ∃ i < fuel, ∃ d, search F m e fuel k = (d, k - i) ∧ pick F m e (k - i) = some d ∧ ∀ j < i, pick F m e (k - j) = none
  | 0, _, ⟨i, hi, _⟩ => by omega
  | fuel + 1, k, ⟨i, hi, hp⟩ => by
    unfold search
    cases hk : pick F m e k with
    | some d => exact ⟨0, by omega, d, by simp, by simpa using hk, by omega⟩
    | none =>
      have hi0 : i ≠ 0 := by rintro rfl; simp [hk] at hp
      obtain ⟨i', h1, d, h2, h3, h4⟩ := search_spec fuel (k - 1) ⟨i - 1, by omega, by
        rw [show k - 1 - ((i - 1 : ℕ) : ℤ) = k - i by omega]; exact hp⟩
      refine ⟨i' + 1, by omega, d, ?_, ?_, ?_⟩
      · simp only
        rw [h2]; congr 1; push_cast; ring
      · rw [show k - ((i' + 1 : ℕ) : ℤ) = k - 1 - i' by push_cast; ring]; exact h3
      · intro j hj
        rcases Nat.eq_zero_or_pos j with rfl | hj'
        · simpa using hk
        · rw [show k - (j : ℤ) = k - 1 - ((j - 1 : ℕ) : ℤ) by omega]; exact h4 _ (by omega)

end Verif.Strconv
