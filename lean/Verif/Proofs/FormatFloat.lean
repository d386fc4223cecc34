import Verif.Model.FormatFloat
import Verif.Spec.FormatFloat
import Verif.Proofs.Float
import Verif.Proofs.UnText

/-! # Shortest decimals: proofs -/

namespace Verif.Strconv
open Verif Verif.Float Verif.Spec Verif.Unjson

/-- the distance to the next smaller float -/
def gap (F : Fmt) (m : Nat) (e : Int) : ℚ := if m = 2 ^ (F.p - 1) ∧ e ≠ F.emin then 2 ^ (e - 1) else 2 ^ e

/-- the numbers that round to a float -/
def In (F : Fmt) (m : Nat) (e : Int) (x : ℚ) : Prop :=
  if m % 2 = 0 then val m e - gap F m e / 2 ≤ x ∧ x ≤ val m e + 2 ^ e / 2 else val m e - gap F m e / 2 < x ∧ x < val m e + 2 ^ e / 2

theorem half_pow (e : Int) : (2 : ℚ) ^ e = 2 * 2 ^ (e - 1) := by
  rw [zpow_split e 1]; simp; ring

theorem gap_pos (F : Fmt) (m : Nat) (e : Int) : 0 < gap F m e := by
  unfold gap; split <;> positivity

theorem gap_le (F : Fmt) (m : Nat) (e : Int) : gap F m e ≤ 2 ^ e ∧ 2 ^ e ≤ 2 * gap F m e := by
  unfold gap
  have := half_pow e
  have := two_zpow_pos (e - 1)
  split <;> constructor <;> linarith

theorem in_self {F : Fmt} {m : Nat} {e : Int} : In F m e (val m e) := by
  have := gap_pos F m e
  have := two_zpow_pos e
  unfold In
  split <;> constructor <;> linarith

theorem in_convex {F : Fmt} {m : Nat} {e : Int} {x y z : ℚ} (hx : In F m e x) (hz : In F m e z) (h1 : x ≤ y) (h2 : y ≤ z) : In F m e y := by
  unfold In at *
  split at hx
  · rename_i h
    rw [if_pos h] at hz ⊢
    exact ⟨hx.1.trans h1, h2.trans hz.2⟩
  · rename_i h
    rw [if_neg h] at hz ⊢
    exact ⟨hx.1.trans_le h1, h2.trans_lt hz.2⟩

/-- the next greater float is at least `2 ^ e` away -/
theorem spacing_up {F : Fmt} (hp : 1 ≤ F.p) {m m' : Nat} {e e' : Int} (h : IsFloat F m e) (h' : IsFloat F m' e') (hv : val m e < val m' e') :
    val m e + 2 ^ e ≤ val m' e' := by
  have h0 := two_zpow_pos e
  by_cases he : e ≤ e'
  · obtain ⟨k, hk, _⟩ := val_multiple (m' := m') he
    rw [hk] at hv ⊢
    unfold val at hv ⊢
    have h1 : (m : ℚ) < k := lt_of_mul_lt_mul_right hv h0.le
    have h2 : (m : ℚ) + 1 ≤ k := by
      have : m < k := by exact_mod_cast h1
      exact_mod_cast this
    nlinarith
  · exfalso
    have h1 := isFloat_lt h'
    have hm : 2 ^ (F.p - 1) ≤ m := by
      rcases h.2.2.2 with h | h'' <;> [exact h; (have := h'.2.1; omega)]
    have h2 : (2 : ℚ) ^ ((F.p : ℤ) - 1 + e) ≤ val m e := by
      unfold val
      rw [zpow_add₀ (by norm_num), show (F.p : ℤ) - 1 = ((F.p - 1 : ℕ) : ℤ) by omega, zpow_natCast]
      have : ((2 : ℚ) ^ (F.p - 1)) ≤ m := by exact_mod_cast hm
      gcongr
    have h4 : (2 : ℚ) ^ ((F.p : ℤ) + e') ≤ 2 ^ ((F.p : ℤ) - 1 + e) := zpow_le_zpow_right₀ (by norm_num) (by omega)
    linarith

/-- the next smaller float is at least `gap` away -/
theorem spacing_down {F : Fmt} (hp : 1 ≤ F.p) {m m' : Nat} {e e' : Int} (h : IsFloat F m e) (h' : IsFloat F m' e') (hv : val m' e' < val m e) :
    val m' e' ≤ val m e - gap F m e := by
  have h0 := two_zpow_pos e
  have hg := (gap_le F m e).1
  by_cases he : e ≤ e'
  · obtain ⟨k, hk, _⟩ := val_multiple (m' := m') he
    rw [hk] at hv ⊢
    unfold val at hv ⊢
    have h1 : (k : ℚ) < m := lt_of_mul_lt_mul_right hv h0.le
    have h2 : (k : ℚ) + 1 ≤ m := by
      have : k < m := by exact_mod_cast h1
      exact_mod_cast this
    nlinarith
  · have hne : e ≠ F.emin := by have := h'.2.1; omega
    have hm : 2 ^ (F.p - 1) ≤ m := by
      rcases h.2.2.2 with h | h'' <;> [exact h; exact absurd h'' hne]
    have hpp : (2 : ℚ) ^ F.p = 2 * 2 ^ (F.p - 1) := by
      rw [← pow_succ']; congr 1; omega
    have h1 : val m' e' ≤ (2 ^ F.p - 1) * 2 ^ e' := by
      unfold val
      have : (m' : ℚ) + 1 ≤ 2 ^ F.p := by exact_mod_cast h'.1
      have := two_zpow_pos e'
      nlinarith
    have h2 : (2 : ℚ) ^ e' ≤ 2 ^ (e - 1) := zpow_le_zpow_right₀ (by norm_num) (by omega)
    have h3 : (1 : ℚ) ≤ 2 ^ F.p := one_le_pow₀ (by norm_num)
    have h4 : val m' e' ≤ (2 ^ F.p - 1) * 2 ^ (e - 1) := by
      refine h1.trans ?_
      have : (0 : ℚ) ≤ 2 ^ F.p - 1 := by linarith
      gcongr
    have h5 := half_pow e
    have h6 := two_zpow_pos (e - 1)
    unfold gap
    split
    · rename_i hc
      unfold val at *
      have : (m : ℚ) = 2 ^ (F.p - 1) := by rw [hc.1]; push_cast; rfl
      rw [this, h5]
      nlinarith
    · rename_i hc
      have hm' : 2 ^ (F.p - 1) + 1 ≤ m := by
        rcases Nat.lt_or_eq_of_le hm with h | h
        · exact h
        · exact absurd ⟨h.symm, hne⟩ hc
      have : (2 : ℚ) ^ (F.p - 1) + 1 ≤ m := by exact_mod_cast hm'
      unfold val at *
      rw [h5]
      nlinarith

/-- the next greater float, if there is one -/
theorem next_float {F : Fmt} (hF : F.Ok) {m : Nat} {e : Int} (h : IsFloat F m e) :
    (∃ m' e', IsFloat F m' e' ∧ val m' e' = val m e + 2 ^ e) ∨ (m % 2 = 1 ∧ overflow F = val m e + 2 ^ e / 2) := by
  have hp := hF.1
  by_cases h1 : m + 1 < 2 ^ F.p
  · refine .inl ⟨m + 1, e, ⟨h1, h.2.1, h.2.2.1, ?_⟩, by unfold val; push_cast; ring⟩
    rcases h.2.2.2 with h | h
    · exact .inl (by omega)
    · exact .inr h
  · have hm : m + 1 = 2 ^ F.p := by have := h.1; omega
    have hpp : 2 ^ F.p = 2 * 2 ^ (F.p - 1) := by rw [← pow_succ']; congr 1; omega
    have hmq : (m : ℚ) + 1 = 2 ^ F.p := by exact_mod_cast hm
    have hppq : (2 : ℚ) ^ F.p = 2 * 2 ^ (F.p - 1) := by exact_mod_cast hpp
    by_cases h2 : e < F.emax
    · refine .inl ⟨2 ^ (F.p - 1), e + 1, ⟨?_, by have := h.2.1; omega, by omega, .inl le_rfl⟩, ?_⟩
      · exact Nat.pow_lt_pow_right (by omega) (by omega)
      · unfold val
        rw [zpow_add₀ (by norm_num), zpow_one]
        push_cast
        have : (m : ℚ) = 2 ^ F.p - 1 := by linarith
        rw [this, hppq]; ring
    · have he : e = F.emax := by have := h.2.2.1; omega
      refine .inr ⟨by omega, ?_⟩
      unfold overflow val
      rw [← he, ← hmq]; ring

/-- the next smaller float -/
theorem prev_float {F : Fmt} (hF : F.Ok) {m : Nat} {e : Int} (h : IsFloat F m e) (h0 : m ≠ 0) :
    ∃ m' e', IsFloat F m' e' ∧ val m' e' = val m e - gap F m e := by
  have hp := hF.1
  unfold gap
  split
  · rename_i hc
    refine ⟨2 ^ F.p - 1, e - 1, ⟨?_, by have := h.2.1; omega, by have := h.2.2.1; omega, .inl ?_⟩, ?_⟩
    · have : 0 < 2 ^ F.p := by positivity
      omega
    · have : 2 ^ F.p = 2 * 2 ^ (F.p - 1) := by rw [← pow_succ']; congr 1; omega
      have : 0 < 2 ^ (F.p - 1) := by positivity
      omega
    · unfold val
      have h1 : 1 ≤ 2 ^ F.p := Nat.one_le_two_pow
      have hppq : (2 : ℚ) ^ F.p = 2 * 2 ^ (F.p - 1) := by rw [← pow_succ']; congr 1; omega
      rw [hc.1, Nat.cast_sub h1, half_pow e]
      push_cast
      rw [hppq]; ring
  · rename_i hc
    refine ⟨m - 1, e, ⟨by have := h.1; omega, h.2.1, h.2.2.1, ?_⟩, ?_⟩
    · rcases h.2.2.2 with h1 | h1
      · by_cases he : e = F.emin
        · exact .inr he
        · refine .inl ?_
          have : m ≠ 2 ^ (F.p - 1) := fun hm => hc ⟨hm, he⟩
          omega
      · exact .inr h1
    · unfold val
      rw [Nat.cast_sub (by omega)]
      push_cast; ring

/-- a number rounds to a float exactly if it is in the interval -/
theorem nearest_iff {F : Fmt} (hF : F.Ok) {m : Nat} {e : Int} (h : IsFloat F m e) (h0 : m ≠ 0) (x : ℚ) : Nearest F x (.fin m e) ↔ In F m e x := by
  have hp : 1 ≤ F.p := by have := hF.1; omega
  have he := two_zpow_pos e
  have hg := gap_pos F m e
  constructor
  · rintro ⟨_, hx, hn⟩
    -- upper bound
    have hu : x ≤ val m e + 2 ^ e / 2 ∧ (m % 2 ≠ 0 → x ≠ val m e + 2 ^ e / 2) := by
      rcases next_float hF h with ⟨m', e', hf', hv'⟩ | ⟨hm, ho⟩
      · obtain ⟨h1, h2⟩ := hn m' e' hf'
        have hd : |val m' e' - x| = |val m e + 2 ^ e - x| := by rw [hv']
        constructor
        · by_contra hc
          push Not at hc
          rw [hd] at h1
          have h3 : |val m e - x| = x - val m e := by rw [abs_of_nonpos (by linarith)]; ring
          rw [h3] at h1
          rcases abs_cases (val m e + 2 ^ e - x) with ⟨h4, _⟩ | ⟨h4, _⟩ <;> rw [h4] at h1 <;> linarith
        · intro hm hxe
          refine hm (h2 ?_ ?_)
          · rw [hd, hxe, show val m e - (val m e + 2 ^ e / 2) = -(2 ^ e / 2) by ring, show val m e + 2 ^ e - (val m e + 2 ^ e / 2) = 2 ^ e / 2 by ring, abs_neg]
          · rintro ⟨⟩
            linarith
      · rw [ho] at hx
        exact ⟨hx.le, fun _ => hx.ne⟩
    have hl : val m e - gap F m e / 2 ≤ x ∧ (m % 2 ≠ 0 → x ≠ val m e - gap F m e / 2) := by
      obtain ⟨m', e', hf', hv'⟩ := prev_float hF h h0
      obtain ⟨h1, h2⟩ := hn m' e' hf'
      have hd : |val m' e' - x| = |val m e - gap F m e - x| := by rw [hv']
      constructor
      · by_contra hc
        push Not at hc
        rw [hd] at h1
        have h3 : |val m e - x| = val m e - x := abs_of_nonneg (by linarith)
        rw [h3] at h1
        rcases abs_cases (val m e - gap F m e - x) with ⟨h4, _⟩ | ⟨h4, _⟩ <;> rw [h4] at h1 <;> linarith
      · intro hm hxe
        refine hm (h2 ?_ ?_)
        · rw [hd, hxe, show val m e - (val m e - gap F m e / 2) = gap F m e / 2 by ring,
            show val m e - gap F m e - (val m e - gap F m e / 2) = -(gap F m e / 2) by ring, abs_neg]
        · rintro ⟨⟩
          linarith
    unfold In
    split
    · exact ⟨hl.1, hu.1⟩
    · rename_i hm
      exact ⟨lt_of_le_of_ne hl.1 (Ne.symm (hl.2 hm)), lt_of_le_of_ne hu.1 (hu.2 hm)⟩
  · intro hx
    have hb : val m e - gap F m e / 2 ≤ x ∧ x ≤ val m e + 2 ^ e / 2 := by
      unfold In at hx
      split at hx
      · exact hx
      · exact ⟨hx.1.le, hx.2.le⟩
    have ht : x = val m e - gap F m e / 2 ∨ x = val m e + 2 ^ e / 2 → m % 2 = 0 := by
      intro ht
      unfold In at hx
      split at hx
      · assumption
      · rcases ht with ht | ht <;> rw [ht] at hx
        · exact absurd hx.1 (lt_irrefl _)
        · exact absurd hx.2 (lt_irrefl _)
    refine ⟨h, ?_, fun m' e' h' => ?_⟩
    · rcases next_float hF h with ⟨m', e', hf', hv'⟩ | ⟨hm, ho⟩
      · have := isFloat_lt_overflow hf'
        linarith
      · rw [ho]
        exact lt_of_le_of_ne hb.2 fun hc => by have := ht (.inr hc); omega
    · rcases lt_trichotomy (val m' e') (val m e) with hv | hv | hv
      · have hs := spacing_down hp h h' hv
        have h3 : |val m' e' - x| = x - val m' e' := by rw [abs_of_nonpos (by linarith)]; ring
        rw [h3]
        rcases abs_cases (val m e - x) with ⟨h4, _⟩ | ⟨h4, _⟩
        · rw [h4]
          exact ⟨by linarith, fun hq _ => ht (.inl (by linarith))⟩
        · rw [h4]
          exact ⟨by linarith, fun hq _ => by linarith⟩
      · obtain ⟨rfl, rfl⟩ := val_inj hp h' h hv
        exact ⟨le_rfl, fun _ hc => absurd rfl hc⟩
      · have hs := spacing_up hp h h' hv
        have h3 : |val m' e' - x| = val m' e' - x := abs_of_nonneg (by linarith)
        rw [h3]
        rcases abs_cases (val m e - x) with ⟨h4, _⟩ | ⟨h4, _⟩
        · rw [h4]
          exact ⟨by linarith, fun hq _ => by linarith⟩
        · rw [h4]
          exact ⟨by linarith, fun hq _ => ht (.inr (by linarith))⟩

end Verif.Strconv
