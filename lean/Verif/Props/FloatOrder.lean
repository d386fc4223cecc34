import Verif.Props.FormatFloat

/-!
# Numbers: equal numbers and larger numbers (C118)
-/

namespace Verif.Props
open Verif Verif.Float Verif.Spec Verif.NumJson

/-- The order of magnitudes. -/
def MagLe : Mag → Mag → Prop
  | _, .inf => True
  | .inf, .fin _ _ => False
  | .fin m e, .fin m' e' => val m e ≤ val m' e'

/-- Numerals that are left to strconv: integers, long fractions, large exponents. -/
def Left (x : NumText) : Prop :=
  (x.fp = none ∧ x.ex = none) ∨ (18 < x.frac.length ∧ x.ex = none) ∨ (x.OneSign ∧ 300 < x.expAbs ∧ x.expAbs < 2 ^ 63 ∧ x.Handy)

theorem left_nearest {x : NumText} (hx : x.Ok) (h : Left x) : ∃ r, parseFloat x.text = .num x.neg r ∧ Nearest f64 x.value r := by
  rcases h with ⟨h1, h2⟩ | ⟨h1, h2⟩ | ⟨h1, h2, h3, h4⟩
  · exact C43_integers_partial x hx h1 h2
  · exact C43_long_fraction_partial x hx h1 h2
  · exact C43_large_exponent_partial x hx h1 h2 h3 h4

theorem nearest_mono {F : Fmt} (hF : F.Ok) {a b : ℚ} (ha : 0 ≤ a) (hab : a ≤ b) {r s : Mag} (hr : Nearest F a r) (hs : Nearest F b s) : MagLe r s := by
  cases s with
  | inf => cases r <;> trivial
  | fin m' e' =>
    cases r with
    | inf => exact absurd hs.2.1 (not_lt.2 (le_trans hr hab))
    | fin m e =>
      change val m e ≤ val m' e'
      by_contra hc
      have := Strconv.nearest_lt hF (ha.trans hab) hs hr (not_le.1 hc)
      linarith

/-- **C118 (partial)**, for numerals that are integers, have a fraction of more than 18 digits or an exponent above 300: the greater number is not read as a
smaller float, and equal numbers are read as one float. Missing: the other numerals, for which it is false (`C118_false`); see C118_far_partial. -/
theorem C118_order_partial (x y : NumText) (hx : x.Ok) (hy : y.Ok) (lx : Left x) (ly : Left y) :
    ∃ r s, parseFloat x.text = .num x.neg r ∧ parseFloat y.text = .num y.neg s ∧ (x.value ≤ y.value → MagLe r s) ∧ (x.value = y.value → r = s) := by
  obtain ⟨r, h1, h2⟩ := left_nearest hx lx
  obtain ⟨s, h3, h4⟩ := left_nearest hy ly
  have hv : 0 ≤ x.value := by unfold NumText.value; positivity
  exact ⟨r, s, h1, h3, fun h => nearest_mono f64_ok hv h h2 h4, fun h => Strconv.nearest_same f64_ok hv h2 (h ▸ h4)⟩

/-- **C118 (partial)**, for numerals of moderate size (as in C63): a number that is greater by a 2^47th part is not read as a smaller float. Missing: numbers
that are closer, for which it is false (`C118_false`). -/
theorem C118_far_partial (x y : NumText) (hx : x.Ok) (hy : y.Ok)
    (sx : natOf x.ip < 2 ^ 64 ∧ natOf x.frac < 2 ^ 64 ∧ x.ip.length ≤ 300 ∧ x.frac.length ≤ 300 ∧ x.expAbs ≤ 300)
    (sy : natOf y.ip < 2 ^ 64 ∧ natOf y.frac < 2 ^ 64 ∧ y.ip.length ≤ 300 ∧ y.frac.length ≤ 300 ∧ y.expAbs ≤ 300)
    (rx : x.value = 0 ∨ (10 ^ (-307 : ℤ) ≤ x.value ∧ x.value ≤ 10 ^ 308)) (ry : y.value = 0 ∨ (10 ^ (-307 : ℤ) ≤ y.value ∧ y.value ≤ 10 ^ 308))
    (h : x.value * (1 + 1 / 2 ^ 47) ≤ y.value) :
    ∃ m e m' e', parseFloat x.text = .num x.neg (.fin m e) ∧ parseFloat y.text = .num y.neg (.fin m' e') ∧ val m e ≤ val m' e' := by
  obtain ⟨m, e, h1, _, h2⟩ := C63_error x hx sx.1 sx.2.1 sx.2.2.1 sx.2.2.2.1 sx.2.2.2.2 rx
  obtain ⟨m', e', h3, _, h4⟩ := C63_error y hy sy.1 sy.2.1 sy.2.2.1 sy.2.2.2.1 sy.2.2.2.2 ry
  refine ⟨m, e, m', e', h1, h3, ?_⟩
  have hv : 0 ≤ x.value := by unfold NumText.value; positivity
  have h5 := (abs_le.1 h2).2
  have h6 := (abs_le.1 h4).1
  norm_num at h h5 h6 ⊢
  linarith

/-- C118 is false as stated: 0.3 and 0.30 are read as different floats, and 0.3 as a greater float than the greater number 0.3000000000000000000001. -/
theorem C118_false : ∃ (x y z : NumText) (m m' : Nat) (e : Int), x.Ok ∧ y.Ok ∧ z.Ok ∧ x.text = b!"0.3" ∧ y.text = b!"0.30" ∧
    z.text = b!"0.3000000000000000000001" ∧ x.value = y.value ∧ x.value < z.value ∧ parseFloat x.text = .num false (.fin m e) ∧
    parseFloat y.text = .num false (.fin m' e) ∧ parseFloat z.text = .num false (.fin m' e) ∧ val m' e < val m e := by
  have h0 : natOf b!"0" = 0 := by decide
  have h1 : natOf b!"3" = 3 := by decide
  have h2 : natOf b!"30" = 30 := by decide
  have h3 : natOf b!"3000000000000000000001" = 3000000000000000000001 := by decide
  refine ⟨⟨false, b!"0", some b!"3", none⟩, ⟨false, b!"0", some b!"30", none⟩, ⟨false, b!"0", some b!"3000000000000000000001", none⟩,
    5404319552844596, 5404319552844595, -54, ?_, ?_, ?_, rfl, rfl, rfl, ?_, ?_, by decide +kernel, by decide +kernel, by decide +kernel, ?_⟩
  · exact ⟨⟨by simp, by unfold IsDigitByte; decide⟩, by rintro f ⟨⟩; exact ⟨by simp, by unfold IsDigitByte; decide⟩, by simp⟩
  · exact ⟨⟨by simp, by unfold IsDigitByte; decide⟩, by rintro f ⟨⟩; exact ⟨by simp, by unfold IsDigitByte; decide⟩, by simp⟩
  · exact ⟨⟨by simp, by unfold IsDigitByte; decide⟩, by rintro f ⟨⟩; exact ⟨by simp, by unfold IsDigitByte; decide⟩, by simp⟩
  · simp only [NumText.value, NumText.exp, NumText.expNeg, NumText.expAbs, NumText.frac, Option.getD_some, h0, h1, h2]
    norm_num
  · simp only [NumText.value, NumText.exp, NumText.expNeg, NumText.expAbs, NumText.frac, Option.getD_some, h0, h1, h3]
    norm_num
  · unfold val
    exact mul_lt_mul_of_pos_right (by norm_num) (two_zpow_pos (-54))

-- a long integer and a long fraction
example : ∃ x y : NumText, x.Ok ∧ y.Ok ∧ Left x ∧ Left y ∧ x.text = b!"90000000000000000001" ∧ y.text = b!"90000000000000000001.0000000000000000001" := by
  refine ⟨⟨false, b!"90000000000000000001", none, none⟩, ⟨false, b!"90000000000000000001", some b!"0000000000000000001", none⟩, ?_, ?_, .inl ⟨rfl, rfl⟩,
    .inr (.inl ⟨by decide, rfl⟩), rfl, rfl⟩
  · exact ⟨⟨by simp, by unfold IsDigitByte; decide⟩, by simp, by simp⟩
  · exact ⟨⟨by simp, by unfold IsDigitByte; decide⟩, by rintro f ⟨⟩; exact ⟨by simp, by unfold IsDigitByte; decide⟩, by simp⟩

-- 0.3 and 0.31 are far enough from each other
example : ∃ x y : NumText, x.Ok ∧ y.Ok ∧ x.text = b!"0.3" ∧ y.text = b!"0.31" ∧ natOf x.frac < 2 ^ 64 ∧ natOf y.frac < 2 ^ 64 ∧
    (10 ^ (-307 : ℤ) ≤ x.value ∧ x.value ≤ 10 ^ 308) ∧ x.value * (1 + 1 / 2 ^ 47) ≤ y.value := by
  have h0 : natOf b!"0" = 0 := by decide
  have h1 : natOf b!"3" = 3 := by decide
  have h2 : natOf b!"31" = 31 := by decide
  have hx : NumText.value ⟨false, b!"0", some b!"3", none⟩ = 3 / 10 := by
    simp only [NumText.value, NumText.exp, NumText.expNeg, NumText.expAbs, NumText.frac, Option.getD_some, h0, h1]
    norm_num
  have hy : NumText.value ⟨false, b!"0", some b!"31", none⟩ = 31 / 100 := by
    simp only [NumText.value, NumText.exp, NumText.expNeg, NumText.expAbs, NumText.frac, Option.getD_some, h0, h2]
    norm_num
  refine ⟨⟨false, b!"0", some b!"3", none⟩, ⟨false, b!"0", some b!"31", none⟩, ?_, ?_, rfl, rfl, by decide, by decide, ?_, ?_⟩
  · exact ⟨⟨by simp, by unfold IsDigitByte; decide⟩, by rintro f ⟨⟩; exact ⟨by simp, by unfold IsDigitByte; decide⟩, by simp⟩
  · exact ⟨⟨by simp, by unfold IsDigitByte; decide⟩, by rintro f ⟨⟩; exact ⟨by simp, by unfold IsDigitByte; decide⟩, by simp⟩
  · rw [hx]
    constructor
    · have : (10 : ℚ) ^ (-307 : ℤ) ≤ 10 ^ (-1 : ℤ) := zpow_le_zpow_right₀ (by norm_num) (by norm_num)
      refine this.trans (by norm_num)
    · exact le_trans (by norm_num) (one_le_pow₀ (by norm_num : (1 : ℚ) ≤ 10) (n := 308))
  · rw [hx, hy]; norm_num

end Verif.Props
