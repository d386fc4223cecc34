import Verif.Props.FormatFloat

/-!
# What the other claims assume of strconv holds of its model

GoFloats, Floats64, ZeroText, Shortest32 and ShortestTexts are the hypotheses about strconv.AppendFloat under which claims on Marshal, on the generator
and on SetFloat are proved. They hold of Strconv.formatFloat.
-/

namespace Verif.Props
open Verif Verif.Float Verif.Spec Verif.Unjson Verif.Gen

theorem digits_or (F : Fmt) (m : Nat) (e : Int) : Strconv.digits F m e = ([], 0) ∨ Strconv.Good (Strconv.digits F m e).1 := by
  rcases Strconv.digits_good F m e with h | h
  · exact .inl h.1
  · exact .inr h.1

theorem eNum_form (neg : Bool) (d : Bytes × Int) (h : d = ([], 0) ∨ Strconv.Good d.1) : RfcInt (Strconv.eNum neg d).ip ∧
    ∃ (sg : UInt8) (ds : Bytes), (Strconv.eNum neg d).ex = some (101, [sg], ds) ∧ 2 ≤ ds.length := by
  obtain ⟨ds, p⟩ := d
  rcases h with h | h
  · cases h
    exact ⟨.inl rfl, _, _, rfl, (Strconv.expDigits_spec _).2.2.1⟩
  · obtain ⟨c, cs, hc, h1, h2⟩ := Strconv.good_head h
    simp only at hc
    subst hc
    refine ⟨.inr ⟨⟨by simp [Strconv.eNum], ?_⟩, ?_⟩, _, _, rfl, (Strconv.expDigits_spec _).2.2.1⟩
    · simpa [Strconv.eNum] using h2
    · simpa [Strconv.eNum] using h1

/-- strconv's texts with bit size 32 are as documented. -/
theorem strconv_goFloats {U : Univ} (hU : U.fmtFloat = Strconv.formatFloat) : U.GoFloats where
  plain neg m e hi := by
    cases hx : NumJson.toF32 (.fin m e) with
    | inf => exact absurd hx hi
    | fin m' e' =>
      have hp := Strconv.fNum_plain neg (digits_or f32 m' e')
      exact ⟨_, hp.ok, hp.int, hp.ex, by rw [hU, format32 neg hx, if_neg (show ¬ (102 : UInt8) = 101 by decide), Strconv.fmtF_text]⟩
  exp neg m e hi := by
    cases hx : NumJson.toF32 (.fin m e) with
    | inf => exact absurd hx hi
    | fin m' e' =>
      obtain ⟨h1, sg, ds, h2, h3⟩ := eNum_form neg _ (digits_or f32 m' e')
      exact ⟨_, sg, ds, Strconv.eNum_ok neg (digits_or f32 m' e'), h1, h2, h3, by rw [hU, format32 neg hx, if_pos rfl, Strconv.fmtE_text]⟩
  over neg m e c hi := by rw [hU]; unfold Strconv.formatFloat; simp only [if_true, hi]
  single neg m e c := by rw [hU]; unfold Strconv.formatFloat; simp only [if_true, Unjson.toF32_idem]

/-- strconv's texts with bit size 64 are as documented. -/
theorem strconv_floats64 {U : Univ} (hU : U.fmtFloat = Strconv.formatFloat) : Floats64 U where
  plain neg m e := by
    have hp := Strconv.fNum_plain neg (digits_or f64 m e)
    exact ⟨_, hp.ok, hp.int, hp.ex, by rw [hU, format64, if_neg (show ¬ (102 : UInt8) = 101 by decide), Strconv.fmtF_text]⟩
  exp neg m e := by
    obtain ⟨h1, sg, ds, h2, h3⟩ := eNum_form neg _ (digits_or f64 m e)
    exact ⟨_, sg, ds, Strconv.eNum_ok neg (digits_or f64 m e), h1, h2, h3, by rw [hU, format64, if_pos rfl, Strconv.fmtE_text]⟩
  inf neg c := by rw [hU]; rfl
  nan c := by rw [hU]; rfl

theorem strconv_zeroText {U : Univ} (hU : U.fmtFloat = Strconv.formatFloat) : U.ZeroText := by
  unfold Univ.ZeroText; rw [hU]; decide +kernel

theorem nearest_zero {F : Fmt} (hF : F.Ok) : Nearest F 0 (.fin 0 F.emin) := by
  have := round_nearest F hF 0 (d := 1) (by decide)
  rw [round_zero] at this
  simpa using this

/-- the values of both texts round to the float -/
theorem nums_nearest {F : Fmt} (hF : F.Ok) (hp : F.p ≤ 53) (neg : Bool) {m : Nat} {e : Int} (h : IsFloat F m e) :
    Nearest F (Strconv.fNum neg (Strconv.digits F m e)).value (.fin m e) ∧ Nearest F (Strconv.eNum neg (Strconv.digits F m e)).value (.fin m e) := by
  rcases Strconv.digits_good F m e with ⟨hd, rfl⟩ | ⟨hg, h0⟩
  · have he : e = F.emin := by
      rcases h.2.2.2 with h | h
      · exact absurd h (by simp)
      · exact h
    subst he
    rw [hd]
    have h1 : (Strconv.fNum neg ([], 0)).value = 0 := by simp [Strconv.fNum, NumText.value, NumText.frac, natOf]
    have h2 : (Strconv.eNum neg ([], 0)).value = 0 := by simp [Strconv.eNum, NumText.value, NumText.frac, natOf]
    rw [h1, h2]
    exact ⟨nearest_zero hF, nearest_zero hF⟩
  · rw [Strconv.fNum_value neg hg, Strconv.eNum_value neg hg]
    exact ⟨Strconv.dec_nearest hF hp h h0, Strconv.dec_nearest hF hp h h0⟩

theorem strconv_shortest32 {U : Univ} (hU : U.fmtFloat = Strconv.formatFloat) (neg : Bool) {m : Nat} {e : Int} (hi : NumJson.toF32 (.fin m e) ≠ .inf) :
    Shortest32 U neg m e := by
  cases hx : NumJson.toF32 (.fin m e) with
  | inf => exact absurd hx hi
  | fin m' e' =>
    have hN := (toF32_nearest m e _).2 hx.symm
    obtain ⟨n1, n2⟩ := nums_nearest Unjson.f32_ok (by decide) neg hN.1
    obtain ⟨h1, sg, ds, h2, h3⟩ := eNum_form neg _ (digits_or f32 m' e')
    have hp := Strconv.fNum_plain neg (digits_or f32 m' e')
    exact ⟨⟨_, hp.ok, hp.ex, by rw [hU, format32 neg hx, if_neg (show ¬ (102 : UInt8) = 101 by decide), Strconv.fmtF_text], rfl, hx ▸ n1⟩,
      ⟨_, sg, ds, Strconv.eNum_ok neg (digits_or f32 m' e'), h2, h3, by rw [hU, format32 neg hx, if_pos rfl, Strconv.fmtE_text], Strconv.eNum_neg _ _, hx ▸ n2⟩⟩

theorem expDigits_le {n : Nat} (h : n < 1000) : (Strconv.expDigits n).length ≤ 3 := by
  unfold Strconv.expDigits
  split
  · rename_i h10
    by_cases h0 : n = 0
    · subst h0; decide
    · have := (Strconv.formatUint_length h0).1
      by_contra hc
      simp only [List.length_cons] at hc
      have : 10 ^ 1 ≤ 10 ^ ((formatUint n).length - 1) := Nat.pow_le_pow_right (by norm_num) (by omega)
      omega
  · have := (Strconv.formatUint_length (n := n) (by omega)).1
    by_contra hc
    have : 10 ^ 3 ≤ 10 ^ ((formatUint n).length - 1) := Nat.pow_le_pow_right (by norm_num) (by omega)
    omega

/-- the exponents of float64 have at most three digits -/
theorem point_small {m : Nat} {e : Int} (h : IsFloat f64 m e) (h0 : m ≠ 0) : ((Strconv.digits f64 m e).2 - 1).natAbs < 1000 := by
  have hg : Strconv.Good (Strconv.digits f64 m e).1 := by
    rcases Strconv.digits_good f64 m e with ⟨_, h⟩ | ⟨h, _⟩
    · exact absurd h h0
    · exact h
  have hN := Strconv.dec_nearest NumJson.f64_ok (by decide) h h0
  have hin := (Strconv.nearest_iff NumJson.f64_ok h h0 _).1 hN
  obtain ⟨g1, g2⟩ := Strconv.good_pos hg
  have hl := List.length_pos_of_ne_nil hg.digs.1
  unfold Strconv.dec at hin
  generalize (Strconv.digits f64 m e).2 = p at *
  generalize (Strconv.digits f64 m e).1.length = l at *
  generalize natOf (Strconv.digits f64 m e).1 = D at *
  have hgap := (Strconv.gap_le f64 m e).1
  have he := two_zpow_pos e
  have hm1 : (1 : ℚ) ≤ m := by exact_mod_cast Nat.pos_of_ne_zero h0
  have hm2 : (m : ℚ) < 2 ^ 53 := by exact_mod_cast h.1
  have hb : val m e / 2 ≤ D * 10 ^ (p - l) ∧ (D : ℚ) * 10 ^ (p - l) ≤ 2 * val m e := by
    have hv : 2 ^ e ≤ val m e := by unfold val; nlinarith
    unfold Strconv.In at hin
    split at hin
    · constructor <;> linarith [hin.1, hin.2]
    · constructor <;> linarith [hin.1, hin.2]
  have q1 : (10 : ℚ) ^ (l - 1) ≤ D := by exact_mod_cast g1
  have q2 : (D : ℚ) < 10 ^ l := by exact_mod_cast g2
  have w1 : (10 : ℚ) ^ (p - 1) = 10 ^ (l - 1) * 10 ^ (p - l) := by
    rw [← zpow_natCast, ← zpow_add₀ (by norm_num)]; congr 1; omega
  have w2 : (10 : ℚ) ^ p = 10 ^ l * 10 ^ (p - l) := by
    rw [← zpow_natCast, ← zpow_add₀ (by norm_num)]; congr 1; omega
  have w5 := Strconv.ten_pos (p - l)
  have up : (10 : ℚ) ^ (p - 1) < 10 ^ (400 : ℤ) := by
    have e1 : (2 : ℚ) ^ e ≤ 2 ^ (971 : ℤ) := zpow_le_zpow_right₀ (by norm_num) h.2.2.1
    have e2 : val m e < 2 ^ 53 * 2 ^ (971 : ℤ) := by
      unfold val
      exact mul_lt_mul hm2 e1 he (by norm_num)
    have e3 : (2 : ℚ) * (2 ^ 53 * 2 ^ (971 : ℤ)) < 10 ^ (400 : ℤ) := by
      have a1 : (2 : ℚ) * (2 ^ 53 * 2 ^ (971 : ℤ)) = ((2 ^ 1025 : ℕ) : ℚ) := by
        rw [show (971 : ℤ) = ((971 : ℕ) : ℤ) from rfl, zpow_natCast]; push_cast; rw [← pow_add, ← pow_succ']
      have a2 : (10 : ℚ) ^ (400 : ℤ) = ((10 ^ 400 : ℕ) : ℚ) := by
        rw [show (400 : ℤ) = ((400 : ℕ) : ℤ) from rfl, zpow_natCast]; push_cast; rfl
      rw [a1, a2]
      exact_mod_cast (by decide +kernel : 2 ^ 1025 < 10 ^ 400)
    calc (10 : ℚ) ^ (p - 1) ≤ D * 10 ^ (p - l) := by rw [w1]; gcongr
      _ ≤ 2 * val m e := hb.2
      _ < 2 * (2 ^ 53 * 2 ^ (971 : ℤ)) := mul_lt_mul_of_pos_left e2 two_pos
      _ < _ := e3
  have lo : (10 : ℚ) ^ (-400 : ℤ) < 10 ^ p := by
    have e1 : (2 : ℚ) ^ (-1074 : ℤ) ≤ 2 ^ e := zpow_le_zpow_right₀ (by norm_num) h.2.1
    have e2 : (2 : ℚ) ^ (-1074 : ℤ) ≤ val m e := by unfold val; nlinarith
    have e3 : (10 : ℚ) ^ (-400 : ℤ) < 2 ^ (-1074 : ℤ) / 2 := by
      have a1 : (2 : ℚ) ^ (-1074 : ℤ) / 2 = ((2 ^ 1075 : ℕ) : ℚ)⁻¹ := by
        rw [zpow_neg, show (1074 : ℤ) = ((1074 : ℕ) : ℤ) from rfl, zpow_natCast, Nat.cast_pow, show 1075 = 1074 + 1 from rfl, pow_succ _ 1074, mul_inv,
          div_eq_mul_inv]
        rfl
      have a2 : (10 : ℚ) ^ (-400 : ℤ) = ((10 ^ 400 : ℕ) : ℚ)⁻¹ := by
        rw [zpow_neg, show (400 : ℤ) = ((400 : ℕ) : ℤ) from rfl, zpow_natCast]; push_cast; rfl
      rw [a1, a2]
      exact inv_strictAnti₀ (by exact_mod_cast Nat.pow_pos (by norm_num)) (by exact_mod_cast (by decide +kernel : 2 ^ 1075 < 10 ^ 400))
    calc (10 : ℚ) ^ (-400 : ℤ) < 2 ^ (-1074 : ℤ) / 2 := e3
      _ ≤ val m e / 2 := div_le_div_of_nonneg_right e2 two_pos.le
      _ ≤ D * 10 ^ (p - l) := hb.1
      _ ≤ 10 ^ p := by rw [w2]; gcongr
  have p1 := (zpow_lt_zpow_iff_right₀ (by norm_num : (1 : ℚ) < 10)).1 up
  have p2 := (zpow_lt_zpow_iff_right₀ (by norm_num : (1 : ℚ) < 10)).1 lo
  omega

theorem strconv_shortestTexts (neg : Bool) {m : Nat} {e : Int} (h : IsFloat f64 m e) :
    ShortestTexts neg m e (Strconv.formatFloat (.num neg (.fin m e)) 64) := by
  obtain ⟨n1, n2⟩ := nums_nearest NumJson.f64_ok (by decide) neg h
  have hp := Strconv.fNum_plain neg (digits_or f64 m e)
  refine ⟨⟨_, hp.ok, rfl, hp.ex, by rw [format64, if_neg (show ¬ (102 : UInt8) = 101 by decide), Strconv.fmtF_text], n1, ?_⟩, fun h0 => ?_⟩
  · intro hfp
    unfold Strconv.fNum at hfp ⊢
    simp only at hfp ⊢
    split at hfp
    · rename_i hlt
      split
      · have h0 : m ≠ 0 := by
          rintro rfl
          simp [Strconv.digits] at hlt
        obtain ⟨_, _, _, _, _, hl⟩ := Strconv.digits_dec NumJson.f64_ok (by decide) h h0
        simp only [List.length_append, List.length_take, List.length_replicate]
        omega
      · simp
    · exact absurd rfl hfp
  · obtain ⟨_, _, _, _, _, hl⟩ := Strconv.digits_dec NumJson.f64_ok (by decide) h h0
    have hg : Strconv.Good (Strconv.digits f64 m e).1 := by
      rcases Strconv.digits_good f64 m e with ⟨_, h⟩ | ⟨h, _⟩
      · exact absurd h h0
      · exact h
    have hsm := point_small h h0
    have hok := Strconv.eNum_ok neg (digits_or f64 m e)
    have ht : Strconv.formatFloat (.num neg (.fin m e)) 64 101 = (Strconv.eNum neg (Strconv.digits f64 m e)).text := by
      rw [format64, if_pos rfl, Strconv.fmtE_text]
    generalize Strconv.digits f64 m e = d at *
    obtain ⟨ds, p⟩ := d
    obtain ⟨c, cs, hc, h1, h2⟩ := Strconv.good_head hg
    simp only at hc
    subst hc
    refine ⟨_, c, _, _, hok, rfl, rfl, h1, ?_, rfl, (Strconv.expDigits_spec _).2.2.1, expDigits_le hsm, ht, n2⟩
    simp only [List.length_cons] at hl
    unfold NumText.frac Strconv.eNum
    simp only
    split
    · simp
    · simp; omega

/-- **C52 (partial)**, with strconv's texts: a float64 that fits a float32 is marshalled as the shortest decimal of the nearest float32. Missing from the full
claim: the float64 that are no float32, for which it is false (`C52_false`). -/
theorem C52_shortest_partial {U : Univ} (hU : U.fmtFloat = Strconv.formatFloat) (hn : NoMarshal U (.float .b64)) (hn' : NoMarshal U (.ptr (.float .b64)))
    (neg : Bool) {m m' : Nat} {e e' : Int} (h : Nearest f32 (val m e) (.fin m' e')) (h0 : m' ≠ 0) (fuel : Nat) (hf : 2 ≤ fuel) :
    ∃ (x : NumText) (d : Nat) (k : Int), marshal U fuel (some (.float .b64, .float (.num neg (.fin m e)))) = some (.done x.text none) ∧
      x.neg = neg ∧ ShortestDec f32 m' e' d k ∧ x.value = d * 10 ^ k ∧
      (Plain x ∧ 1 / 10 ^ 6 ≤ x.value ∧ x.value < 10 ^ 21 ∨ Scientific x ∧ (x.value < 1 / 10 ^ 6 ∨ 10 ^ 21 ≤ x.value)) := by
  obtain ⟨x, d, k, h1, h2⟩ := C117_shortest32 [] neg h h0
  refine ⟨x, d, k, ?_, h2⟩
  rw [marshal_float (strconv_goFloats hU) hn hn' neg m e fuel hf]
  unfold floatText
  rw [hU, h1]; rfl

/-- **C61 (partial)**, with strconv's texts: after SetFloat of any finite float64, ToFloat succeeds and returns a number with the same sign that differs by at most
a 2^48th part. Missing: equality, which is false (`C61_false_go`). -/
theorem C61_go_partial (h : Njson.Heap) (n : Njson.Node) (hn : n.get h ≠ none) (neg : Bool) {m : Nat} {e : Int} (hf : IsFloat f64 m e) :
    ∃ m' e', NumJson.toFloat (n.setScalar h Njson.tNumber (NumJson.formatFloat (.num neg (.fin m e)) 64 (Strconv.formatFloat (.num neg (.fin m e)) 64))) n =
      (.num neg (.fin m' e'), true) ∧ IsFloat f64 m' e' ∧ |val m' e' - val m e| ≤ val m e / 2 ^ 48 :=
  C61_close_partial h n hn (strconv_shortestTexts neg hf)

/-- C61 is false with strconv's texts: the float64 nearest to 0.3 is stored as 0.3 and read back as another float. -/
theorem C61_false_go : ∃ (h : Njson.Heap) (n : Njson.Node) (m : Nat) (e : Int), n.get h ≠ none ∧ Nearest f64 (3 / 10) (.fin m e) ∧
    (n.setScalar h Njson.tNumber (NumJson.formatFloat (.num false (.fin m e)) 64 (Strconv.formatFloat (.num false (.fin m e)) 64)) 0).arr.map (·.raw) = [b!"0.3"] ∧
    NumJson.toFloat (n.setScalar h Njson.tNumber (NumJson.formatFloat (.num false (.fin m e)) 64 (Strconv.formatFloat (.num false (.fin m e)) 64))) n ≠
      (.num false (.fin m e), true) := by
  refine ⟨fun _ => (Njson.Doc.empty.number b!"1").1, ⟨0, 0, some 0⟩, 5404319552844595, -54, by decide +kernel, ?_, by decide +kernel, by decide +kernel⟩
  have h := round_nearest f64 NumJson.f64_ok 3 (d := 10) (by norm_num)
  rw [show round f64 3 10 = .fin 5404319552844595 (-54) by decide +kernel] at h
  exact_mod_cast h

-- the universe of the examples with strconv's formatting function
example : ∃ U : Univ, U.fmtFloat = Strconv.formatFloat ∧ NoMarshal U (.float .b64) ∧ NoMarshal U (.ptr (.float .b64)) :=
  ⟨{ exU with fmtFloat := Strconv.formatFloat }, rfl, ⟨rfl, rfl, rfl⟩, ⟨rfl, rfl, rfl⟩⟩

end Verif.Props
