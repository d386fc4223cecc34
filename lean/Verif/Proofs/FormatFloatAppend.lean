import Verif.Proofs.FormatFloatText
import Verif.Props.FloatSteps

/-! # Shortest decimals: what AppendFloat makes of strconv's texts -/

namespace Verif.Strconv
open Verif Verif.Float Verif.Spec Verif.Unjson

/-- the number that the digits stand for -/
def dec (F : Fmt) (m : Nat) (e : Int) : ℚ := natOf (digits F m e).1 * 10 ^ ((digits F m e).2 - (digits F m e).1.length)

theorem digits_dec {F : Fmt} (hF : F.Ok) (hp : F.p ≤ 53) {m : Nat} {e : Int} (h : IsFloat F m e) (h0 : m ≠ 0) :
    ∃ d k, ShortestDec F m e d k ∧ d < 10 ^ 17 ∧ dec F m e = d * 10 ^ k ∧ (digits F m e).1.length ≤ 17 := by
  obtain ⟨d, k, h1, h2, h3⟩ := digits_spec hF hp h h0
  refine ⟨d, k, h1, h2, ?_, ?_⟩
  · unfold dec
    rw [h3]
    simp only [(formatUint_spec d).2.1]
    congr 2
    ring
  · rw [h3]
    have hd : d ≠ 0 := fun h => h1.trimmed (by rw [h])
    by_contra hc
    have := (formatUint_length hd).1
    have : 10 ^ 17 ≤ 10 ^ ((formatUint d).length - 1) := Nat.pow_le_pow_right (by norm_num) (by simp only at hc; omega)
    omega

theorem dec_nearest {F : Fmt} (hF : F.Ok) (hp : F.p ≤ 53) {m : Nat} {e : Int} (h : IsFloat F m e) (h0 : m ≠ 0) : Nearest F (dec F m e) (.fin m e) := by
  obtain ⟨d, k, h1, _, h3, _⟩ := digits_dec hF hp h h0
  rw [h3]; exact h1.rounds

theorem nearest_same {F : Fmt} (hF : F.Ok) {x : ℚ} (hx : 0 ≤ x) {r s : Mag} (h1 : Nearest F x r) (h2 : Nearest F x s) : r = s := by
  obtain ⟨n, hn⟩ := Int.eq_ofNat_of_zero_le (Rat.num_nonneg.2 hx)
  have hv : x = (n : ℚ) / (x.den : ℕ) := by
    conv_lhs => rw [← Rat.num_div_den x, hn]
    simp
  have hd : 0 < x.den := x.den_pos
  generalize x.den = d at hv hd
  rw [hv] at h1 h2
  rw [nearest_unique F hF n hd h1, nearest_unique F hF n hd h2]

/-- rounding is monotone -/
theorem nearest_lt {F : Fmt} (hF : F.Ok) {x y : ℚ} (hx : 0 ≤ x) {m m' : Nat} {e e' : Int} (h1 : Nearest F x (.fin m e)) (h2 : Nearest F y (.fin m' e'))
    (h : val m e < val m' e') : x < y := by
  by_contra hc
  have a1 := (h1.2.2 m' e' h2.1).1
  have a2 := (h2.2.2 m e h1.1).1
  have b1 : x ≤ (val m e + val m' e') / 2 := by
    by_contra hb
    have : |val m' e' - x| < |val m e - x| := by
      rw [abs_lt]
      rw [abs_of_neg (by linarith)]
      constructor <;> linarith
    linarith
  have b2 : (val m e + val m' e') / 2 ≤ y := by
    by_contra hb
    have : |val m e - y| < |val m' e' - y| := by
      rw [abs_lt]
      rw [abs_of_pos (a := val m' e' - y) (by linarith)]
      constructor <;> linarith
    linarith
  have hxy : x = y := by linarith
  subst hxy
  have := nearest_same hF hx h1 h2
  cases this
  exact lt_irrefl _ h

theorem dec_nonneg (F : Fmt) (m : Nat) (e : Int) : 0 ≤ dec F m e := by unfold dec; positivity

/-- decimals and floats are on the same side of a number that is the decimal of its float -/
theorem threshold {F : Fmt} (hF : F.Ok) (hp : F.p ≤ 53) {m a : Nat} {e b : Int} (h : IsFloat F m e) (h0 : m ≠ 0) (ha : IsFloat F a b) (ha0 : a ≠ 0) :
    dec F m e < dec F a b ↔ val m e < val a b := by
  have hm := dec_nearest hF hp h h0
  have hb := dec_nearest hF hp ha ha0
  rcases lt_trichotomy (val m e) (val a b) with hlt | heq | hgt
  · exact ⟨fun _ => hlt, fun _ => nearest_lt hF (dec_nonneg _ _ _) hm hb hlt⟩
  · obtain ⟨rfl, rfl⟩ := val_inj (by have := hF.1; omega) h ha heq
    simp
  · have := nearest_lt hF (dec_nonneg _ _ _) hb hm hgt
    constructor <;> intro <;> linarith

theorem eNum_neg (neg : Bool) (d : Bytes × Int) : (eNum neg d).neg = neg := by
  unfold eNum; split <;> rfl

/-- the exponent format after numjson's clean-up -/
theorem sci {neg : Bool} {d : Bytes × Int} (h : Good d.1) (hv : (eNum neg d).value < 1 ∨ 10 ^ 20 ≤ (eNum neg d).value) (dst : Bytes) (f : Flt) (bits : Nat)
    {text : UInt8 → Bytes} (ht : text 101 = (eNum neg d).text) (hb : NumJson.fmtByte f bits = 101) :
    ∃ x : NumText, NumJson.appendFloat dst f bits text = dst ++ x.text ∧ x.neg = neg ∧ x.value = (eNum neg d).value ∧ Scientific x := by
  have hok := eNum_ok neg (.inr h)
  have hval := eNum_value neg h
  have hneg := eNum_neg neg d
  obtain ⟨ds, p⟩ := d
  simp only at h hval
  obtain ⟨c, cs, rfl, h1, h2⟩ := good_head h
  have hfr : ∀ f, (eNum neg (c :: cs, p)).fp = some f → f.getLast? ≠ some 48 := by
    intro f hf
    unfold eNum at hf
    simp only at hf
    split at hf
    · cases hf
    · rename_i hcs
      cases hf
      rw [← last_tail hcs (c := c)]
      exact h.last
  have hex : (eNum neg (c :: cs, p)).ex = some (101, [if p - 1 < 0 then 45 else 43], expDigits (p - 1).natAbs) := rfl
  have hip : (eNum neg (c :: cs, p)).ip = [c] := rfl
  obtain ⟨s1, s2, s3, s4⟩ := expDigits_spec (p - 1).natAbs
  obtain ⟨x', k1, k2, k3, k4, k5⟩ := Props.C45_exponent dst f bits text _ hok ht hex s3 hb
  refine ⟨x', k2, by rw [k3, hneg], k4, ?_⟩
  rcases k5 with ⟨b, e1, rfl⟩ | ⟨rfl, e1⟩
  · refine ⟨k1, ⟨c, hip, h1⟩, hfr, 45, [b], rfl, ?_⟩
    rw [hex] at e1
    simp only [Option.some.injEq, Prod.mk.injEq, List.cons.injEq, and_true, true_and] at e1
    obtain ⟨e2, e3⟩ := e1
    rw [e3] at s2
    intro hb48
    simp at hb48
    subst hb48
    simp [natOf] at s2
    have : ¬ p - 1 < 0 := by omega
    rw [if_neg this] at e2
    exact absurd e2 (by decide)
  · refine ⟨k1, ⟨c, hip, h1⟩, hfr, _, _, hex, fun hh => ?_⟩
    obtain ⟨t1, b, t2⟩ := s4 hh
    by_cases hp : p - 1 < 0
    · exact e1 b (by rw [hex, t2, if_pos hp])
    · obtain ⟨g1, g2⟩ := good_pos h
      have hl : 1 ≤ (c :: cs).length := by simp
      generalize (c :: cs).length = l at *
      generalize natOf (c :: cs) = D at *
      rw [hval] at hv
      have q1 : (10 : ℚ) ^ (l - 1) ≤ D := by exact_mod_cast g1
      have q2 : (D : ℚ) < 10 ^ l := by exact_mod_cast g2
      have w1 : (10 : ℚ) ^ (p - 1) = 10 ^ (l - 1) * 10 ^ (p - l) := by
        rw [← zpow_natCast, ← zpow_add₀ (by norm_num)]; congr 1; omega
      have w2 : (10 : ℚ) ^ p = 10 ^ l * 10 ^ (p - l) := by
        rw [← zpow_natCast, ← zpow_add₀ (by norm_num)]; congr 1; omega
      have w3 : (1 : ℚ) ≤ 10 ^ (p - 1) := one_le_zpow₀ (by norm_num) (by omega)
      have w4 : (10 : ℚ) ^ p ≤ 10 ^ (20 : ℤ) := zpow_le_zpow_right₀ (by norm_num) (by omega)
      have w5 := ten_pos (p - l)
      have w6 : (10 : ℚ) ^ (20 : ℤ) = 10 ^ 20 := by norm_num
      rw [w6] at w4
      rcases hv with hv | hv
      · nlinarith
      · nlinarith

/-- the text of a float that is not zero -/
theorem append_shortest {F : Fmt} (hF : F.Ok) (hp : F.p ≤ 53) {m : Nat} {e : Int} (h : IsFloat F m e) (h0 : m ≠ 0)
    {a6 a21 : Nat} {b6 b21 : Int} (i6 : IsFloat F a6 b6) (n6 : a6 ≠ 0) (d6 : dec F a6 b6 = 1 / 10 ^ 6)
    (i21 : IsFloat F a21 b21) (n21 : a21 ≠ 0) (d21 : dec F a21 b21 = 10 ^ 21)
    {f : Flt} {bits : Nat} {neg : Bool} {text : UInt8 → Bytes}
    (hfmt : NumJson.fmtByte f bits = 101 ↔ val m e < val a6 b6 ∨ val a21 b21 ≤ val m e)
    (hcase : NumJson.fmtByte f bits = 101 ∨ NumJson.fmtByte f bits = 102)
    (ht : ∀ c, text c = (if neg then [45] else []) ++ if c = 101 then fmtE (digits F m e) else fmtF (digits F m e)) (dst : Bytes) :
    ∃ (x : NumText) (d : Nat) (k : Int), NumJson.appendFloat dst f bits text = dst ++ x.text ∧ x.neg = neg ∧ ShortestDec F m e d k ∧
      x.value = d * 10 ^ k ∧ (Plain x ∧ 1 / 10 ^ 6 ≤ x.value ∧ x.value < 10 ^ 21 ∨ Scientific x ∧ (x.value < 1 / 10 ^ 6 ∨ 10 ^ 21 ≤ x.value)) := by
  obtain ⟨d, k, s1, _, s3, _⟩ := digits_dec hF hp h h0
  have hg : Good (digits F m e).1 := by
    rcases digits_good F m e with ⟨_, h⟩ | ⟨h, _⟩
    · exact absurd h h0
    · exact h
  have t6 := threshold hF hp h h0 i6 n6
  have t21 := threshold hF hp h h0 i21 n21
  rw [d6] at t6
  rw [d21] at t21
  have he : (eNum neg (digits F m e)).value = dec F m e := eNum_value neg hg
  have hf : (fNum neg (digits F m e)).value = dec F m e := fNum_value neg hg
  by_cases hb : NumJson.fmtByte f bits = 101
  · have hcond : dec F m e < 1 / 10 ^ 6 ∨ 10 ^ 21 ≤ dec F m e := by
      rcases hfmt.1 hb with h | h
      · exact .inl (t6.2 h)
      · exact .inr (not_lt.1 fun hc => absurd (t21.1 hc) (not_lt.2 h))
    have ht101 : text 101 = (eNum neg (digits F m e)).text := by rw [ht, if_pos rfl, fmtE_text]
    obtain ⟨x, x1, x2, x3, x4⟩ := sci hg (by
      rw [he]
      rcases hcond with h | h
      · exact .inl (h.trans (by norm_num))
      · exact .inr (le_trans (by norm_num) h)) dst f bits ht101 hb
    rw [he] at x3
    exact ⟨x, d, k, x1, x2, s1, by rw [x3, s3], .inr ⟨x4, by rw [x3]; exact hcond⟩⟩
  · have h102 := hcase.resolve_left hb
    have hcond : ¬ (val m e < val a6 b6 ∨ val a21 b21 ≤ val m e) := fun h => hb (hfmt.2 h)
    push Not at hcond
    refine ⟨fNum neg (digits F m e), d, k, ?_, rfl, s1, by rw [hf, s3], .inl ⟨fNum_plain neg (.inr hg), ?_, ?_⟩⟩
    · rw [Props.C45_plain _ _ _ _ (.inl h102), h102, ht, if_neg (show ¬ (102 : UInt8) = 101 by decide), fmtF_text]
    · rw [hf]; exact not_lt.1 fun hc => absurd (t6.1 hc) (not_lt.2 hcond.1)
    · rw [hf]; exact t21.2 hcond.2

end Verif.Strconv
