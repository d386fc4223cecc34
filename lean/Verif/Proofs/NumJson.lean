import Verif.Model.NumJson
import Verif.Spec.NumJson
import Verif.Proofs.Float
import Mathlib.Data.Nat.ModEq

/-! # numjson: how texts are taken apart -/

namespace Verif.NumJson
open Verif Verif.Float Verif.Spec

theorem isDig_iff (c : UInt8) : isDig c = true ↔ IsDigitByte c := by
  unfold isDig IsDigitByte
  rw [Bool.and_eq_true, decide_eq_true_iff, decide_eq_true_iff, UInt8.le_iff_toNat_le, UInt8.le_iff_toNat_le]
  rfl

/-- all digits -/
def AllDig (s : Bytes) : Prop := ∀ b ∈ s, isDig b = true

theorem allDig_of {s : Bytes} (h : Digits s) : AllDig s := fun b hb => (isDig_iff b).2 (h.2 b hb)

theorem digits_of {s : Bytes} (h : AllDig s) (hne : s ≠ []) : Digits s := ⟨hne, fun b hb => (isDig_iff b).1 (h b hb)⟩

/-- the text after a digit string -/
def NoDig : Bytes → Prop
  | [] => True
  | c :: _ => isDig c = false

theorem spanDig_append {ds rest : Bytes} (hd : AllDig ds) (hr : NoDig rest) : spanDig (ds ++ rest) = (ds, rest) := by
  induction ds with
  | nil =>
    cases rest with
    | nil => rfl
    | cons c r => simp only [List.nil_append, spanDig]; rw [if_neg (by simpa [NoDig] using hr)]
  | cons c s ih =>
    have h1 := hd c (List.mem_cons_self ..)
    have h2 := ih (fun b hb => hd b (List.mem_cons_of_mem _ hb))
    rw [List.cons_append, spanDig, if_pos h1, h2]

theorem natOf_append (a b : Bytes) : natOf (a ++ b) = natOf a * 10 ^ b.length + natOf b := by
  induction a with
  | nil => simp [natOf]
  | cons c s ih => simp only [List.cons_append, natOf, List.length_append, ih, pow_add]; ring

theorem natOf_lt {ds : Bytes} (h : AllDig ds) : natOf ds < 10 ^ ds.length := by
  induction ds with
  | nil => simp [natOf]
  | cons c s ih =>
    have h1 := ih (fun b hb => h b (List.mem_cons_of_mem _ hb))
    have h2 := ((isDig_iff c).1 (h c (List.mem_cons_self ..))).2
    simp only [natOf, List.length_cons, pow_succ]
    have : (c.toNat - 48) * 10 ^ s.length ≤ 9 * 10 ^ s.length := Nat.mul_le_mul_right _ (by omega)
    omega

theorem digitsVal_go (ds : Bytes) (n : Nat) :
    ds.foldl (fun n (c : UInt8) => 10 * n + (c.toNat - 48)) n = n * 10 ^ ds.length + natOf ds := by
  induction ds generalizing n with
  | nil => simp [natOf]
  | cons c s ih => simp only [List.foldl_cons, ih, natOf, List.length_cons, pow_succ]; ring

theorem digitsVal_eq (ds : Bytes) : digitsVal ds = natOf ds := by
  unfold digitsVal; rw [digitsVal_go]; simp

theorem dig_toNat {c : UInt8} (h : isDig c = true) : (c - 48).toNat = c.toNat - 48 := by
  have := ((isDig_iff c).1 h).1
  rw [UInt8.toNat_sub_of_le]
  · rfl
  · rw [UInt8.le_iff_toNat_le]; exact this

theorem scanDigits_append {ds rest : Bytes} (hd : AllDig ds) (hr : NoDig rest) (num : UInt64) (j : Nat) :
    scanDigits (ds ++ rest) num j = (UInt64.ofNat (num.toNat * 10 ^ ds.length + natOf ds), j + ds.length, rest) := by
  induction ds generalizing num j with
  | nil =>
    cases rest with
    | nil => simp [scanDigits, natOf]
    | cons c r =>
      simp only [List.nil_append, scanDigits]
      rw [if_neg (by simpa [NoDig] using hr)]
      simp [natOf]
  | cons c s ih =>
    have h1 := hd c (List.mem_cons_self ..)
    have h2 := ih (fun b hb => hd b (List.mem_cons_of_mem _ hb))
    rw [List.cons_append, scanDigits, if_pos h1, h2]
    refine Prod.ext ?_ (Prod.ext ?_ rfl)
    · simp only [natOf, List.length_cons]
      apply UInt64.toNat_inj.1
      rw [UInt64.toNat_ofNat', UInt64.toNat_ofNat', UInt64.toNat_add, UInt64.toNat_mul, UInt8.toNat_toUInt64, dig_toNat h1]
      have e10 : (10 : UInt64).toNat = 10 := rfl
      rw [e10, pow_succ]
      have : ∀ a k b q M : ℕ, ((a * 10 % M + b) % M * k + q) % M = (a * (k * 10) + (b * k + q)) % M := by
        intro a k b q M
        have h1 : (a * 10 % M + b) % M ≡ a * 10 + b [MOD M] := by
          refine (Nat.mod_modEq _ _).trans ?_
          exact Nat.ModEq.add_right _ (Nat.mod_modEq _ _)
        have h2 := (h1.mul_right k).add_right q
        have h3 : (a * 10 + b) * k + q = a * (k * 10) + (b * k + q) := by ring
        rw [h3] at h2
        exact h2
      exact this _ _ _ _ _
    · simp only [List.length_cons]; omega

theorem scanDigits_split (s : Bytes) (num : UInt64) (j : Nat) :
    ∃ ds, s = ds ++ (scanDigits s num j).2.2 ∧ AllDig ds ∧ (scanDigits s num j).2.1 = j + ds.length ∧ NoDig (scanDigits s num j).2.2 := by
  induction s generalizing num j with
  | nil => exact ⟨[], rfl, by simp [AllDig], rfl, trivial⟩
  | cons c s ih =>
    rw [scanDigits]
    by_cases h : isDig c
    · rw [if_pos h]
      obtain ⟨ds, h1, h2, h3, h4⟩ := ih (num * 10 + (c - 48).toUInt64) (j + 1)
      refine ⟨c :: ds, by rw [List.cons_append, ← h1], ?_, by rw [h3]; simp; omega, h4⟩
      intro b hb
      rcases List.mem_cons.1 hb with rfl | hb
      · exact h
      · exact h2 b hb
    · rw [if_neg h]
      exact ⟨[], rfl, by simp [AllDig], rfl, by simpa [NoDig] using h⟩

theorem wrap_step (a : Int) (d : Int) : wrap (10 * wrap a + d) = wrap (10 * a + d) := by
  unfold wrap
  rw [← Int.bmod_add_bmod (x := 10 * (a.bmod (2 ^ 64))), Int.mul_bmod_bmod, Int.bmod_add_bmod]

theorem scanExp_digits {ds : Bytes} (hd : AllDig ds) (b : Bool) (a : Int) (jj : Nat) :
    scanExp ds b (wrap a) jj = some (b, wrap (a * 10 ^ ds.length + natOf ds), jj + ds.length) := by
  induction ds generalizing a jj with
  | nil => simp [scanExp, natOf]
  | cons c s ih =>
    have h1 := hd c (List.mem_cons_self ..)
    rw [scanExp, if_pos h1, wrap_step, ih (fun b hb => hd b (List.mem_cons_of_mem _ hb)), dig_toNat h1]
    simp only [natOf, List.length_cons]
    congr 3
    · push_cast; ring_nf
    · omega

theorem scanExp_signs {sg ds : Bytes} (hs : ∀ b ∈ sg, b = 43 ∨ b = 45) (hd : AllDig ds) (b : Bool) :
    scanExp (sg ++ ds) b 0 0 = some (b || decide (45 ∈ sg), wrap (natOf ds), ds.length) := by
  induction sg generalizing b with
  | nil =>
    have := scanExp_digits hd b 0 0
    simpa [wrap] using this
  | cons c s ih =>
    have ih' := fun b => ih (fun b hb => hs b (List.mem_cons_of_mem _ hb)) b
    rcases hs c (List.mem_cons_self ..) with rfl | rfl
    · rw [List.cons_append, scanExp, if_neg (by decide), if_neg (by decide), if_pos (by decide), ih']
      simp
    · rw [List.cons_append, scanExp, if_neg (by decide), if_pos (by decide), ih']
      simp

theorem scanExp_split_pos {s : Bytes} {b b' : Bool} {e e' : Int} {jj jj' : Nat} (h : scanExp s b e jj = some (b', e', jj')) (hj : jj ≠ 0) :
    AllDig s ∧ jj' = jj + s.length := by
  induction s generalizing b e jj with
  | nil => simp only [scanExp, Option.some.injEq, Prod.mk.injEq] at h; exact ⟨by simp [AllDig], by simp [h.2.2]⟩
  | cons c s ih =>
    rw [scanExp] at h
    by_cases hc : isDig c
    · rw [if_pos hc] at h
      obtain ⟨h1, h2⟩ := ih h (by omega)
      refine ⟨?_, by rw [h2]; simp; omega⟩
      intro b hb
      rcases List.mem_cons.1 hb with rfl | hb
      · exact hc
      · exact h1 b hb
    · rw [if_neg hc, if_neg (by simp [hj]), if_neg (by simp [hj])] at h; cases h

theorem scanExp_split {s : Bytes} {b b' : Bool} {e e' : Int} {jj' : Nat} (h : scanExp s b e 0 = some (b', e', jj')) :
    ∃ sg ds, s = sg ++ ds ∧ (∀ c ∈ sg, c = 43 ∨ c = 45) ∧ AllDig ds ∧ jj' = ds.length := by
  induction s generalizing b e with
  | nil => simp only [scanExp, Option.some.injEq, Prod.mk.injEq] at h; exact ⟨[], [], rfl, by simp, by simp [AllDig], by simp [h.2.2]⟩
  | cons c s ih =>
    rw [scanExp] at h
    by_cases hc : isDig c
    · rw [if_pos hc] at h
      obtain ⟨h1, h2⟩ := scanExp_split_pos h (by omega)
      refine ⟨[], c :: s, rfl, by simp, ?_, by rw [h2]; simp; omega⟩
      intro b hb
      rcases List.mem_cons.1 hb with rfl | hb
      · exact hc
      · exact h1 b hb
    · rw [if_neg hc] at h
      by_cases h45 : c = 45
      · rw [if_pos ⟨rfl, h45⟩] at h
        obtain ⟨sg, ds, h1, h2, h3, h4⟩ := ih h
        exact ⟨c :: sg, ds, by rw [h1]; rfl, by simpa [h45] using h2, h3, h4⟩
      · rw [if_neg (by simp [h45])] at h
        by_cases h43 : c = 43
        · rw [if_pos ⟨rfl, h43⟩] at h
          obtain ⟨sg, ds, h1, h2, h3, h4⟩ := ih h
          exact ⟨c :: sg, ds, by rw [h1]; rfl, by simpa [h43] using h2, h3, h4⟩
        · rw [if_neg (by simp [h43])] at h; cases h

/-! ## ParseFloat on a numeral -/

/-- the `uint64` a digit string accumulates to -/
def u64 (ds : Bytes) : UInt64 := UInt64.ofNat (natOf ds)

theorem scanDigits_zero {ds rest : Bytes} (hd : AllDig ds) (hr : NoDig rest) :
    scanDigits (ds ++ rest) 0 0 = (u64 ds, ds.length, rest) := by
  rw [scanDigits_append hd hr]; simp [u64]

/-- the digit count in effect at the label `scientific` -/
def NumText.count (x : NumText) : Nat :=
  match x.fp with
  | none => x.ip.length
  | some f => f.length

/-- the outcome of ParseFloat on a numeral -/
def outcome (x : NumText) : Flt :=
  match x.ex with
  | none =>
    match x.fp with
    | none => if x.ip.length ≤ 18 then .num x.neg (flt (u64 x.ip)) else strconvParseFloat x.text
    | some f => if f.length ≤ 18 then result x.neg (decimalMag (u64 x.ip) (u64 f) f.length) else strconvParseFloat x.text
  | some (_, sg, ds) =>
    if wrap (natOf ds) > 300 then strconvParseFloat x.text
    else result x.neg (scientificMag (u64 x.ip) (u64 x.frac) (NumText.count x) (decide (45 ∈ sg)) (wrap (natOf ds)))

theorem sign_split {neg : Bool} {ip rest : Bytes} (h : Digits ip) :
    splitSign ((if neg then [45] else []) ++ (ip ++ rest)) = (neg, ip ++ rest) := by
  cases neg with
  | true => rfl
  | false =>
    obtain ⟨c, s, rfl⟩ : ∃ c s, ip = c :: s := by
      cases ip with
      | nil => exact absurd rfl h.1
      | cons c s => exact ⟨c, s, rfl⟩
    have hc := h.2 c (List.mem_cons_self ..)
    have : c ≠ 45 := by rintro rfl; exact absurd hc.1 (by decide)
    simp only [Bool.false_eq_true, if_false, List.nil_append, List.cons_append]
    unfold splitSign
    split <;> simp_all

theorem noDig_cons {c : UInt8} {s : Bytes} (h : c = 46 ∨ c = 101 ∨ c = 69) : NoDig (c :: s) := by
  rcases h with rfl | rfl | rfl <;> rfl

theorem scientific_text {s : Bytes} {neg : Bool} {num dec : UInt64} {j : Nat} {c : UInt8} {sg ds : Bytes}
    (hc : c = 101 ∨ c = 69) (hs : ∀ b ∈ sg, b = 43 ∨ b = 45) (hd : Digits ds) :
    scientific s neg num dec j c (sg ++ ds) =
      (if wrap (natOf ds) > 300 then strconvParseFloat s
       else result neg (scientificMag num dec j (decide (45 ∈ sg)) (wrap (natOf ds)))) := by
  have h0 : ds.length ≠ 0 := fun h => hd.1 (List.length_eq_zero_iff.1 h)
  unfold scientific
  rw [if_pos hc, scanExp_signs hs (allDig_of hd) false]
  simp only [Bool.false_or]
  rw [if_neg h0]

theorem parseFloat_text (x : NumText) (hx : x.Ok) : parseFloat x.text = outcome x := by
  obtain ⟨neg, ip, fp, ex⟩ := x
  obtain ⟨h1, h2, h3⟩ := hx
  simp only at h1 h2 h3
  have hip := allDig_of h1
  have hl : ip.length ≠ 0 := fun h => h1.1 (List.length_eq_zero_iff.1 h)
  by_cases hone : ∃ c, NumText.text ⟨neg, ip, fp, ex⟩ = [c]
  · -- a single byte: a digit
    obtain ⟨c, hc⟩ := hone
    have hlen := congrArg List.length hc
    simp only [NumText.text, List.length_append, List.length_cons, List.length_nil] at hlen
    have hneg : neg = false := by cases neg with
      | false => rfl
      | true => simp at hlen; exact absurd hlen.1 h1.1
    subst hneg
    have hfp : fp = none := by cases fp with
      | none => rfl
      | some f => simp [fracText] at hlen; omega
    subst hfp
    have hex : ex = none := by cases ex with
      | none => rfl
      | some q => obtain ⟨a, b, d⟩ := q; simp [expText] at hlen; omega
    subst hex
    simp [NumText.text, fracText, expText] at hc
    subst hc
    have hd := hip c (List.mem_cons_self ..)
    simp only [NumText.text, fracText, expText, Bool.false_eq_true, if_false, List.nil_append, List.append_nil, parseFloat, outcome]
    rw [if_pos hd, if_pos (by simp)]
    simp only [flt, u64, natOf, dig_toNat hd]
    have : c.toNat < 256 := c.toNat_lt
    rw [UInt64.toNat_ofNat']
    simp only [List.length_nil, pow_zero, mul_one, add_zero]
    rw [Nat.mod_eq_of_lt (by omega)]
  · have hne : ∀ c, NumText.text ⟨neg, ip, fp, ex⟩ ≠ [c] := fun c h => hone ⟨c, h⟩
    have step : parseFloat (NumText.text ⟨neg, ip, fp, ex⟩) =
        (match scanDigits (ip ++ (fracText fp ++ expText ex)) 0 0 with
        | (num, j, []) =>
          if 0 < j ∧ j ≤ 18 then .num neg (flt num)
          else if j = 0 then .nan
          else strconvParseFloat (NumText.text ⟨neg, ip, fp, ex⟩)
        | (num, j, c :: rest) => if j = 0 then .nan else decimal (NumText.text ⟨neg, ip, fp, ex⟩) neg num j c rest) := by
      have hs := sign_split (neg := neg) (rest := fracText fp ++ expText ex) h1
      generalize hT : NumText.text ⟨neg, ip, fp, ex⟩ = T at *
      have hT' : (if neg then [45] else []) ++ (ip ++ (fracText fp ++ expText ex)) = T := hT
      rw [hT'] at hs
      unfold parseFloat
      split
      · exact absurd rfl (hne _)
      · simp only [hs]
        rcases scanDigits (ip ++ (fracText fp ++ expText ex)) 0 0 with ⟨_, _, _ | _⟩ <;> rfl
    rw [step]
    cases ex with
    | none =>
      cases fp with
      | none =>
        simp only [fracText, expText, List.append_nil]
        have := scanDigits_zero (rest := []) hip trivial
        rw [List.append_nil] at this
        rw [this]
        simp only [outcome]
        by_cases h18 : ip.length ≤ 18
        · rw [if_pos ⟨by omega, h18⟩, if_pos h18]
        · rw [if_neg (by omega), if_neg hl, if_neg h18]
      | some f =>
        have hf := h2 f rfl
        have hfl : f.length ≠ 0 := fun h => hf.1 (List.length_eq_zero_iff.1 h)
        simp only [fracText, expText, List.append_nil]
        rw [scanDigits_zero hip (noDig_cons (Or.inl rfl))]
        simp only [outcome]
        rw [if_neg hl]
        unfold decimal
        rw [if_pos rfl]
        have := scanDigits_zero (rest := []) (allDig_of hf) trivial
        rw [List.append_nil] at this
        rw [this]
        simp only
        by_cases h18 : f.length ≤ 18
        · rw [if_pos ⟨by omega, h18⟩, if_pos h18]
        · rw [if_neg (by omega), if_neg hfl, if_neg h18]
    | some q =>
      obtain ⟨c, sg, ds⟩ := q
      obtain ⟨hc, hs, hd⟩ := h3 c sg ds rfl
      cases fp with
      | none =>
        simp only [fracText, expText, List.nil_append]
        rw [scanDigits_zero hip (noDig_cons (Or.inr hc))]
        simp only [outcome]
        rw [if_neg hl]
        unfold decimal
        rw [if_neg (by rcases hc with rfl | rfl <;> decide), scientific_text hc hs hd]
        rfl
      | some f =>
        have hf := h2 f rfl
        have hfl : f.length ≠ 0 := fun h => hf.1 (List.length_eq_zero_iff.1 h)
        simp only [fracText, expText, List.cons_append]
        rw [scanDigits_zero hip (noDig_cons (Or.inl rfl))]
        simp only [outcome]
        rw [if_neg hl]
        unfold decimal
        rw [if_pos rfl, scanDigits_zero (allDig_of hf) (noDig_cons (Or.inr hc))]
        simp only
        rw [if_pos (by omega), scientific_text hc hs hd]
        rfl

/-! ## strconv on a numeral -/

theorem readNumeral_text (x : NumText) (hx : x.Ok) (ho : x.OneSign) :
    readNumeral x.text = some ⟨x.neg, x.ip, x.frac, x.expNeg, match x.ex with | none => [] | some (_, _, ds) => ds⟩ := by
  obtain ⟨neg, ip, fp, ex⟩ := x
  obtain ⟨h1, h2, h3⟩ := hx
  simp only at h1 h2 h3
  have hip := allDig_of h1
  have hrest : NoDig (fracText fp ++ expText ex) := by
    cases fp with
    | some f => exact noDig_cons (Or.inl rfl)
    | none => cases ex with
      | none => trivial
      | some q => obtain ⟨c, sg, ds⟩ := q; exact noDig_cons (Or.inr (h3 c sg ds rfl).1)
  have hexp : NoDig (expText ex) := by
    cases ex with
    | none => trivial
    | some q => obtain ⟨c, sg, ds⟩ := q; exact noDig_cons (Or.inr (h3 c sg ds rfl).1)
  have hs := sign_split (neg := neg) (rest := fracText fp ++ expText ex) h1
  unfold readNumeral NumText.text
  simp only [hs]
  rw [spanDig_append hip hrest]
  simp only
  rw [if_neg h1.1]
  have hf : splitFrac (fracText fp ++ expText ex) = (fp.getD [], expText ex) := by
    cases fp with
    | some f =>
      simp only [fracText, List.cons_append]
      exact spanDig_append (allDig_of (h2 f rfl)) hexp
    | none =>
      cases ex with
      | none => rfl
      | some q =>
        obtain ⟨c, sg, ds⟩ := q
        rcases (h3 c sg ds rfl).1 with rfl | rfl <;> rfl
  rw [hf]
  simp only
  cases ex with
  | none => rfl
  | some q =>
    obtain ⟨c, sg, ds⟩ := q
    obtain ⟨hc, hsg, hd⟩ := h3 c sg ds rfl
    have hsp := spanDig_append (rest := []) (allDig_of hd) trivial
    rw [List.append_nil] at hsp
    simp only [expText]
    rw [if_pos hc]
    have hes : splitExpSign (sg ++ ds) = (decide (45 ∈ sg), ds) := by
      rcases ho c sg ds rfl with rfl | rfl | rfl
      · have h4 := hd.1
        cases ds with
        | nil => exact absurd rfl h4
        | cons b r =>
          have hb := hd.2 b (List.mem_cons_self ..)
          have : b ≠ 45 := by rintro rfl; exact absurd hb.1 (by decide)
          have : b ≠ 43 := by rintro rfl; exact absurd hb.1 (by decide)
          simp only [List.nil_append]
          unfold splitExpSign
          split <;> simp_all
      · rfl
      · rfl
    rw [hes]
    simp only
    rw [hsp]
    rw [if_neg (by simp [hd.1])]
    rfl

end Verif.NumJson
