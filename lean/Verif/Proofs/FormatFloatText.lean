import Verif.Proofs.FormatFloatDigits

/-! # Shortest decimals: the texts -/

namespace Verif.Strconv
open Verif Verif.Float Verif.Spec Verif.Unjson

/-- digits as strconv prints them: no zeros at either end -/
structure Good (ds : Bytes) : Prop where
  digs : Digits ds
  first : ds.head? ≠ some 48
  last : ds.getLast? ≠ some 48

theorem trim_append (ds : Bytes) : ∃ n, ds = trim ds ++ List.replicate n 48 := by
  refine ⟨(ds.reverse.takeWhile fun c => c = 48).length, ?_⟩
  unfold trim
  have h1 : (ds.reverse.takeWhile fun c => decide (c = 48)) = List.replicate (ds.reverse.takeWhile fun c => decide (c = 48)).length 48 := by
    refine List.eq_replicate_of_mem fun b hb => ?_
    simpa using List.all_eq_true.1 List.all_takeWhile b hb
  have h2 := List.takeWhile_append_dropWhile (p := fun c : UInt8 => decide (c = 48)) (l := ds.reverse)
  have h3 := congrArg List.reverse h2
  rw [List.reverse_append, List.reverse_reverse] at h3
  conv_lhs => rw [← h3, h1]
  simp

theorem trim_last (ds : Bytes) : (trim ds).getLast? ≠ some 48 := by
  unfold trim
  rw [List.getLast?_reverse]
  intro h
  have := List.head?_dropWhile_not (fun c : UInt8 => decide (c = 48)) ds.reverse
  rw [h] at this
  simp at this

theorem natOf_zeros (n : Nat) : natOf (List.replicate n 48) = 0 := by
  induction n with
  | zero => rfl
  | succ n ih => simp [List.replicate_succ, natOf, ih]

theorem good_trim {n : Nat} (h : n ≠ 0) : Good (trim (formatUint n)) := by
  obtain ⟨h1, h2, h3⟩ := formatUint_spec n
  obtain ⟨k, hk⟩ := trim_append (formatUint n)
  have hne : trim (formatUint n) ≠ [] := by
    intro h0
    rw [h0, List.nil_append] at hk
    rw [hk, natOf_zeros] at h2
    omega
  refine ⟨⟨hne, fun b hb => h3.2 b (by rw [hk]; exact List.mem_append_left _ hb)⟩, ?_, trim_last _⟩
  intro hh
  rcases h1 with h1 | ⟨_, h1⟩
  · rw [h1] at h2
    simp [natOf] at h2
    omega
  · rw [hk, List.head?_append, hh] at h1
    simp at h1

theorem search_ne {F : Fmt} {m : Nat} {e : Int} (h0 : m ≠ 0) : ∀ (fuel : Nat) (k : Int), (search F m e fuel k).1 ≠ 0
  | 0, _ => by simp [search]
  | fuel + 1, k => by
    unfold search
    split
    · rename_i d hd
      rintro h
      simp only at h
      subst h
      have := in_pos h0 (pick_some h0 hd).1
      simp at this
    · exact search_ne h0 fuel _

theorem digits_good (F : Fmt) (m : Nat) (e : Int) : digits F m e = ([], 0) ∧ m = 0 ∨ Good (digits F m e).1 ∧ m ≠ 0 := by
  unfold digits
  split
  · rename_i h; exact .inl ⟨rfl, h⟩
  · rename_i h; exact .inr ⟨good_trim (search_ne h _ _), h⟩

theorem good_head {ds : Bytes} (h : Good ds) : ∃ c cs, ds = c :: cs ∧ c ≠ 48 ∧ IsDigitByte c := by
  obtain ⟨c, cs, rfl⟩ := List.exists_cons_of_ne_nil h.digs.1
  exact ⟨c, cs, rfl, fun hc => h.first (by simp [hc]), h.digs.2 c (by simp)⟩

theorem good_pos {ds : Bytes} (h : Good ds) : 10 ^ (ds.length - 1) ≤ natOf ds ∧ natOf ds < 10 ^ ds.length := by
  obtain ⟨c, cs, rfl, h1, h2⟩ := good_head h
  refine ⟨?_, NumJson.natOf_lt (NumJson.allDig_of h.digs)⟩
  simp only [natOf, List.length_cons, Nat.add_sub_cancel]
  have : 1 ≤ c.toNat - 48 := by
    have h4 : c.toNat ≠ 48 := fun h => h1 (by rw [← UInt8.ofNat_toNat (x := c), h]; rfl)
    have := h2.1
    omega
  have := Nat.le_mul_of_pos_left (10 ^ cs.length) this
  omega

theorem expDigits_spec (n : Nat) : Digits (expDigits n) ∧ natOf (expDigits n) = n ∧ 2 ≤ (expDigits n).length ∧
    ((expDigits n).head? = some 48 → n < 10 ∧ ∃ b, expDigits n = [48, b]) := by
  obtain ⟨h1, h2, h3⟩ := formatUint_spec n
  unfold expDigits
  split
  · rename_i h
    refine ⟨⟨by simp, ?_⟩, by simp [natOf, h2], ?_, fun _ => ⟨h, ?_⟩⟩
    · intro b hb
      rcases List.mem_cons.1 hb with rfl | hb
      · exact ⟨by decide, by decide⟩
      · exact h3.2 b hb
    · have := List.length_pos_of_ne_nil h3.1
      simp; omega
    · have hl : (formatUint n).length = 1 := by
        by_cases h0 : n = 0
        · subst h0; decide
        · have := (formatUint_length h0).1
          have hp := List.length_pos_of_ne_nil h3.1
          by_contra hc
          have : 10 ^ 1 ≤ 10 ^ ((formatUint n).length - 1) := Nat.pow_le_pow_right (by norm_num) (by omega)
          omega
      obtain ⟨b, hb⟩ := List.length_eq_one_iff.1 hl
      exact ⟨b, by rw [hb]⟩
  · rename_i h
    refine ⟨h3, h2, ?_, fun hh => ?_⟩
    · by_contra hc
      have := (formatUint_length (n := n) (by omega)).2
      have : 10 ^ (formatUint n).length ≤ 10 ^ 1 := Nat.pow_le_pow_right (by norm_num) (by omega)
      omega
    · rcases h1 with h1 | ⟨_, h1⟩
      · rw [h1] at h2
        simp [natOf] at h2
        omega
      · exact absurd hh h1

/-- the numeral of the exponent format -/
def eNum (neg : Bool) (d : Bytes × Int) : NumText :=
  match d.1 with
  | [] => ⟨neg, [48], none, some (101, [43], expDigits 0)⟩
  | c :: cs => ⟨neg, [c], if cs = [] then none else some cs, some (101, [if d.2 - 1 < 0 then 45 else 43], expDigits (d.2 - 1).natAbs)⟩

theorem fmtE_text (neg : Bool) (d : Bytes × Int) : (if neg then [45] else []) ++ fmtE d = (eNum neg d).text := by
  obtain ⟨ds, p⟩ := d
  cases ds with
  | nil => cases neg <;> simp [fmtE, eNum, NumText.text, fracText, expText]
  | cons c cs =>
    cases cs with
    | nil => simp [fmtE, eNum, NumText.text, fracText, expText]
    | cons c' cs => simp [fmtE, eNum, NumText.text, fracText, expText]

theorem last_tail {c : UInt8} {cs : Bytes} (hcs : cs ≠ []) : (c :: cs).getLast? = cs.getLast? := by
  obtain ⟨c', cs', rfl⟩ := List.exists_cons_of_ne_nil hcs
  simp

theorem eNum_ok (neg : Bool) {d : Bytes × Int} (h : d = ([], 0) ∨ Good d.1) : (eNum neg d).Ok := by
  obtain ⟨ds, p⟩ := d
  have hsg : ∀ q : Prop, [Decidable q] → ∀ b ∈ [if q then (45 : UInt8) else 43], b = 43 ∨ b = 45 := by
    intro q _ b hb
    simp at hb
    split at hb <;> simp [hb]
  rcases h with h | h
  · cases h
    unfold eNum
    refine ⟨⟨by simp, by simp; unfold IsDigitByte; decide⟩, by simp, ?_⟩
    rintro c sg es ⟨⟩
    exact ⟨.inl rfl, by simp, (expDigits_spec 0).1⟩
  · simp only at h
    obtain ⟨c, cs, rfl, h1, h2⟩ := good_head h
    unfold eNum
    refine ⟨⟨by simp, by simpa using h2⟩, ?_, ?_⟩
    · intro f hf
      simp only at hf
      split at hf
      · cases hf
      · rename_i hcs
        cases hf
        exact ⟨hcs, fun b hb => h.digs.2 b (List.mem_cons_of_mem _ hb)⟩
    · rintro c sg es ⟨⟩
      exact ⟨.inl rfl, hsg _, (expDigits_spec _).1⟩

theorem eNum_value (neg : Bool) {d : Bytes × Int} (h : Good d.1) : (eNum neg d).value = natOf d.1 * 10 ^ (d.2 - d.1.length) := by
  obtain ⟨ds, p⟩ := d
  simp only at h
  obtain ⟨c, cs, rfl, h1, h2⟩ := good_head h
  have hfr : (eNum neg (c :: cs, p)).frac = cs := by
    unfold NumText.frac eNum
    simp only
    split
    · rename_i hc; rw [hc]; rfl
    · rfl
  have hex : (eNum neg (c :: cs, p)).exp = p - 1 := by
    unfold NumText.exp NumText.expNeg NumText.expAbs eNum
    simp only [(expDigits_spec _).2.1]
    by_cases hp : p - 1 < 0
    · rw [if_pos hp, if_pos (by decide)]; omega
    · rw [if_neg hp, if_neg (by decide)]; omega
  unfold NumText.value
  rw [hfr, hex]
  have hz : (10 : ℚ) ^ (p - 1) = 10 ^ cs.length * 10 ^ (p - ((c :: cs).length : ℕ)) := by
    rw [← zpow_natCast, ← zpow_add₀ (by norm_num)]
    congr 1
    simp
    ring
  have hip : natOf (eNum neg (c :: cs, p)).ip = c.toNat - 48 := by simp [eNum, natOf]
  rw [hz, hip]
  simp only [natOf]
  push_cast
  field_simp

/-- the numeral of the format without exponent -/
def fNum (neg : Bool) (d : Bytes × Int) : NumText :=
  ⟨neg, if 0 < d.2 then d.1.take d.2.toNat ++ List.replicate (d.2.toNat - d.1.length) 48 else [48],
    if d.2 < d.1.length then some (if 0 < d.2 then d.1.drop d.2.toNat else List.replicate (-d.2).toNat 48 ++ d.1) else none, none⟩

theorem fmtF_text (neg : Bool) (d : Bytes × Int) : (if neg then [45] else []) ++ fmtF d = (fNum neg d).text := by
  unfold fmtF fNum NumText.text
  by_cases h1 : 0 < d.2 <;> by_cases h2 : d.2 < d.1.length <;> simp [h1, h2, fracText, expText]

theorem zeros_digit {n : Nat} : ∀ b ∈ List.replicate n (48 : UInt8), IsDigitByte b := by
  intro b hb
  rw [(List.mem_replicate.1 hb).2]
  unfold IsDigitByte; decide

theorem fNum_plain (neg : Bool) {d : Bytes × Int} (h : d = ([], 0) ∨ Good d.1) : Plain (fNum neg d) := by
  obtain ⟨ds, p⟩ := d
  rcases h with h | h
  · cases h
    refine ⟨⟨⟨by simp [fNum], ?_⟩, by simp [fNum], by simp [fNum]⟩, .inl (by simp [fNum]), by simp [fNum], rfl⟩
    simp [fNum]; unfold IsDigitByte; decide
  · simp only at h
    obtain ⟨c, cs, rfl, h1, h2⟩ := good_head h
    have ip : RfcInt (fNum neg (c :: cs, p)).ip ∧ Digits (fNum neg (c :: cs, p)).ip := by
      unfold fNum
      simp only
      split
      · rename_i hp
        obtain ⟨j, hj⟩ : ∃ j, p.toNat = j + 1 := ⟨p.toNat - 1, by omega⟩
        have hd : Digits (List.take p.toNat (c :: cs) ++ List.replicate (p.toNat - (c :: cs).length) 48) := by
          refine ⟨by rw [hj]; simp, fun b hb => ?_⟩
          rcases List.mem_append.1 hb with hb | hb
          · exact h.digs.2 b (List.mem_of_mem_take hb)
          · exact zeros_digit b hb
        refine ⟨.inr ⟨hd, ?_⟩, hd⟩
        rw [hj]
        simp [h1]
      · exact ⟨.inl rfl, by simp, by unfold IsDigitByte; decide⟩
    have fp : ∀ f, (fNum neg (c :: cs, p)).fp = some f → Digits f ∧ f.getLast? ≠ some 48 := by
      intro f hf
      unfold fNum at hf
      simp only at hf
      split at hf
      · rename_i hlt
        cases hf
        split
        · rename_i hp
          have hlt' : p.toNat < (c :: cs).length := by omega
          refine ⟨⟨?_, fun b hb => h.digs.2 b (List.mem_of_mem_drop hb)⟩, ?_⟩
          · intro hn
            rw [List.drop_eq_nil_iff] at hn
            omega
          · rw [List.getLast?_drop, if_neg (by omega)]
            exact h.last
        · refine ⟨⟨by simp, fun b hb => ?_⟩, ?_⟩
          · rcases List.mem_append.1 hb with hb | hb
            · exact zeros_digit b hb
            · exact h.digs.2 b hb
          · rw [List.getLast?_append_of_ne_nil _ (by simp)]
            exact h.last
      · cases hf
    exact ⟨⟨ip.2, fun f hf => (fp f hf).1, by simp [fNum]⟩, ip.1, fun f hf => (fp f hf).2, rfl⟩

theorem fNum_value (neg : Bool) {d : Bytes × Int} (h : Good d.1) : (fNum neg d).value = natOf d.1 * 10 ^ (d.2 - d.1.length) := by
  obtain ⟨ds, p⟩ := d
  simp only at h
  have hne := List.length_pos_of_ne_nil h.digs.1
  have hex : (fNum neg (ds, p)).exp = 0 := by simp [NumText.exp, NumText.expNeg, NumText.expAbs, fNum]
  unfold NumText.value
  rw [hex, zpow_zero, mul_one]
  simp only
  by_cases hp : 0 < p
  · by_cases hl : p < ds.length
    · have h1 : (fNum neg (ds, p)).frac = ds.drop p.toNat := by simp [NumText.frac, fNum, hp, hl]
      have h2 : (fNum neg (ds, p)).ip = ds.take p.toNat := by
        simp only [fNum, if_pos hp]
        rw [show p.toNat - ds.length = 0 by omega]; simp
      have h3 : natOf ds = natOf (ds.take p.toNat) * 10 ^ (ds.drop p.toNat).length + natOf (ds.drop p.toNat) := by
        rw [← NumJson.natOf_append, List.take_append_drop]
      rw [h1, h2, h3]
      have h4 : (10 : ℚ) ^ (p - ds.length) = (10 ^ (ds.drop p.toNat).length)⁻¹ := by
        rw [← zpow_natCast, ← zpow_neg]
        congr 1
        rw [List.length_drop]
        omega
      rw [h4]
      push_cast
      field_simp
    · have h1 : (fNum neg (ds, p)).frac = [] := by simp [NumText.frac, fNum, hl]
      have h2 : (fNum neg (ds, p)).ip = ds ++ List.replicate (p.toNat - ds.length) 48 := by
        simp only [fNum, if_pos hp]
        rw [List.take_of_length_le (by omega)]
      rw [h1, h2, NumJson.natOf_append, natOf_zeros, List.length_replicate]
      have h4 : (10 : ℚ) ^ (p - ds.length) = 10 ^ (p.toNat - ds.length) := by
        rw [← zpow_natCast]
        congr 1
        omega
      rw [h4]
      simp [natOf]
  · have h1 : (fNum neg (ds, p)).frac = List.replicate (-p).toNat 48 ++ ds := by
      have : p < ds.length := by omega
      simp [NumText.frac, fNum, hp, this]
    have h2 : (fNum neg (ds, p)).ip = [48] := by simp [fNum, hp]
    rw [h1, h2, NumJson.natOf_append, natOf_zeros]
    have h4 : (10 : ℚ) ^ (p - ds.length) = (10 ^ (List.replicate (-p).toNat (48 : UInt8) ++ ds).length)⁻¹ := by
      rw [← zpow_natCast, ← zpow_neg]
      congr 1
      simp
      omega
    rw [h4]
    simp [natOf]
    ring

end Verif.Strconv
