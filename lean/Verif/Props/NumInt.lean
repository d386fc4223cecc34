import Verif.Spec.NumInt
import Verif.Proofs.NumInt
import Verif.Props.UnUnmarshal

/-!
# Integers: what ParseInt and ParseUint return (C42), what Unmarshal stores (C51), for every decimal integer
-/

namespace Verif.Props
open Verif Verif.Float Verif.Spec Verif.NumJson Verif.Unjson Verif.Njson

theorem rounds_of {i : ℤ} {m : Nat} {e : Int} (h : Nearest f64 (i.natAbs : ℚ) (.fin m e)) :
    ∃ j : ℤ, Rounds i j ∧ val m e = j.natAbs ∧ isIntMag m e = true ∧ truncFlt (decide (i < 0)) m e = j := by
  obtain ⟨k, h1, h2⟩ := nearest_nat h
  refine ⟨if i < 0 then -(k : ℤ) else k, ⟨m, e, h, ?_, ?_⟩, ?_, (trunc_int h1).1, ?_⟩
  · split <;> simp [h1]
  · split <;> omega
  · split <;> simp [h1]
  · unfold truncFlt
    rw [(trunc_int h1).2]
    by_cases hi : i < 0 <;> simp [hi]

theorem rounds_unique {i j j' : ℤ} (h : Rounds i j) (h' : Rounds i j') : j = j' := by
  obtain ⟨m, e, h1, h2, h3⟩ := h
  obtain ⟨m', e', h1', h2', h3'⟩ := h'
  have u : ∀ {r}, Nearest f64 (i.natAbs : ℚ) r → r = round f64 i.natAbs 1 := fun hr => nearest_unique f64 f64_ok _ (by norm_num) (by simpa using hr)
  have := (u h1).trans (u h1').symm
  cases this
  rw [h2] at h2'
  have : j.natAbs = j'.natAbs := by exact_mod_cast h2'
  omega

theorem rounds_none {i : ℤ} (h : Nearest f64 (i.natAbs : ℚ) .inf) (j : ℤ) : ¬ Rounds i j := by
  rintro ⟨m, e, h1, _⟩
  exact absurd h1.2.1 (not_lt.2 h)

/-- An integer is rounded into the range of int64 exactly from -2^63 - 1024 to 2^63 - 513. -/
theorem rounds_signed {i j : ℤ} (h : Rounds i j) : -2 ^ 63 ≤ j ∧ j < 2 ^ 63 ↔ -2 ^ 63 - 1024 ≤ i ∧ i < 2 ^ 63 - 512 := by
  obtain ⟨m, e, h1, h2, h3⟩ := h
  have a := nearest_reach h1 (q := 11) (by decide) (by decide)
  have b := nearest_leave h1 (q := 11) (by decide) (by decide)
  rw [h2] at a b
  clear h1 h2
  generalize hj : j.natAbs = J at a b
  generalize hi : i.natAbs = I at a b
  norm_num at a b
  have a' : 2 ^ 63 ≤ J ↔ 2 ^ 63 - 512 ≤ I := by
    norm_num
    constructor
    · intro h; have := a.1 (by exact_mod_cast h); exact_mod_cast this
    · intro h; have := a.2 (by exact_mod_cast h); exact_mod_cast this
  have b' : J ≤ 2 ^ 63 ↔ I ≤ 2 ^ 63 + 1024 := by
    norm_num
    constructor
    · intro h; have := b.1 (by exact_mod_cast h); exact_mod_cast this
    · intro h; have := b.2 (by exact_mod_cast h); exact_mod_cast this
  omega

/-- An integer is rounded into the range of uint64 exactly from 0 to 2^64 - 1025. -/
theorem rounds_unsigned {i j : ℤ} (h : Rounds i j) : 0 ≤ j ∧ j < 2 ^ 64 ↔ 0 ≤ i ∧ i < 2 ^ 64 - 1024 := by
  obtain ⟨m, e, h1, h2, h3⟩ := h
  have a := nearest_reach h1 (q := 12) (by decide) (by decide)
  rw [h2] at a
  clear h1 h2
  generalize hj : j.natAbs = J at a
  generalize hi : i.natAbs = I at a
  norm_num at a
  have a' : 2 ^ 64 ≤ J ↔ 2 ^ 64 - 1024 ≤ I := by
    norm_num
    constructor
    · intro h; have := a.1 (by exact_mod_cast h); exact_mod_cast this
    · intro h; have := a.2 (by exact_mod_cast h); exact_mod_cast this
  omega

theorem rounds_exists {i : ℤ} (h : i.natAbs ≤ 2 ^ 65) : ∃ j, Rounds i j := by
  have hn := round_nearest f64 f64_ok i.natAbs (d := 1) (by norm_num)
  cases hr : round f64 i.natAbs 1 with
  | fin m e =>
    rw [hr] at hn
    obtain ⟨j, h, _⟩ := rounds_of (by simpa using hn)
    exact ⟨j, h⟩
  | inf =>
    rw [hr] at hn
    exfalso
    have h1 : overflow f64 ≤ (i.natAbs : ℚ) := by simpa [Nearest] using hn
    have h2 : (i.natAbs : ℚ) ≤ 2 ^ 65 := by exact_mod_cast h
    have h3 : (2 : ℚ) ^ 65 < overflow f64 := by
      unfold overflow
      have : (2 : ℚ) ^ (64 : ℤ) ≤ 2 ^ f64.emax := zpow_mono (by decide)
      have h4 : (2 : ℚ) ≤ 2 ^ f64.p - 1 / 2 := by simp only [f64]; norm_num
      have h5 : (2 : ℚ) * 2 ^ (64 : ℤ) < (2 ^ f64.p - 1 / 2) * 2 ^ f64.emax := by
        have h6 : (2 : ℚ) < 2 ^ f64.p - 1 / 2 := by simp only [f64]; norm_num
        have h7 := zpow_pos2 f64.emax
        nlinarith
      norm_num at h5 ⊢
      exact h5
    linarith

theorem conv_cases {i : ℤ} {s : Bytes} (h : IsDecimal i s) (lo hi bad : ℤ) :
    (∃ j, Rounds i j ∧ lo ≤ j ∧ j < hi ∧ convInt lo hi bad (parseFloat s) = j ∧ intFlag lo hi (parseFloat s) = true) ∨
    ((∀ j, Rounds i j → ¬ (lo ≤ j ∧ j < hi)) ∧ intFlag lo hi (parseFloat s) = false) := by
  obtain ⟨r, h1, h2⟩ := C41_rounded i s h
  rw [h1]
  cases r with
  | inf => exact .inr ⟨fun j hj => absurd hj (rounds_none h2 j), rfl⟩
  | fin m e =>
    obtain ⟨j, h3, h4, h5, h6⟩ := rounds_of h2
    by_cases hj : lo ≤ j ∧ j < hi
    · refine .inl ⟨j, h3, hj.1, hj.2, ?_, ?_⟩
      · simp only [convInt, h6]; rw [if_pos hj]
      · simp [intFlag, h5, h6, hj.1, hj.2]
    · refine .inr ⟨fun j' hj' => by rw [← rounds_unique h3 hj']; exact hj, ?_⟩
      simp only [intFlag, h5, h6, Bool.true_and, Bool.and_eq_false_iff, decide_eq_false_iff_not]
      omega

/-- **C42**, exactly: ParseInt of a decimal integer returns the integer rounded to a float64, or fails; it succeeds exactly for the integers
from -2^63 - 1024 to 2^63 - 513. -/
theorem C42_parseInt (i : ℤ) (s : Bytes) (h : IsDecimal i s) :
    ((parseInt s).2 = true ↔ -2 ^ 63 - 1024 ≤ i ∧ i < 2 ^ 63 - 512) ∧ ((parseInt s).2 = true → Rounds i (parseInt s).1) := by
  rcases conv_cases h (-2 ^ 63) (2 ^ 63) (-2 ^ 63) with ⟨j, h1, h2, h3, h4, h5⟩ | ⟨h1, h2⟩
  · have := (rounds_signed h1).1 ⟨h2, h3⟩
    refine ⟨⟨fun _ => this, fun _ => h5⟩, fun _ => ?_⟩
    unfold parseInt
    simp only [h4]
    exact h1
  · have hf : (parseInt s).2 = false := h2
    rw [hf]
    refine ⟨⟨by simp, fun hi => ?_⟩, by simp⟩
    obtain ⟨j, hj⟩ := rounds_exists (i := i) (by omega)
    exact absurd ((rounds_signed hj).2 hi) (h1 j hj)

/-- The same for ParseUint, which succeeds exactly for the integers from 0 to 2^64 - 1025. -/
theorem C42_parseUint (i : ℤ) (s : Bytes) (h : IsDecimal i s) :
    ((parseUint s).2 = true ↔ 0 ≤ i ∧ i < 2 ^ 64 - 1024) ∧ ((parseUint s).2 = true → Rounds i (parseUint s).1) := by
  rcases conv_cases h 0 (2 ^ 64) (2 ^ 63) with ⟨j, h1, h2, h3, h4, h5⟩ | ⟨h1, h2⟩
  · have := (rounds_unsigned h1).1 ⟨h2, h3⟩
    refine ⟨⟨fun _ => this, fun _ => h5⟩, fun _ => ?_⟩
    unfold parseUint
    simp only [h4]
    exact h1
  · have hf : (parseUint s).2 = false := h2
    rw [hf]
    refine ⟨⟨by simp, fun hi => ?_⟩, by simp⟩
    obtain ⟨j, hj⟩ := rounds_exists (i := i) (by omega)
    exact absurd ((rounds_unsigned hj).2 hi) (h1 j hj)

/-- Integers up to 2^53 are not changed by rounding, so that `Rounds` is what one expects. -/
theorem rounds_small {i : ℤ} (h : i.natAbs ≤ 2 ^ 53) : Rounds i i := by
  obtain ⟨j, hj⟩ := rounds_exists (i := i) (by omega)
  obtain ⟨m, e, h1, h2, h3⟩ := hj
  obtain ⟨m', e', h4, h5⟩ := nat_isFloat h
  have := (h1.2.2 m' e' h4).1
  rw [h5, sub_self, abs_zero] at this
  have := abs_eq_zero.1 (le_antisymm this (abs_nonneg _))
  exact ⟨m, e, h1, by linarith, Iff.rfl⟩

/-! ## C51 -/

theorem readInt_arrives {i : ℤ} {s : Bytes} (h : IsDecimal i s) : Arrives (-2 ^ 63) (2 ^ 63) i (readInt s) := by
  unfold readInt parseInt
  simp only
  rcases conv_cases h (-2 ^ 63) (2 ^ 63) (-2 ^ 63) with ⟨j, h1, h2, h3, h4, h5⟩ | ⟨h1, h2⟩
  · rw [h5, h4, if_pos rfl]; exact .rounded h1 h2 h3
  · rw [h2, if_neg (by simp), parseInt64_decimal h]
    by_cases hr : -2 ^ 63 ≤ i ∧ i < 2 ^ 63
    · rw [if_pos hr]; exact .itself h1 hr.1 hr.2
    · rw [if_neg hr]; exact .rejected h1 hr

theorem parseUint64_decimal {i : ℤ} {s : Bytes} (h : IsDecimal i s) :
    parseUint64 s = if 0 ≤ i ∧ i < 2 ^ 64 then some i.toNat else none := by
  obtain ⟨ds, h1, h2, rfl⟩ := h
  by_cases hi : i < 0
  · rw [if_pos hi, if_neg (by omega)]
    simp [parseUint64, NumJson.isDig]
  · rw [if_neg hi, List.nil_append, parseUint64_digits h1, h2]
    by_cases h64 : i < 2 ^ 64
    · rw [if_pos (by omega), if_pos (by omega)]; congr 1; omega
    · rw [if_neg (by omega), if_neg (by omega)]

theorem readUint_arrives {i : ℤ} {s : Bytes} (h : IsDecimal i s) : Arrives 0 (2 ^ 64) i ((readUint s).map Int.ofNat) := by
  unfold readUint parseUint
  simp only
  rcases conv_cases h 0 (2 ^ 64) (2 ^ 63) with ⟨j, h1, h2, h3, h4, h5⟩ | ⟨h1, h2⟩
  · rw [h5, h4, if_pos rfl]
    have : Int.ofNat j.toNat = j := by simp; omega
    rw [Option.map_some, this]
    exact .rounded h1 h2 h3
  · rw [h2, if_neg (by simp), parseUint64_decimal h]
    by_cases hr : 0 ≤ i ∧ i < 2 ^ 64
    · rw [if_pos hr]
      have : Int.ofNat i.toNat = i := by simp; omega
      rw [Option.map_some, this]
      exact .itself h1 hr.1 hr.2
    · rw [if_neg hr]; exact .rejected h1 hr

/-- **C51**, exactly, for signed integer variables of every width: `Unmarshal` of a decimal integer `i` either stores what arrives of `i` in
64 bits, modulo the width of the variable, without an error, or rejects `i` and leaves the variable alone. -/
theorem C51_signed {U : Univ} (hU : U.Ok) (hE : U.EmbedsStructs) {t e : Ty} {k : IKind} {x : ℤ} (ha : UnmarshalArg U t e (.int x))
    (hb : U.base e = .int k) (fuel : Nat) {d : Doc} (hd : d.Wf) (s : Bytes) {d' : Doc} {id : Nat} {raw : Bytes} {tail : Bytes}
    (hp : Parses d s d' id (.num raw) tail) {i : ℤ} (hdec : IsDecimal i raw)
    (r : Out (Option (Ty × GV))) (h : unmarshal U fuel d s (some (t, .ptr (.int x))) = some r) :
    (∃ j y, Arrives (-2 ^ 63) (2 ^ 63) i (some j) ∧ r = .done (some (t, .ptr (.int y))) none ∧
      -2 ^ (k.bits - 1) ≤ y ∧ y < 2 ^ (k.bits - 1) ∧ (2 ^ k.bits : ℤ) ∣ j - y) ∨
    (Arrives (-2 ^ 63) (2 ^ 63) i none ∧ r = .done (some (t, .ptr (.int x))) (some .strconv)) := by
  have hA := readInt_arrives hdec
  rcases unmarshal_tree hU hE ha fuel hd s r h hp with ⟨_, h, _⟩ | ⟨r', hq, rfl⟩
  · exact absurd h (int_accepted ha (.inl ⟨k, hb⟩) fuel _)
  · cases hr : readInt raw with
    | none =>
      rw [hr] at hA
      right
      rw [decodes_unique hq _ (.intErr hb hr)]
      exact ⟨hA, rfl⟩
    | some j =>
      rw [hr] at hA
      left
      have hd := Decodes.int (o := decodeOptions) (x := x) hb hr
      rw [decodes_unique hq _ hd]
      refine ⟨j, _, hA, rfl, (wrapInt_range k j).1, (wrapInt_range k j).2, ?_⟩
      unfold wrapInt
      have := Int.bmod_emod (x := j) (m := 2 ^ k.bits)
      have h2 : (j - Int.bmod j (2 ^ k.bits)) % ((2 ^ k.bits : ℕ) : ℤ) = 0 := by
        rw [Int.sub_emod, this]; simp
      exact_mod_cast Int.dvd_of_emod_eq_zero h2

/-- The same for unsigned integer variables. -/
theorem C51_unsigned {U : Univ} (hU : U.Ok) (hE : U.EmbedsStructs) {t e : Ty} {k : IKind} {x : Nat} (ha : UnmarshalArg U t e (.uint x))
    (hb : U.base e = .uint k) (fuel : Nat) {d : Doc} (hd : d.Wf) (s : Bytes) {d' : Doc} {id : Nat} {raw : Bytes} {tail : Bytes}
    (hp : Parses d s d' id (.num raw) tail) {i : ℤ} (hdec : IsDecimal i raw)
    (r : Out (Option (Ty × GV))) (h : unmarshal U fuel d s (some (t, .ptr (.uint x))) = some r) :
    (∃ (j y : Nat), Arrives 0 (2 ^ 64) i (some j) ∧ r = .done (some (t, .ptr (.uint y))) none ∧ y = j % 2 ^ k.bits) ∨
    (Arrives 0 (2 ^ 64) i none ∧ r = .done (some (t, .ptr (.uint x))) (some .strconv)) := by
  have hA := readUint_arrives hdec
  rcases unmarshal_tree hU hE ha fuel hd s r h hp with ⟨_, h, _⟩ | ⟨r', hq, rfl⟩
  · exact absurd h (int_accepted ha (.inr ⟨k, hb⟩) fuel _)
  · cases hr : readUint raw with
    | none =>
      rw [hr] at hA
      right
      rw [decodes_unique hq _ (.uintErr hb hr)]
      exact ⟨hA, rfl⟩
    | some j =>
      rw [hr] at hA
      left
      rw [decodes_unique hq _ (.uint (o := decodeOptions) (x := x) hb hr)]
      exact ⟨j, _, hA, rfl, rfl⟩

/-- The integers that are rejected: for signed variables, whatever their width, those of 2^63 and more and those below -2^63 - 1024; for
unsigned ones the negative ones and those of 2^64 and more. -/
theorem C51_rejected (i : ℤ) :
    (Arrives (-2 ^ 63) (2 ^ 63) i none ↔ i < -2 ^ 63 - 1024 ∨ 2 ^ 63 ≤ i) ∧ (Arrives 0 (2 ^ 64) i none ↔ i < 0 ∨ 2 ^ 64 ≤ i) := by
  constructor <;> constructor
  · intro h
    cases h with
    | rejected h1 h2 =>
      by_contra hc
      obtain ⟨j, hj⟩ := rounds_exists (i := i) (by omega)
      have := h1 j hj
      rw [rounds_signed hj] at this
      omega
  · intro h
    refine .rejected (fun j hj hr => ?_) (by omega)
    rw [rounds_signed hj] at hr
    omega
  · intro h
    cases h with
    | rejected h1 h2 => omega
  · intro h
    refine .rejected (fun j hj hr => ?_) (by omega)
    rw [rounds_unsigned hj] at hr
    omega

/-- What arrives is the integer itself up to 2^53 and in the last part of the range. -/
theorem C51_itself (i j : ℤ) : (i.natAbs ≤ 2 ^ 53 ∨ 2 ^ 63 - 512 ≤ i → Arrives (-2 ^ 63) (2 ^ 63) i (some j) → j = i) ∧
    (i.natAbs ≤ 2 ^ 53 ∨ 2 ^ 64 - 1024 ≤ i → Arrives 0 (2 ^ 64) i (some j) → j = i) := by
  constructor
  · intro h ha
    cases ha with
    | itself => rfl
    | rounded h1 h2 h3 =>
      rcases h with h | h
      · exact rounds_unique h1 (rounds_small h)
      · have := (rounds_signed h1).1 ⟨h2, h3⟩; omega
  · intro h ha
    cases ha with
    | itself => rfl
    | rounded h1 h2 h3 =>
      rcases h with h | h
      · exact rounds_unique h1 (rounds_small h)
      · have := (rounds_unsigned h1).1 ⟨h2, h3⟩; omega

/-! ## Numbers of every form -/

theorem isInt_nat {m : Nat} {e : Int} (h : isIntMag m e = true) : val m e = (truncMag m e : ℚ) := by
  have w2 := (pow2_pos e).2
  have w2q : ((pow2 e).2 : ℚ) ≠ 0 := by exact_mod_cast w2.ne'
  have hm : m * (pow2 e).1 = truncMag m e * (pow2 e).2 := by
    unfold isIntMag at h
    unfold truncMag
    simp only [beq_iff_eq] at h
    exact (Nat.div_mul_cancel (Nat.dvd_of_mod_eq_zero h)).symm
  unfold val
  rw [← pow2_val]
  have hm' : (m : ℚ) * (pow2 e).1 = truncMag m e * (pow2 e).2 := by exact_mod_cast hm
  rw [← mul_div_assoc, hm', mul_div_assoc, div_self w2q, mul_one]

theorem floatInt_trunc {neg : Bool} {m : Nat} {e : Int} {j : ℤ} (h : FloatInt (.num neg (.fin m e)) j) : isIntMag m e = true ∧ truncFlt neg m e = j := by
  obtain ⟨_, _, _, ⟨⟩, h1, h2, h3⟩ := h
  obtain ⟨h4, h5⟩ := trunc_int h1
  refine ⟨h4, ?_⟩
  unfold truncFlt
  rw [h5]
  cases neg
  · have := h3 rfl; rw [if_neg (by decide)]; omega
  · have := h2 rfl; rw [if_pos rfl]; omega

theorem floatInt_of {neg : Bool} {m : Nat} {e : Int} (h : isIntMag m e = true) : FloatInt (.num neg (.fin m e)) (truncFlt neg m e) := by
  refine ⟨_, _, _, rfl, ?_, ?_, ?_⟩
  · rw [isInt_nat h]
    have : truncMag m e = (truncFlt neg m e).natAbs := by unfold truncFlt; cases neg <;> simp
    rw [this]
  · rintro rfl; simp [truncFlt]
  · rintro rfl; simp [truncFlt]

theorem conv_text (f : Flt) (lo hi bad : ℤ) :
    (∃ j, FloatInt f j ∧ lo ≤ j ∧ j < hi ∧ convInt lo hi bad f = j ∧ intFlag lo hi f = true) ∨
    ((∀ j, FloatInt f j → ¬ (lo ≤ j ∧ j < hi)) ∧ intFlag lo hi f = false) := by
  by_cases h : ∃ j, FloatInt f j ∧ lo ≤ j ∧ j < hi
  · obtain ⟨j, h1, h2, h3⟩ := h
    refine .inl ⟨j, h1, h2, h3, ?_⟩
    have h1' := h1
    obtain ⟨neg, m, e, rfl, _⟩ := h1'
    obtain ⟨h4, h5⟩ := floatInt_trunc h1
    simp [convInt, intFlag, h4, h5, h2, h3]
  · refine .inr ⟨fun j h1 h2 => h ⟨j, h1, h2⟩, ?_⟩
    unfold intFlag
    split
    · rename_i neg m e
      by_contra hc
      simp only [Bool.not_eq_false, Bool.and_eq_true, decide_eq_true_eq] at hc
      exact h ⟨_, floatInt_of hc.1.1, hc.1.2, hc.2⟩
    · rfl

/-- **C42** for every text: ParseInt and ParseUint succeed exactly when ParseFloat returns an integer in the range, and return this integer. -/
theorem C42_text (s : Bytes) : (∀ j, parseInt s = (j, true) ↔ FloatInt (parseFloat s) j ∧ -2 ^ 63 ≤ j ∧ j < 2 ^ 63) ∧
    (∀ j, parseUint s = (j, true) ↔ FloatInt (parseFloat s) j ∧ 0 ≤ j ∧ j < 2 ^ 64) := by
  have uniq : ∀ {f j j'}, FloatInt f j → FloatInt f j' → j = j' := by
    intro f j j' h h'
    have h1 := h
    obtain ⟨neg, m, e, rfl, _⟩ := h1
    exact (floatInt_trunc h).2.symm.trans (floatInt_trunc h').2
  have key : ∀ lo hi bad j, (convInt lo hi bad (parseFloat s), intFlag lo hi (parseFloat s)) = (j, true) ↔ FloatInt (parseFloat s) j ∧ lo ≤ j ∧ j < hi := by
    intro lo hi bad j
    rcases conv_text (parseFloat s) lo hi bad with ⟨j', h1, h2, h3, h4, h5⟩ | ⟨h1, h2⟩
    · rw [h4, h5]
      constructor
      · intro h; cases h; exact ⟨h1, h2, h3⟩
      · rintro ⟨h, _⟩; rw [uniq h h1]
    · rw [h2]
      simp only [Prod.mk.injEq, Bool.false_eq_true, and_false, false_iff]
      rintro ⟨h, h'⟩
      exact h1 j h h'
  exact ⟨fun j => key _ _ _ j, fun j => key _ _ _ j⟩

theorem parseUint64_iff (s : Bytes) (n : Nat) : parseUint64 s = some n ↔ StrconvUint s n := by
  unfold parseUint64 StrconvUint
  by_cases h0 : s = []
  · subst h0; simp [Digits]
  rw [if_neg h0]
  by_cases h1 : s.all NumJson.isDig = true
  · rw [if_pos h1, NumJson.digitsVal_eq]
    have hd : Digits s := NumJson.digits_of (fun b hb => List.all_eq_true.1 h1 b hb) h0
    split
    · rename_i h2
      simp only [Option.some.injEq, hd, true_and]
      omega
    · rename_i h2
      simp only [hd, true_and, reduceCtorEq, false_iff]
      omega
  · rw [if_neg h1]
    simp only [reduceCtorEq, false_iff]
    rintro ⟨hd, _⟩
    exact h1 (List.all_eq_true.2 (NumJson.allDig_of hd))

theorem parseInt64_iff (s : Bytes) (i : ℤ) : parseInt64 s = some i ↔ StrconvInt s i := by
  have key : ∀ (ds : Bytes) (neg : Bool), (∃ n, parseUint64 ds = some n ∧ (if neg then n ≤ 2 ^ 63 else n < 2 ^ 63) ∧ (if neg then -(n : ℤ) else n) = i) ↔
      Digits ds ∧ i = (if neg then -(natOf ds : ℤ) else natOf ds) ∧ -2 ^ 63 ≤ i ∧ i < 2 ^ 63 := by
    intro ds neg
    constructor
    · rintro ⟨n, hp, h3, h4⟩
      obtain ⟨h1, h2, _⟩ := (parseUint64_iff ds n).1 hp
      have h2 : n = natOf ds := by exact_mod_cast h2
      subst h2
      refine ⟨h1, h4.symm, ?_⟩
      cases neg <;> simp at h3 h4 <;> omega
    · rintro ⟨h1, h2, h3, h4⟩
      have : natOf ds < 2 ^ 64 := by cases neg <;> simp at h2 <;> omega
      refine ⟨natOf ds, (parseUint64_iff ds _).2 ⟨h1, rfl, by exact_mod_cast this⟩, ?_, h2.symm⟩
      cases neg <;> simp at h2 ⊢ <;> omega
  unfold parseInt64
  split
  · rename_i ds
    refine Iff.trans ?_ (Iff.trans (key ds true) ?_)
    · cases parseUint64 ds <;> simp
    constructor
    · rintro ⟨h1, h2, h3⟩
      exact ⟨b!"-", ds, rfl, h1, .inr (.inr rfl), by simpa using h2, h3⟩
    · rintro ⟨sign, ds', h1, h2, h3, h4, h5⟩
      rcases h3 with rfl | rfl | rfl
      · rw [List.nil_append] at h1
        subst h1
        exact absurd (h2.2 45 List.mem_cons_self) (by unfold IsDigitByte; decide)
      · cases h1
      · cases h1
        exact ⟨h2, by simpa using h4, h5⟩
  · rename_i ds
    refine Iff.trans ?_ (Iff.trans (key ds false) ?_)
    · cases parseUint64 ds <;> simp
    constructor
    · rintro ⟨h1, h2, h3⟩
      exact ⟨b!"+", ds, rfl, h1, .inr (.inl rfl), by simpa using h2, h3⟩
    · rintro ⟨sign, ds', h1, h2, h3, h4, h5⟩
      rcases h3 with rfl | rfl | rfl
      · rw [List.nil_append] at h1
        subst h1
        exact absurd (h2.2 43 List.mem_cons_self) (by unfold IsDigitByte; decide)
      · cases h1
        exact ⟨h2, by simpa using h4, h5⟩
      · cases h1
  · rename_i n1 n2
    refine Iff.trans ?_ (Iff.trans (key s false) ?_)
    · cases parseUint64 s <;> simp
    constructor
    · rintro ⟨h1, h2, h3⟩
      exact ⟨[], s, rfl, h1, .inl rfl, by simpa using h2, h3⟩
    · rintro ⟨sign, ds', h1, h2, h3, h4, h5⟩
      rcases h3 with rfl | rfl | rfl
      · rw [List.nil_append] at h1
        subst h1
        exact ⟨h2, by simpa using h4, h5⟩
      · exact absurd h1 (n2 _)
      · exact absurd h1 (n1 _)

theorem readInt_text (s : Bytes) : ArrivesText (-2 ^ 63) (2 ^ 63) StrconvInt (parseFloat s) s (readInt s) := by
  unfold readInt parseInt
  simp only
  rcases conv_text (parseFloat s) (-2 ^ 63) (2 ^ 63) (-2 ^ 63) with ⟨j, h1, h2, h3, h4, h5⟩ | ⟨h1, h2⟩
  · rw [h5, h4, if_pos rfl]; exact .float h1 h2 h3
  · rw [h2, if_neg (by simp)]
    cases hp : parseInt64 s with
    | none => exact .rejected h1 fun i hi => by rw [(parseInt64_iff s i).2 hi] at hp; cases hp
    | some i => exact .strconv h1 ((parseInt64_iff s i).1 hp)

theorem readUint_text (s : Bytes) : ArrivesText 0 (2 ^ 64) StrconvUint (parseFloat s) s ((readUint s).map Int.ofNat) := by
  unfold readUint parseUint
  simp only
  rcases conv_text (parseFloat s) 0 (2 ^ 64) (2 ^ 63) with ⟨j, h1, h2, h3, h4, h5⟩ | ⟨h1, h2⟩
  · rw [h5, h4, if_pos rfl]
    have : Int.ofNat j.toNat = j := by simp; omega
    rw [Option.map_some, this]
    exact .float h1 h2 h3
  · rw [h2, if_neg (by simp)]
    cases hp : parseUint64 s with
    | none =>
      refine .rejected h1 fun i hi => ?_
      obtain ⟨n, rfl⟩ : ∃ n : Nat, i = n := ⟨_, hi.2.1⟩
      rw [(parseUint64_iff s n).2 hi] at hp; cases hp
    | some n => exact .strconv h1 ((parseUint64_iff s n).1 hp)

/-- **C51** for numbers of every form, into signed integer variables of every width: `Unmarshal` stores, modulo the width, the float that
ParseFloat returns if it is an integer in the range of int64, otherwise the integer that strconv reads; if there is none, it returns an
error and leaves the variable alone. -/
theorem C51_text_signed {U : Univ} (hU : U.Ok) (hE : U.EmbedsStructs) {t e : Ty} {k : IKind} {x : ℤ} (ha : UnmarshalArg U t e (.int x))
    (hb : U.base e = .int k) (fuel : Nat) {d : Doc} (hd : d.Wf) (s : Bytes) {d' : Doc} {id : Nat} {raw : Bytes} {tail : Bytes}
    (hp : Parses d s d' id (.num raw) tail)
    (r : Out (Option (Ty × GV))) (h : unmarshal U fuel d s (some (t, .ptr (.int x))) = some r) :
    (∃ j y, ArrivesText (-2 ^ 63) (2 ^ 63) StrconvInt (parseFloat raw) raw (some j) ∧ r = .done (some (t, .ptr (.int y))) none ∧
      -2 ^ (k.bits - 1) ≤ y ∧ y < 2 ^ (k.bits - 1) ∧ (2 ^ k.bits : ℤ) ∣ j - y) ∨
    (ArrivesText (-2 ^ 63) (2 ^ 63) StrconvInt (parseFloat raw) raw none ∧ r = .done (some (t, .ptr (.int x))) (some .strconv)) := by
  have hA := readInt_text raw
  rcases unmarshal_tree hU hE ha fuel hd s r h hp with ⟨_, h, _⟩ | ⟨r', hq, rfl⟩
  · exact absurd h (int_accepted ha (.inl ⟨k, hb⟩) fuel _)
  · cases hr : readInt raw with
    | none =>
      rw [hr] at hA
      right
      rw [decodes_unique hq _ (.intErr hb hr)]
      exact ⟨hA, rfl⟩
    | some j =>
      rw [hr] at hA
      left
      rw [decodes_unique hq _ (.int (o := decodeOptions) (x := x) hb hr)]
      refine ⟨j, _, hA, rfl, (wrapInt_range k j).1, (wrapInt_range k j).2, ?_⟩
      unfold wrapInt
      have := Int.bmod_emod (x := j) (m := 2 ^ k.bits)
      have h2 : (j - Int.bmod j (2 ^ k.bits)) % ((2 ^ k.bits : ℕ) : ℤ) = 0 := by
        rw [Int.sub_emod, this]; simp
      exact_mod_cast Int.dvd_of_emod_eq_zero h2

/-- The same for unsigned integer variables. -/
theorem C51_text_unsigned {U : Univ} (hU : U.Ok) (hE : U.EmbedsStructs) {t e : Ty} {k : IKind} {x : Nat} (ha : UnmarshalArg U t e (.uint x))
    (hb : U.base e = .uint k) (fuel : Nat) {d : Doc} (hd : d.Wf) (s : Bytes) {d' : Doc} {id : Nat} {raw : Bytes} {tail : Bytes}
    (hp : Parses d s d' id (.num raw) tail)
    (r : Out (Option (Ty × GV))) (h : unmarshal U fuel d s (some (t, .ptr (.uint x))) = some r) :
    (∃ (j y : Nat), ArrivesText 0 (2 ^ 64) StrconvUint (parseFloat raw) raw (some j) ∧ r = .done (some (t, .ptr (.uint y))) none ∧ y = j % 2 ^ k.bits) ∨
    (ArrivesText 0 (2 ^ 64) StrconvUint (parseFloat raw) raw none ∧ r = .done (some (t, .ptr (.uint x))) (some .strconv)) := by
  have hA := readUint_text raw
  rcases unmarshal_tree hU hE ha fuel hd s r h hp with ⟨_, h, _⟩ | ⟨r', hq, rfl⟩
  · exact absurd h (int_accepted ha (.inr ⟨k, hb⟩) fuel _)
  · cases hr : readUint raw with
    | none =>
      rw [hr] at hA
      right
      rw [decodes_unique hq _ (.uintErr hb hr)]
      exact ⟨hA, rfl⟩
    | some j =>
      rw [hr] at hA
      left
      rw [decodes_unique hq _ (.uint (o := decodeOptions) (x := x) hb hr)]
      exact ⟨j, _, hA, rfl, rfl⟩

-- numbers with a fraction or an exponent
example : parseInt b!"1.5e1" = (15, true) ∧ FloatInt (parseFloat b!"1.5e1") 15 ∧ (parseInt b!"1.5").2 = false := by
  refine ⟨by decide +kernel, ?_, by decide +kernel⟩
  exact ((C42_text _).1 15).1 (by decide +kernel) |>.1

-- the ends of the ranges
example : unmarshal exU 30 Doc.empty b!"9223372036854775807" (some (.ptr (.int .b64), .ptr (.int 0))) =
      some (.done (some (.ptr (.int .b64), .ptr (.int 9223372036854775807))) none) ∧
    unmarshal exU 30 Doc.empty b!"9223372036854775295" (some (.ptr (.int .b64), .ptr (.int 0))) =
      some (.done (some (.ptr (.int .b64), .ptr (.int 9223372036854774784))) none) ∧
    unmarshal exU 30 Doc.empty b!"-9223372036854776832" (some (.ptr (.int .b64), .ptr (.int 0))) =
      some (.done (some (.ptr (.int .b64), .ptr (.int (-9223372036854775808)))) none) ∧
    unmarshal exU 30 Doc.empty b!"-9223372036854776833" (some (.ptr (.int .b64), .ptr (.int 5))) =
      some (.done (some (.ptr (.int .b64), .ptr (.int 5))) (some .strconv)) ∧
    unmarshal exU 30 Doc.empty b!"18446744073709551615" (some (.ptr (.uint .b8), .ptr (.uint 0))) =
      some (.done (some (.ptr (.uint .b8), .ptr (.uint 255))) none) := by
  refine ⟨eq_of_sameX ?_, eq_of_sameX ?_, eq_of_sameX ?_, eq_of_sameX ?_, eq_of_sameX ?_⟩ <;> decide +kernel

example : IsDecimal (-9223372036854776832) b!"-9223372036854776832" ∧ Arrives (-2 ^ 63) (2 ^ 63) 9223372036854775807 (some 9223372036854775807) := by
  refine ⟨⟨b!"9223372036854776832", ⟨by simp, by unfold IsDigitByte; decide⟩, by decide +kernel, rfl⟩, .itself (fun j hj hr => ?_) (by norm_num) (by norm_num)⟩
  rw [rounds_signed hj] at hr
  omega

end Verif.Props
