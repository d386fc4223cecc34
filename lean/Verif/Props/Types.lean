import Verif.Model.Types

/-!
# Properties of the type masks (C39, C58, C59)
-/

namespace Verif.Props
open Verif Verif.Njson

/-! ## C39 -/

/-- The single-bit masks, in increasing order. -/
def bitMasks : List UInt8 := [1, 2, 4, 8, 16, 32, 64, 128]

theorem bitMasks_all : ∀ b : UInt8, b ∈ bitMasks ↔ b ≠ 0 ∧ b &&& (b - 1) = 0 := forall_byte (by decide +kernel)

/-- **C39**: for every mask, `Types()` is strictly increasing (so no type occurs twice), contains exactly the
single-bit masks contained in the mask, and its union is the mask. -/
theorem C39_types (t : UInt8) :
    (typTypes t).Pairwise (fun a b => a.toNat < b.toNat) ∧
    (∀ b : UInt8, b ∈ typTypes t ↔ (b ≠ 0 ∧ b &&& (b - 1) = 0) ∧ t &&& b = b) ∧
    (typTypes t).foldl (· ||| ·) 0 = t := by
  refine ⟨?_, fun b => ?_, ?_⟩
  · revert t; exact forall_byte (by decide +kernel)
  · rw [← bitMasks_all]
    have h : ∀ t : UInt8, typTypes t = bitMasks.filter (fun b => t &&& b = b) := forall_byte (by decide +kernel)
    rw [h, List.mem_filter]
    simp
  · revert t; exact forall_byte (by decide +kernel)

/-- **C39**: `IsValue` is true exactly for the masks meeting one of the six JSON types. -/
theorem C39_isValue (t : UInt8) :
    typIsValue t = true ↔ ∃ b ∈ [tString, tObject, tArray, tNumber, tBoolean, tNull], t &&& b ≠ 0 := by
  revert t; exact forall_byte (by decide +kernel)

/-- The six JSON types are six different single bits, none of them `TypeInvalid`. -/
theorem C39_distinct : [tString, tObject, tArray, tNumber, tBoolean, tNull].Nodup ∧
    (∀ b ∈ [tString, tObject, tArray, tNumber, tBoolean, tNull], b ∈ bitMasks) ∧ tInvalid = 0 := by
  refine ⟨?_, ?_, ?_⟩ <;> decide

/-- A mask with two types. -/
example : typTypes (tString ||| tNull) = [tString, tNull] := by decide +kernel

/-! ## C58 -/

/-- **C58**: the name of a mask made of the six JSON types determines it. -/
theorem C58_names_distinct (t u : UInt8) (ht : t &&& tAnyValue = t) (hu : u &&& tAnyValue = u)
    (h : typString t = typString u) : t = u := by
  have key : ∀ t u : UInt8, t &&& tAnyValue = t → u &&& tAnyValue = u → typString t = typString u → t = u :=
    forall_byte₂ (by decide +kernel)
  exact key t u ht hu h

/-- **C58**: outside the six JSON types names are not distinct: all three masks without a name of their own
print like `TypeInvalid`. -/
theorem C58_invalid (t : UInt8) : typString t = b!"InvalidToken" ↔ t = 0 ∨ t = 1 ∨ t = 128 := by
  revert t; exact forall_byte (by decide +kernel)

example : typString (tString ||| tNumber) = b!"[String Number]" := by decide +kernel

/-! ## C59 -/

/-- **C59**: the type and the root flag of a node do not interfere: a constructor stores its type and the flag,
a setter stores its type and keeps the flag, `Parse` and adoption change the flag and keep the type. -/
theorem C59_info (i : UInt16) (t : UInt8) :
    infoType (infoNew t) = t ∧ infoIsRoot (infoNew t) = true ∧
    infoType (infoSet t i) = t ∧ infoIsRoot (infoSet t i) = infoIsRoot i ∧
    infoType (infoMark i) = infoType i ∧ infoIsRoot (infoMark i) = true ∧
    infoType (infoAdopt i) = infoType i ∧ infoIsRoot (infoAdopt i) = false := by
  have or8 : ∀ a b : UInt16, infoType (a ||| b) = infoType a ||| infoType b := fun a b => UInt16.toUInt8_or a b
  have and8 : ∀ a b : UInt16, infoType (a &&& b) = infoType a &&& infoType b := fun a b => UInt16.toUInt8_and a b
  have low : ∀ t : UInt8, infoType t.toUInt16 = t := forall_byte (by decide +kernel)
  have low' : ∀ t : UInt8, t.toUInt16 &&& infRoot = 0 := forall_byte (by decide +kernel)
  have r0 : infoType infRoot = 0 := by decide
  have fl : infoType (infoFlags i) = 0 := by
    rw [infoFlags, and8, show infoType 0xFF00 = 0 from by decide]; exact UInt8.and_zero
  have ff : infoFlags i &&& infRoot = i &&& infRoot := by
    rw [infoFlags, UInt16.and_assoc]; rfl
  have dist : ∀ a b : UInt16, (a ||| b) &&& infRoot = (a &&& infRoot) ||| (b &&& infRoot) := by
    intro a b
    apply UInt16.toBitVec_inj.1
    ext k hk
    simp [Bool.and_or_distrib_right]
  have root : ∀ a b : UInt16, a &&& infRoot = b → infoIsRoot a = decide (b = infRoot) := by
    intro a b h; subst h; rfl
  refine ⟨?_, ?_, ?_, ?_, ?_, ?_, ?_, ?_⟩
  · rw [infoNew, or8, low, r0]; exact UInt8.or_zero
  · rw [infoNew, root _ infRoot (by rw [dist, low']; decide)]; decide
  · rw [infoSet, or8, low, fl]; exact UInt8.or_zero
  · rw [infoSet, root _ (i &&& infRoot) (by rw [dist, low', ff, UInt16.zero_or])]; rfl
  · rw [infoMark, or8, r0]; exact UInt8.or_zero
  · have : (i &&& infRoot) ||| infRoot = infRoot := by
      apply UInt16.toBitVec_inj.1
      ext k hk
      simp
    rw [infoMark, root _ infRoot (by rw [dist, UInt16.and_self, this])]; decide
  · rw [infoAdopt, and8, show infoType (~~~ infRoot) = 255 from by decide +kernel]
    exact UInt8.and_neg_one
  · rw [infoAdopt, root _ 0 (by
      rw [UInt16.and_assoc, show (~~~ infRoot) &&& infRoot = 0 from by decide +kernel, UInt16.and_zero])]
    decide

example : infoType (infoSet tNumber (infoNew tObject)) = tNumber ∧ infoIsRoot (infoSet tNumber (infoNew tObject)) = true := by
  decide +kernel

/-- **C59, IsValue**: whether a node holds a value is decided by its type alone, whatever the flags. -/
theorem C59_isValue (i : UInt16) :
    infoIsValue i = true ↔ ∃ b ∈ [tString, tObject, tArray, tNumber, tBoolean, tNull], infoType i &&& b ≠ 0 := by
  rw [← C39_isValue]
  have h : infoIsValue i = typIsValue (infoType i) := by
    unfold infoIsValue typIsValue infoType
    have e : ((i &&& tAnyValue.toUInt16) = 0) ↔ ((i.toUInt8 &&& tAnyValue) = 0) := by
      rw [← UInt16.toNat_inj, ← UInt8.toNat_inj]
      rw [UInt16.toNat_and, UInt8.toNat_and, UInt16.toNat_toUInt8]
      rw [show tAnyValue.toUInt16.toNat = tAnyValue.toNat from by decide]
      have h1 : i.toNat &&& tAnyValue.toNat < 2 ^ 8 := Nat.lt_of_le_of_lt Nat.and_le_right (by decide)
      have h2 := Nat.and_mod_two_pow (a := i.toNat) (b := tAnyValue.toNat) (n := 8)
      rw [Nat.mod_eq_of_lt h1, Nat.mod_eq_of_lt (show tAnyValue.toNat < 2 ^ 8 by decide)] at h2
      rw [h2]
      rfl
    simp only [ne_eq, e]
  rw [h]

end Verif.Props
