import Verif.Spec.Compact
import Verif.Proofs.Serial

/-! # What is left of a text without white space is the compact text of its tree -/

namespace Verif
open Verif.Spec

theorem compactFrom_ws {w : Bytes} (hw : IsWs w) (r : Bytes) : compactFrom .out (w ++ r) = compactFrom .out r := by
  induction w with
  | nil => rfl
  | cons c w ih =>
    have hc := hw c (by simp)
    rw [List.cons_append, compactFrom, if_pos hc]
    exact ih fun b hb => hw b (by simp [hb])

theorem compactFrom_esc {s : Bytes} (h : EscBody s) (r : Bytes) : compactFrom .str (s ++ 34 :: r) = s ++ 34 :: compactFrom .out r := by
  induction h with
  | nil => simp [compactFrom]
  | plain h1 h2 _ ih => simp [compactFrom, h1, h2, ih]
  | esc c _ ih => simp [compactFrom, ih]

/-- Bytes outside of strings that are kept -/
def Solid (s : Bytes) : Prop := ∀ c ∈ s, ¬ (c = 0x20 ∨ c = 0x09 ∨ c = 0x0A ∨ c = 0x0D) ∧ c ≠ 34

theorem compactFrom_solid {s : Bytes} (h : Solid s) (r : Bytes) : compactFrom .out (s ++ r) = s ++ compactFrom .out r := by
  induction s with
  | nil => rfl
  | cons c s ih =>
    have hc := h c (by simp)
    rw [List.cons_append, compactFrom, if_neg hc.1, if_neg hc.2, ih fun b hb => h b (by simp [hb])]
    rfl

theorem compactFrom_quoted {s : Bytes} (h : EscBody s) (r : Bytes) : compactFrom .out ([34] ++ s ++ [34] ++ r) = [34] ++ s ++ [34] ++ compactFrom .out r := by
  have := compactFrom_esc h r
  simp [compactFrom, this]

theorem compactFrom_one {c : UInt8} (h : Solid [c]) (r : Bytes) : compactFrom .out (c :: r) = c :: compactFrom .out r :=
  compactFrom_solid h r

theorem serElems_cons2 (x y : JVal) (ys : List JVal) : serElems (x :: y :: ys) = x.ser ++ [44] ++ serElems (y :: ys) := by
  rw [serElems]; simp

theorem serMembers_cons2 (k : Bytes) (x : JVal) (m : Bytes × JVal) (ms : List (Bytes × JVal)) :
    serMembers ((k, x) :: m :: ms) = [34] ++ k ++ [34, 58] ++ x.ser ++ [44] ++ serMembers (m :: ms) := by
  rw [serMembers]; simp

theorem gelems_ne {S K N : Bytes → Prop} {b : Bytes} {xs : List JVal} (h : GElems S K N b xs) : ∃ x ys, xs = x :: ys := by
  cases h <;> exact ⟨_, _, rfl⟩

theorem gmembers_ne {S K N : Bytes → Prop} {b : Bytes} {xs : List (Bytes × JVal)} (h : GMembers S K N b xs) : ∃ x ys, xs = x :: ys := by
  cases h <;> exact ⟨_, _, rfl⟩

mutual
theorem compact_gval {N : Bytes → Prop} (hN : ∀ s, N s → Solid s) {v : Bytes} {t : JVal} (h : GVal EscBody EscBody N v t) (r : Bytes) :
    compactFrom .out (v ++ r) = t.ser ++ compactFrom .out r := by
  cases h with
  | null => exact compactFrom_solid (by unfold Solid; decide) r
  | true => exact compactFrom_solid (by unfold Solid; decide) r
  | false => exact compactFrom_solid (by unfold Solid; decide) r
  | num h => exact compactFrom_solid (hN _ h) r
  | str h => rw [JVal.ser]; exact compactFrom_quoted h r
  | arr0 hw =>
    simp only [JVal.ser, serElems, List.append_assoc, List.cons_append, List.nil_append]
    rw [compactFrom_one (by unfold Solid; decide), compactFrom_ws hw, compactFrom_one (by unfold Solid; decide)]
  | arr hw hb =>
    simp only [JVal.ser, List.append_assoc, List.cons_append, List.nil_append]
    rw [compactFrom_one (by unfold Solid; decide), compactFrom_ws hw, compact_gelems hN hb, compactFrom_one (by unfold Solid; decide)]
  | obj0 hw =>
    simp only [JVal.ser, serMembers, List.append_assoc, List.cons_append, List.nil_append]
    rw [compactFrom_one (by unfold Solid; decide), compactFrom_ws hw, compactFrom_one (by unfold Solid; decide)]
  | obj hw hb =>
    simp only [JVal.ser, List.append_assoc, List.cons_append, List.nil_append]
    rw [compactFrom_one (by unfold Solid; decide), compactFrom_ws hw, compact_gmembers hN hb, compactFrom_one (by unfold Solid; decide)]

theorem compact_gelems {N : Bytes → Prop} (hN : ∀ s, N s → Solid s) {b : Bytes} {xs : List JVal} (h : GElems EscBody EscBody N b xs) (r : Bytes) :
    compactFrom .out (b ++ r) = serElems xs ++ compactFrom .out r := by
  cases h with
  | one hv hw =>
    rw [List.append_assoc, compact_gval hN hv, compactFrom_ws hw, serElems]
  | cons hv hw hw' hb =>
    obtain ⟨y, ys, rfl⟩ := gelems_ne hb
    rw [serElems_cons2]
    simp only [List.append_assoc, List.cons_append, List.nil_append]
    rw [compact_gval hN hv, compactFrom_ws hw, compactFrom_one (by unfold Solid; decide), compactFrom_ws hw', compact_gelems hN hb]

theorem compact_gmembers {N : Bytes → Prop} (hN : ∀ s, N s → Solid s) {b : Bytes} {ms : List (Bytes × JVal)} (h : GMembers EscBody EscBody N b ms) (r : Bytes) :
    compactFrom .out (b ++ r) = serMembers ms ++ compactFrom .out r := by
  cases h with
  | one hk hw1 hw2 hv hw =>
    have := fun r => compactFrom_quoted hk r
    rw [serMembers]
    simp only [List.append_assoc, List.cons_append, List.nil_append] at this ⊢
    rw [this, compactFrom_ws hw1, compactFrom_one (by unfold Solid; decide), compactFrom_ws hw2, compact_gval hN hv, compactFrom_ws hw]
  | cons hk hw1 hw2 hv hw hw' hb =>
    have := fun r => compactFrom_quoted hk r
    obtain ⟨y, ys, rfl⟩ := gmembers_ne hb
    rw [serMembers_cons2]
    simp only [List.append_assoc, List.cons_append, List.nil_append] at this ⊢
    rw [this, compactFrom_ws hw1, compactFrom_one (by unfold Solid; decide), compactFrom_ws hw2, compact_gval hN hv, compactFrom_ws hw,
      compactFrom_one (by unfold Solid; decide), compactFrom_ws hw', compact_gmembers hN hb]
end

/-! ## deleting white space, for texts that are not JSON as well -/

theorem Spec.DropsWs.refl : ∀ s : Bytes, DropsWs s s
  | [] => .nil
  | c :: s => .keep c (DropsWs.refl s)

theorem Spec.DropsWs.ws {w s s' : Bytes} (hw : IsWs w) (h : DropsWs s s') : DropsWs (w ++ s) s' := by
  induction w with
  | nil => exact h
  | cons c w ih => exact .drop c (hw c (by simp)) (ih fun b hb => hw b (by simp [hb]))

theorem Spec.DropsWs.append {a a' b b' : Bytes} (h1 : DropsWs a a') (h2 : DropsWs b b') : DropsWs (a ++ b) (a' ++ b') := by
  induction h1 with
  | nil => exact h2
  | keep c _ ih => exact .keep c ih
  | drop c hc _ ih => exact .drop c hc ih

theorem Spec.DropsWs.wsNil {w : Bytes} (hw : IsWs w) : DropsWs w [] := by
  have := DropsWs.ws hw .nil
  rwa [List.append_nil] at this

theorem Spec.DropsWs.sublist {s s' : Bytes} (h : DropsWs s s') : s'.Sublist s := by
  induction h with
  | nil => exact .slnil
  | keep c _ ih => exact .cons_cons c ih
  | drop c _ _ ih => exact .cons c ih

mutual
theorem drops_gval {S K N : Bytes → Prop} {v : Bytes} {t : JVal} (h : GVal S K N v t) : DropsWs v t.ser := by
  cases h with
  | null => exact .refl _
  | true => exact .refl _
  | false => exact .refl _
  | num h => exact .refl _
  | str h => exact .refl _
  | arr0 hw => exact .append (.append (a' := [91]) (.refl _) (.wsNil hw)) (.refl _)
  | arr hw hb =>
    have := DropsWs.append (.append (.append (a' := [91]) (.refl _) (.wsNil hw)) (drops_gelems hb)) (.refl [93])
    simpa [JVal.ser] using this
  | obj0 hw => exact .append (.append (a' := [123]) (.refl _) (.wsNil hw)) (.refl _)
  | obj hw hb =>
    have := DropsWs.append (.append (.append (a' := [123]) (.refl _) (.wsNil hw)) (drops_gmembers hb)) (.refl [125])
    simpa [JVal.ser] using this

theorem drops_gelems {S K N : Bytes → Prop} {b : Bytes} {xs : List JVal} (h : GElems S K N b xs) : DropsWs b (serElems xs) := by
  cases h with
  | one hv hw =>
    have := DropsWs.append (drops_gval hv) (.wsNil hw)
    simpa [serElems] using this
  | cons hv hw hw' hb =>
    obtain ⟨y, ys, rfl⟩ := gelems_ne hb
    have := DropsWs.append (.append (.append (.append (drops_gval hv) (.wsNil hw)) (.refl [44])) (.wsNil hw')) (drops_gelems hb)
    rw [serElems_cons2]
    simpa using this

theorem drops_gmembers {S K N : Bytes → Prop} {b : Bytes} {ms : List (Bytes × JVal)} (h : GMembers S K N b ms) : DropsWs b (serMembers ms) := by
  cases h with
  | @one k _ _ _ _ _ hk hw1 hw2 hv hw =>
    have := DropsWs.append (.append (.append (.append (.append (.refl ([34] ++ k ++ [34])) (.wsNil hw1)) (.refl [58])) (.wsNil hw2)) (drops_gval hv)) (.wsNil hw)
    simpa [serMembers] using this
  | @cons k _ _ _ _ _ _ _ _ hk hw1 hw2 hv hw hw' hb =>
    obtain ⟨y, ys, rfl⟩ := gmembers_ne hb
    have := DropsWs.append (.append (.append (.append (.append (.append (.append (.append (.refl ([34] ++ k ++ [34])) (.wsNil hw1)) (.refl [58])) (.wsNil hw2))
      (drops_gval hv)) (.wsNil hw)) (.refl [44])) (.wsNil hw')) (drops_gmembers hb)
    rw [serMembers_cons2]
    simpa using this
end

end Verif
