import Verif.Proofs.Serial

/-! # The compact text is the shortest text of a tree -/

namespace Verif.Njson
open Verif Verif.Spec

/-- `v` is at least as long as `s`, and equal to it if it is no longer -/
def Shortest (s v : Bytes) : Prop := s.length ≤ v.length ∧ (v.length = s.length → v = s)

theorem Shortest.refl (s : Bytes) : Shortest s s := ⟨Nat.le_refl _, fun _ => rfl⟩

theorem Shortest.append {s v s' v' : Bytes} (h : Shortest s v) (h' : Shortest s' v') : Shortest (s ++ s') (v ++ v') := by
  have h1 := h.1
  have h2 := h'.1
  refine ⟨by simp; omega, fun e => ?_⟩
  simp only [List.length_append] at e
  rw [h.2 (by omega), h'.2 (by omega)]

theorem Shortest.ws {s v : Bytes} (h : Shortest s v) (w : Bytes) : Shortest s (v ++ w) := by
  have := h.append (s' := []) (v' := w) ⟨Nat.zero_le _, fun e => List.length_eq_zero_iff.1 e⟩
  simpa using this

theorem gval_shortest {S K N : Bytes → Prop} {v : Bytes} {t : JVal} (h : GVal S K N v t) : Shortest t.ser v := by
  refine GVal.rec (motive_1 := fun v t _ => Shortest t.ser v) (motive_2 := fun v xs _ => Shortest (serElems xs) v)
    (motive_3 := fun v ms _ => Shortest (serMembers ms) v) ?_ ?_ ?_ ?_ ?_ ?_ ?_ ?_ ?_ ?_ ?_ ?_ ?_ h
  · exact .refl _
  · exact .refl _
  · exact .refl _
  · intro r _; exact .refl _
  · intro r _; exact .refl _
  · intro w _
    have := ((Shortest.refl [91]).ws w).append (.refl [93])
    simpa [JVal.ser, serElems] using this
  · intro w body xs _ _ ih
    have := (((Shortest.refl [91]).ws w).append ih).append (.refl [93])
    simpa [JVal.ser] using this
  · intro w _
    have := ((Shortest.refl [123]).ws w).append (.refl [125])
    simpa [JVal.ser, serMembers] using this
  · intro w body xs _ _ ih
    have := (((Shortest.refl [123]).ws w).append ih).append (.refl [125])
    simpa [JVal.ser] using this
  · intro v w x _ _ ih
    simpa [serElems] using ih.ws w
  · intro v w w' x body xs _ _ _ hb ih1 ih2
    have := (((ih1.ws w).append (.refl [44])).ws w').append ih2
    cases hb with
    | one => simpa [serElems] using this
    | cons => rw [serElems_cons]; simpa using this
  · intro k w1 w2 v w x _ _ _ _ _ ih
    have := (((((((Shortest.refl [34]).append (.refl k)).append (.refl [34])).ws w1).append (.refl [58])).ws w2).append ih).ws w
    simpa [serMembers] using this
  · intro k w1 w2 v w w' x body ms _ _ _ _ _ _ hb ih1 ih2
    have := ((((((((((Shortest.refl [34]).append (.refl k)).append (.refl [34])).ws w1).append (.refl [58])).ws w2).append ih1).ws w).append (.refl [44])).ws w').append ih2
    cases hb with
    | one => simpa [serMembers] using this
    | cons => rw [serMembers_cons]; simpa using this

/-- Every node but the first takes two bytes. -/
theorem gval_size {S K N : Bytes → Prop} (hN : ∀ s, N s → s ≠ []) {v : Bytes} {t : JVal} (h : GVal S K N v t) : 2 * t.size ≤ v.length + 1 := by
  refine GVal.rec (motive_1 := fun v t _ => 2 * t.size ≤ v.length + 1) (motive_2 := fun v xs _ => 2 * sizeElems xs ≤ v.length + 1)
    (motive_3 := fun v ms _ => 2 * sizeMembers ms ≤ v.length + 1) ?_ ?_ ?_ ?_ ?_ ?_ ?_ ?_ ?_ ?_ ?_ ?_ ?_ h
  case refine_4 =>
    intro r hr
    have := List.length_pos_iff.2 (hN r hr)
    simp [JVal.size]; omega
  all_goals intros
  all_goals simp_all [JVal.size, sizeElems, sizeMembers]
  all_goals omega

end Verif.Njson
