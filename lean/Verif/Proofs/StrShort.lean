import Verif.Proofs.StrJson

/-!
`Unescape` with a buffer of any size, also one that is too short: every write stays inside the buffer.
-/

namespace Verif.StrJson
open Verif

/-- what a step from `(dst, j)` to `(dst', j')` may do -/
def Within (dst : Bytes) (j : Nat) (q : Bytes × Nat) : Prop :=
  q.1.length = dst.length ∧ j ≤ q.2 ∧ q.2 ≤ dst.length ∧ q.1.drop q.2 = dst.drop q.2 ∧ q.1.take j = dst.take j

theorem within_refl {dst : Bytes} {j : Nat} (h : j ≤ dst.length) : Within dst j (dst, j) :=
  ⟨rfl, Nat.le_refl _, h, rfl, rfl⟩

theorem within_trans {dst : Bytes} {j : Nat} {q r : Bytes × Nat} (h1 : Within dst j q) (h2 : Within q.1 q.2 r) : Within dst j r := by
  obtain ⟨a1, a2, a3, a4, a5⟩ := h1
  obtain ⟨b1, b2, b3, b4, b5⟩ := h2
  refine ⟨by omega, by omega, by omega, ?_, ?_⟩
  · rw [b4]
    have := congrArg (List.drop (r.2 - q.2)) a4
    rw [List.drop_drop, List.drop_drop] at this
    rwa [show q.2 + (r.2 - q.2) = r.2 by omega] at this
  · have := congrArg (List.take j) b5
    rw [List.take_take, List.take_take, Nat.min_eq_left a2] at this
    rw [this, a5]

theorem within_overwrite {dst p : Bytes} {j : Nat} (h : j + p.length ≤ dst.length) : Within dst j (overwrite dst j p, j + p.length) := by
  refine ⟨overwrite_length h, Nat.le_add_right _ _, h, ?_, ?_⟩
  · unfold overwrite
    rw [List.drop_left' (by simp; omega)]
  · unfold overwrite
    rw [List.append_assoc, List.take_append_of_le_length (by simp; omega), List.take_take, Nat.min_self]

theorem within_string {dst p : Bytes} {j : Nat} (h : j ≤ dst.length) : Within dst j ((writeStringAt dst p j).1, j + (writeStringAt dst p j).2) := by
  unfold writeStringAt
  split
  · exact within_overwrite (by omega)
  · exact within_refl h

theorem within_byte {dst : Bytes} {c : UInt8} {j : Nat} (h : j ≤ dst.length) : Within dst j (writeByteAt dst c j) := by
  unfold writeByteAt
  split
  · exact within_overwrite (p := [c]) (by simp; omega)
  · exact within_refl h

theorem within_rune {dst : Bytes} {r j : Nat} {q : Bytes × Nat} (h : j ≤ dst.length) (he : writeRuneAt dst r j = some q) : Within dst j q := by
  unfold writeRuneAt at he
  split at he
  · simp only at he
    split at he
    · simp at he; subst he; exact within_overwrite (by omega)
    · simp at he
  · simp at he; subst he; exact within_refl h

theorem rune_full {dst : Bytes} {r j : Nat} (h : dst.length ≤ j) : writeRuneAt dst r j = some (dst, j) := by
  unfold writeRuneAt
  rw [if_neg (by omega)]

theorem unescapeLoop_within (s : Bytes) : ∀ (fuel i pos j : Nat) (dst : Bytes) (q : Bytes × Nat), j ≤ dst.length →
    unescapeLoop s fuel i pos j dst = some q → Within dst j q := by
  intro fuel
  induction fuel with
  | zero => intro i pos j dst q h he; simp [unescapeLoop] at he; subst he; exact within_refl h
  | succ fuel ih =>
    intro i pos j dst q h he
    unfold unescapeLoop at he
    split at he
    · split at he
      · exact ih _ _ _ _ _ h he
      · -- the pending plain part
        have hpre : Within dst j (if pos < i then ((writeStringAt dst (sub s pos i) j).1, j + (writeStringAt dst (sub s pos i) j).2) else (dst, j)) := by
          split
          · exact within_string h
          · exact within_refl h
        simp only at he
        generalize (if pos < i then ((writeStringAt dst (sub s pos i) j).1, j + (writeStringAt dst (sub s pos i) j).2) else (dst, j)) = q0 at he hpre
        have hq0 : q0.2 ≤ q0.1.length := by have := hpre.2.2.1; have := hpre.1; omega
        refine within_trans hpre ?_
        have next : ∀ {q1 : Bytes × Nat} {i' : Nat}, Within q0.1 q0.2 q1 → unescapeLoop s fuel i' i' q1.2 q1.1 = some q → Within q0.1 q0.2 q := by
          intro q1 i' h1 h2
          refine within_trans h1 (ih _ _ _ _ _ ?_ h2)
          have := h1.1; have := h1.2.2.1; omega
        have two : ∀ {a b : UInt8}, Within q0.1 q0.2 (writeByteAt (writeByteAt q0.1 a q0.2).1 b (writeByteAt q0.1 a q0.2).2) := by
          intro a b
          have h1 := within_byte (c := a) hq0
          refine within_trans h1 (within_byte ?_)
          have := h1.1; have := h1.2.2.1; omega
        split at he
        · split at he
          · exact next (within_byte hq0) he
          · split at he
            · split at he
              · split at he
                · exact next (within_byte hq0) he
                · split at he
                  · simp at he
                  · rename_i hr
                    exact next (within_rune hq0 hr) he
              · exact next two he
            · exact next two he
        · simp at he; subst he; exact within_byte hq0
    · split at he
      · simp at he; subst he; exact within_string h
      · simp at he; subst he; exact within_refl h

/-- an empty buffer: nothing can be written and nothing panics -/
theorem unescapeLoop_empty (s : Bytes) : ∀ (fuel i pos : Nat), unescapeLoop s fuel i pos 0 [] = some ([], 0) := by
  have hs : ∀ p, writeStringAt [] p 0 = ([], 0) := by intro p; simp [writeStringAt]
  have hb : ∀ c, writeByteAt [] c 0 = ([], 0) := by intro c; simp [writeByteAt]
  have hr : ∀ r, writeRuneAt [] r 0 = some ([], 0) := fun r => rune_full (by simp)
  intro fuel
  induction fuel with
  | zero => intro i pos; rfl
  | succ fuel ih =>
    intro i pos
    unfold unescapeLoop
    simp only [hs, hb, hr, Nat.add_zero, ite_self, ih]
    repeat' split
    all_goals first | rfl | simp_all

end Verif.StrJson
