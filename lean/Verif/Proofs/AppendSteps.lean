import Verif.Model.AppendSteps
import Verif.Proofs.Serial

/-! # The counting model of AppendJSON: it is AppendJSON, and its count -/

namespace Verif.Njson
open Verif Verif.Spec

/-- without the count -/
def noCount (r : Bytes × Bool × Nat) : Bytes × Bool := (r.1, r.2.1)

theorem elemsSteps_same {rec : Bytes → Nat → Option (Bytes × Bool × Nat)} {rec' : Bytes → Nat → Option (Bytes × Bool)} (hr : ∀ d i, (rec d i).map noCount = rec' d i) :
    ∀ (vs : List V) (first : Bool) (dst : Bytes) (c : Nat), (elemsSteps rec vs first dst c).map noCount = appendElems rec' vs first dst
  | [], _, _, _ => rfl
  | v :: vs, first, dst, c => by
    unfold elemsSteps appendElems
    rw [← hr]
    cases h : rec (if first then dst else dst ++ [44]) v.id with
    | none => rfl
    | some p =>
      obtain ⟨d, e, k⟩ := p
      cases e with
      | true => rfl
      | false => exact elemsSteps_same hr vs false d _

theorem membersSteps_same {rec : Bytes → Nat → Option (Bytes × Bool × Nat)} {rec' : Bytes → Nat → Option (Bytes × Bool)} (hr : ∀ d i, (rec d i).map noCount = rec' d i) :
    ∀ (vs : List V) (first : Bool) (dst : Bytes) (c : Nat), (membersSteps rec vs first dst c).map noCount = appendMembers rec' vs first dst
  | [], _, _, _ => rfl
  | v :: vs, first, dst, c => by
    unfold membersSteps appendMembers
    rw [← hr]
    cases h : rec ((if first then dst else dst ++ [44]) ++ [34] ++ v.key ++ [34, 58]) v.id with
    | none => rfl
    | some p =>
      obtain ⟨d, e, k⟩ := p
      cases e with
      | true => rfl
      | false => exact membersSteps_same hr vs false d _

theorem appendSteps_same (g : Nat → Option NodeD) : ∀ (fuel : Nat) (dst : Bytes) (id : Nat), (Njson.appendSteps g fuel dst id).map noCount = Njson.appendJSON g fuel dst id
  | 0, _, _ => rfl
  | fuel + 1, dst, id => by
    rw [Njson.appendSteps, Njson.appendJSON]
    cases g id with
    | none => rfl
    | some n =>
      dsimp only
      by_cases h1 : n.typ = tObject
      · rw [if_pos h1, if_pos h1, ← membersSteps_same (appendSteps_same g fuel) n.values.vis true (dst ++ [123]) 1]
        cases membersSteps (Njson.appendSteps g fuel) n.values.vis true (dst ++ [123]) 1 with
        | none => rfl
        | some p => obtain ⟨d, e, k⟩ := p; cases e <;> rfl
      · rw [if_neg h1, if_neg h1]
        by_cases h2 : n.typ = tArray
        · rw [if_pos h2, if_pos h2, ← elemsSteps_same (appendSteps_same g fuel) n.values.vis true (dst ++ [91]) 1]
          cases elemsSteps (Njson.appendSteps g fuel) n.values.vis true (dst ++ [91]) 1 with
          | none => rfl
          | some p => obtain ⟨d, e, k⟩ := p; cases e <;> rfl
        · rw [if_neg h2, if_neg h2]
          by_cases h3 : n.typ = tString
          · rw [if_pos h3, if_pos h3]; rfl
          · rw [if_neg h3, if_neg h3]; rfl

/-- at most two steps for each byte, and one -/
def Cheap (dst : Bytes) (r : Bytes × Bool × Nat) : Prop := dst.length ≤ r.1.length ∧ r.2.2 + 2 * dst.length ≤ 2 * r.1.length + 1

theorem elemsSteps_cheap {rec : Bytes → Nat → Option (Bytes × Bool × Nat)} (hr : ∀ d i r, rec d i = some r → Cheap d r) :
    ∀ (vs : List V) (first : Bool) (dst : Bytes) (c : Nat) (r : Bytes × Bool × Nat), elemsSteps rec vs first dst c = some r →
      dst.length ≤ r.1.length ∧ r.2.2 + 2 * dst.length ≤ 2 * r.1.length + c + (if first then 2 else 0)
  | [], first, dst, c, r, h => by simp only [elemsSteps, Option.some.injEq] at h; subst h; exact ⟨Nat.le_refl _, by simp only; omega⟩
  | v :: vs, first, dst, c, r, h => by
    unfold elemsSteps at h
    cases hq : rec (if first then dst else dst ++ [44]) v.id with
    | none => rw [hq] at h; simp at h
    | some p =>
      obtain ⟨d, e, k⟩ := p
      obtain ⟨h1, h2⟩ := hr _ _ _ hq
      simp only at h1 h2
      have hl : (if first then dst else dst ++ [44]).length = dst.length + (if first then 0 else 1) := by cases first <;> simp
      rw [hl] at h1 h2
      rw [hq] at h
      cases e with
      | true =>
        simp only [Option.some.injEq] at h
        subst h
        simp only
        cases first <;> simp at h1 h2 ⊢ <;> omega
      | false =>
        obtain ⟨h3, h4⟩ := elemsSteps_cheap hr vs false d _ r h
        cases first <;> simp at h1 h2 h4 ⊢ <;> omega

theorem membersSteps_cheap {rec : Bytes → Nat → Option (Bytes × Bool × Nat)} (hr : ∀ d i r, rec d i = some r → Cheap d r) :
    ∀ (vs : List V) (first : Bool) (dst : Bytes) (c : Nat) (r : Bytes × Bool × Nat), membersSteps rec vs first dst c = some r →
      dst.length ≤ r.1.length ∧ r.2.2 + 2 * dst.length ≤ 2 * r.1.length + c
  | [], first, dst, c, r, h => by simp only [membersSteps, Option.some.injEq] at h; subst h; exact ⟨Nat.le_refl _, by simp only; omega⟩
  | v :: vs, first, dst, c, r, h => by
    unfold membersSteps at h
    cases hq : rec ((if first then dst else dst ++ [44]) ++ [34] ++ v.key ++ [34, 58]) v.id with
    | none => rw [hq] at h; simp at h
    | some p =>
      obtain ⟨d, e, k⟩ := p
      obtain ⟨h1, h2⟩ := hr _ _ _ hq
      simp only at h1 h2
      have hl : dst.length + 3 ≤ ((if first then dst else dst ++ [44]) ++ [34] ++ v.key ++ [34, 58]).length := by cases first <;> simp <;> omega
      rw [hq] at h
      cases e with
      | true =>
        simp only [Option.some.injEq] at h
        subst h
        simp only
        omega
      | false =>
        obtain ⟨h3, h4⟩ := membersSteps_cheap hr vs false d _ r h
        omega

theorem appendSteps_cheap (g : Nat → Option NodeD) : ∀ (fuel : Nat) (dst : Bytes) (id : Nat) (r : Bytes × Bool × Nat), Njson.appendSteps g fuel dst id = some r → Cheap dst r
  | 0, _, _, _, h => by simp [Njson.appendSteps] at h
  | fuel + 1, dst, id, r, h => by
    rw [Njson.appendSteps] at h
    unfold Cheap
    cases hg : g id with
    | none => rw [hg] at h; simp only [Option.some.injEq] at h; subst h; simp only; omega
    | some n =>
      rw [hg] at h
      dsimp only at h
      by_cases h1 : n.typ = tObject
      · rw [if_pos h1] at h
        cases hm : membersSteps (Njson.appendSteps g fuel) n.values.vis true (dst ++ [123]) 1 with
        | none => rw [hm] at h; simp at h
        | some p =>
          obtain ⟨d, e, k⟩ := p
          obtain ⟨a, b⟩ := membersSteps_cheap (appendSteps_cheap g fuel) _ _ _ _ _ hm
          rw [hm] at h
          simp at a b
          cases e <;> (simp only [Option.some.injEq] at h; subst h; simp; omega)
      · rw [if_neg h1] at h
        by_cases h2 : n.typ = tArray
        · rw [if_pos h2] at h
          cases hm : elemsSteps (Njson.appendSteps g fuel) n.values.vis true (dst ++ [91]) 1 with
          | none => rw [hm] at h; simp at h
          | some p =>
            obtain ⟨d, e, k⟩ := p
            obtain ⟨a, b⟩ := elemsSteps_cheap (appendSteps_cheap g fuel) _ _ _ _ _ hm
            rw [hm] at h
            simp at a b
            cases e <;> (simp only [Option.some.injEq] at h; subst h; simp; omega)
        · rw [if_neg h2] at h
          by_cases h3 : n.typ = tString
          · rw [if_pos h3] at h; simp only [Option.some.injEq] at h; subst h; simp; omega
          · rw [if_neg h3] at h; simp only [Option.some.injEq] at h; subst h; simp; omega

theorem appendSteps_count {g : Nat → Option NodeD} :
    (∀ t : JVal, ∀ id, Reps (contOf g) t id → ∀ fuel dst, t.size ≤ fuel → ∃ out, Njson.appendSteps g fuel dst id = some (out, false, 2 * t.size - 1)) ∧
    (∀ xs : List JVal, ∀ vs, RepsElems (contOf g) xs vs → ∀ fuel first dst c, sizeElems xs ≤ fuel →
      ∃ out, elemsSteps (Njson.appendSteps g fuel) vs first dst c = some (out, false, c + 2 * sizeElems xs)) ∧
    (∀ ms : List (Bytes × JVal), ∀ vs, RepsMembers (contOf g) ms vs → ∀ fuel first dst c, sizeMembers ms ≤ fuel →
      ∃ out, membersSteps (Njson.appendSteps g fuel) vs first dst c = some (out, false, c + 2 * sizeMembers ms)) := by
  have leaf : ∀ {typ : Typ} {raw : Bytes} {id : Nat}, contOf g id = some ⟨typ, raw, []⟩ → typ ≠ tObject → typ ≠ tArray → ∀ fuel dst, 1 ≤ fuel →
      ∃ out, Njson.appendSteps g fuel dst id = some (out, false, 1) := by
    intro typ raw id hc h1 h2 fuel dst hf
    obtain ⟨n, a1, a2, a3, a4⟩ := contOf_some hc
    simp only at a2
    cases fuel with
    | zero => omega
    | succ fuel =>
      rw [Njson.appendSteps, a1]
      dsimp only
      rw [a2, if_neg h1, if_neg h2]
      split
      · exact ⟨_, rfl⟩
      · exact ⟨_, rfl⟩
  apply jval_ind
  · intro id h fuel dst hf; simp only [Reps] at h; exact leaf h (by decide) (by decide) fuel dst hf
  · intro b id h fuel dst hf; cases b <;> (simp only [Reps] at h; exact leaf h (by decide) (by decide) fuel dst hf)
  · intro raw id h fuel dst hf; simp only [Reps] at h; exact leaf h (by decide) (by decide) fuel dst hf
  · intro raw id h fuel dst hf; simp only [Reps] at h; exact leaf h (by decide) (by decide) fuel dst hf
  · intro xs ih id h fuel dst hf
    simp only [Reps] at h
    obtain ⟨vs, h1, h2⟩ := h
    obtain ⟨n, a1, a2, a3, a4⟩ := contOf_some h1
    simp only at a2 a4
    simp only [JVal.size] at hf ⊢
    cases fuel with
    | zero => omega
    | succ fuel =>
      obtain ⟨out, e⟩ := ih vs h2 fuel true (dst ++ [91]) 1 (by omega)
      rw [Njson.appendSteps, a1]
      dsimp only
      rw [a2, if_neg (by decide), if_pos rfl, a4, e]
      exact ⟨out ++ [93], by simp; omega⟩
  · intro ms ih id h fuel dst hf
    simp only [Reps] at h
    obtain ⟨vs, h1, h2⟩ := h
    obtain ⟨n, a1, a2, a3, a4⟩ := contOf_some h1
    simp only at a2 a4
    simp only [JVal.size] at hf ⊢
    cases fuel with
    | zero => omega
    | succ fuel =>
      obtain ⟨out, e⟩ := ih vs h2 fuel true (dst ++ [123]) 1 (by omega)
      rw [Njson.appendSteps, a1]
      dsimp only
      rw [a2, if_pos rfl, a4, e]
      exact ⟨out ++ [125], by simp; omega⟩
  · intro vs h fuel first dst c _
    simp only [RepsElems] at h; subst h
    exact ⟨dst, by simp [elemsSteps, sizeElems]⟩
  · intro x xs ihx ihxs vs h fuel first dst c hf
    simp only [RepsElems] at h
    obtain ⟨id, vs', rfl, h1, h2⟩ := h
    simp only [sizeElems] at hf ⊢
    obtain ⟨o1, e1⟩ := ihx id h1 fuel (if first then dst else dst ++ [44]) (by omega)
    obtain ⟨o2, e2⟩ := ihxs vs' h2 fuel false o1 (c + 1 + (2 * x.size - 1)) (by omega)
    unfold elemsSteps
    rw [e1]
    dsimp only
    rw [e2]
    have := size_pos x
    exact ⟨o2, by simp; omega⟩
  · intro vs h fuel first dst c _
    simp only [RepsMembers] at h; subst h
    exact ⟨dst, by simp [membersSteps, sizeMembers]⟩
  · intro k x xs ihx ihxs vs h fuel first dst c hf
    simp only [RepsMembers] at h
    obtain ⟨id, vs', rfl, h1, h2⟩ := h
    simp only [sizeMembers] at hf ⊢
    obtain ⟨o1, e1⟩ := ihx id h1 fuel ((if first then dst else dst ++ [44]) ++ [34] ++ k ++ [34, 58]) (by omega)
    obtain ⟨o2, e2⟩ := ihxs vs' h2 fuel false o1 (c + 1 + (2 * x.size - 1)) (by omega)
    unfold membersSteps
    rw [e1]
    dsimp only
    rw [e2]
    have := size_pos x
    exact ⟨o2, by simp; omega⟩

end Verif.Njson
