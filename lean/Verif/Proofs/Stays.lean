import Verif.Proofs.Grow
import Verif.Proofs.Target

/-! # What calls keep of the nodes that exist: their types and texts -/

namespace Verif.Njson
open Verif Verif.Spec

/-- the nodes of `d` are in `d'`, with their types and texts -/
def NKept (d d' : List ANode) : Prop := ∀ (j : Nat) (x : ANode), d[j]? = some x → ∃ x' : ANode, d'[j]? = some x' ∧ x'.typ = x.typ ∧ x'.raw = x.raw

theorem NKept.refl (d : List ANode) : NKept d d := fun _ x h => ⟨x, h, rfl, rfl⟩

theorem NKept.trans {a b c : List ANode} (h1 : NKept a b) (h2 : NKept b c) : NKept a c := by
  intro j x hx
  obtain ⟨y, e1, e2, e3⟩ := h1 j x hx
  obtain ⟨z, f1, f2, f3⟩ := h2 j y e1
  exact ⟨z, f1, by rw [f2, e2], by rw [f3, e3]⟩

theorem NKept.modify (d : List ANode) (i : Nat) (f : ANode → ANode) (hf : ∀ x, (f x).typ = x.typ ∧ (f x).raw = x.raw) : NKept d (d.modify i f) := by
  intro j x hx
  rw [List.getElem?_modify, hx]
  by_cases h : i = j
  · exact ⟨f x, by simp [h], hf x⟩
  · exact ⟨x, by simp [h], rfl, rfl⟩

theorem NKept.append (d e : List ANode) : NKept d (d ++ e) := by
  intro j x hx
  obtain ⟨h1, h2⟩ := List.getElem?_eq_some_iff.1 hx
  exact ⟨x, by rw [List.getElem?_append_left h1, hx], rfl, rfl⟩

theorem stripFrom_keeps {rec : List ANode → Nat → Option (List ANode)} (hrec : ∀ d i d', rec d i = some d' → NKept d d') (id : Nat) :
    ∀ k j d d', A.stripFrom rec id k j d = some d' → NKept d d'
  | 0, j, d, d', h => by simp [A.stripFrom] at h; rw [h]; exact .refl _
  | k + 1, j, d, d', h => by
    unfold A.stripFrom at h
    split at h
    · simp at h
    · split at h
      · simp at h; rw [h]; exact .refl _
      · split at h
        · simp at h
        · rename_i d1 h1
          exact (hrec _ _ _ h1).trans (stripFrom_keeps hrec id k _ _ _ h)

theorem stripLoop_keeps {rec : List ANode → Nat → Option (List ANode)} (hrec : ∀ d i d', rec d i = some d' → NKept d d') (id : Nat) (key : Bytes) :
    ∀ k i d d', A.stripLoop rec id key k i d = some d' → NKept d d'
  | 0, j, d, d', h => by simp [A.stripLoop] at h; rw [h]; exact .refl _
  | k + 1, j, d, d', h => by
    unfold A.stripLoop at h
    split at h
    · simp at h
    · split at h
      · simp at h
      · split at h
        · exact (NKept.modify d id _ (by intro x; exact ⟨rfl, rfl⟩)).trans (stripFrom_keeps hrec id _ _ _ _ h)
        · split at h
          · simp at h
          · rename_i d1 h1
            exact (hrec _ _ _ h1).trans (stripLoop_keeps hrec id key k _ _ _ h)

theorem strip_keeps (key : Bytes) : ∀ fuel d id d', A.strip key fuel d id = some d' → NKept d d'
  | 0, d, id, d', h => by simp [A.strip] at h
  | fuel + 1, d, id, d', h => by
    unfold A.strip at h
    split at h
    · simp at h; rw [h]; exact .refl _
    · split at h
      · exact stripLoop_keeps (fun d i d' => strip_keeps key fuel d i d') id key _ _ _ _ h
      · simp at h; rw [h]; exact .refl _

theorem modify_keeps (a : AH) (r : Ref) (id : Nat) (f : ANode → ANode) (hf : ∀ x, (f x).typ = x.typ ∧ (f x).raw = x.raw) (q : Ref) :
    NKept (a q).nodes (A.modify a r id f q).nodes := by
  unfold A.modify AH.set
  split
  · rename_i he; subst he; exact .modify _ _ _ hf
  · exact .refl _

theorem update_keeps (a : AH) (n : Node) (f : ANode → ANode) (hf : ∀ x, (f x).typ = x.typ ∧ (f x).raw = x.raw) (q : Ref) :
    NKept (a q).nodes (A.update a n f q).nodes := by
  unfold A.update
  cases A.get a n with
  | none => exact .refl _
  | some x =>
    cases n.doc with
    | none => exact .refl _
    | some r => exact modify_keeps a r n.id f hf q

theorem Ext.keeps {a a' : AH} {r : Ref} (h : Ext a a' r) (q : Ref) : NKept (a q).nodes (a' q).nodes := by
  by_cases hq : q = r
  · subst hq
    intro j x hx
    have hlt := (List.getElem?_eq_some_iff.1 hx).1
    have e := h.old j hlt
    unfold A.cont lcont at e
    rw [hx] at e
    cases hx' : (a' q).nodes[j]? with
    | none => rw [hx'] at e; simp at e
    | some x' =>
      rw [hx'] at e
      simp [ANode.cont] at e
      exact ⟨x', rfl, e.1, e.2.1⟩
  · rw [h.other q hq]; exact .refl _

theorem run_keeps {fuel : Nat} {a a' : AH} {op : Op} (h : A.run fuel a op = some a') (q : Ref) (hr : op ≠ .reset q) (hs : ∀ m t b, op ≠ .setScalar m t b) :
    NKept (a q).nodes (a' q).nodes := by
  cases op with
  | parse r s =>
    simp only [A.run, Option.some.injEq] at h
    rw [← h]
    unfold AH.set
    split
    · rename_i he; subst he
      unfold A.parse
      split <;> first | exact .append _ _ | exact .refl _
    · exact .refl _
  | reset r =>
    simp only [A.run, Option.some.injEq] at h
    rw [← h]
    unfold AH.set
    rw [if_neg (by rintro rfl; exact hr rfl)]
    exact .refl _
  | add r t b =>
    simp only [A.run, Option.some.injEq] at h
    rw [← h]
    unfold AH.set
    split
    · rename_i he; subst he
      exact .append _ _
    · exact .refl _
  | set n k v =>
    simp only [A.run] at h
    unfold A.nset at h
    split at h
    · split at h
      · split at h
        · simp at h
        · rename_i a1 id1 hc
          have hext := copyOrAdopt_ext hc
          split at h
          · simp at h; rw [← h]; exact (hext.keeps q).trans (modify_keeps _ _ _ _ (by intro x; exact ⟨rfl, rfl⟩) q)
          · simp at h; rw [← h]; exact hext.keeps q
      · simp at h; rw [h]; exact .refl _
    · simp at h; rw [h]; exact .refl _
  | append n vs =>
    simp only [A.run] at h
    unfold A.append at h
    split at h
    · simp at h; rw [h]; exact .refl _
    · split at h
      · split at h
        · split at h
          · simp at h
          · rename_i a1 vv hc
            simp at h
            rw [← h]
            exact ((appendLoop_ext hc).keeps q).trans (modify_keeps _ _ _ _ (by intro x; exact ⟨rfl, rfl⟩) q)
        · simp at h; rw [h]; exact .refl _
      · simp at h; rw [h]; exact .refl _
  | replace n i v =>
    simp only [A.run] at h
    unfold A.replace at h
    split at h
    · split at h
      · split at h
        · simp at h
        · rename_i a1 id1 hc
          have hext := copyOrAdopt_ext hc
          split at h
          · simp at h; rw [← h]; exact (hext.keeps q).trans (modify_keeps _ _ _ _ (by intro x; exact ⟨rfl, rfl⟩) q)
          · simp at h; rw [← h]; exact hext.keeps q
      · simp at h; rw [h]; exact .refl _
    · simp at h; rw [h]; exact .refl _
  | slice n i j =>
    simp only [A.run, Option.some.injEq] at h
    rw [← h]
    exact update_keeps _ _ _ (fun x => by unfold A.sliceF; split <;> exact ⟨rfl, rfl⟩) q
  | remove n i =>
    simp only [A.run, Option.some.injEq] at h
    rw [← h]
    exact update_keeps _ _ _ (fun x => by unfold A.removeF; split <;> exact ⟨rfl, rfl⟩) q
  | del n k =>
    simp only [A.run, Option.some.injEq] at h
    rw [← h]
    refine update_keeps _ _ _ (fun x => ?_) q
    unfold A.delF
    split
    · split <;> exact ⟨rfl, rfl⟩
    · exact ⟨rfl, rfl⟩
  | strip n k =>
    simp only [A.run] at h
    unfold A.nstrip at h
    split at h
    · split at h
      · rename_i d hd
        simp at h
        rw [← h]
        unfold AH.set
        split
        · rename_i he; subst he; exact strip_keeps _ _ _ _ _ hd
        · exact .refl _
      · simp at h
    · simp at h; rw [h]; exact .refl _
  | setScalar m t b => exact absurd rfl (hs m t b)
  | _ => simp only [A.run, Option.some.injEq] at h; rw [h]; exact .refl _

/-- a setter of another node -/
theorem scalar_keeps {a : AH} {m : Node} {t : Typ} {b : Bytes} {q : Ref} {j : Nat} (hne : ¬ (m.doc = some q ∧ m.id = j)) :
    (A.update a m (A.scalarF t b) q).nodes[j]? = (a q).nodes[j]? := by
  unfold A.update
  cases A.get a m with
  | none => rfl
  | some x =>
    cases hd : m.doc with
    | none => rfl
    | some r =>
      dsimp only
      unfold A.modify AH.set
      split
      · rename_i he; subst he
        dsimp only
        rw [List.getElem?_modify]
        have hj : m.id ≠ j := fun e => hne ⟨hd, e⟩
        simp [hj]
      · rfl

end Verif.Njson
