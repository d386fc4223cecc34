import Mathlib.Algebra.BigOperators.Group.Finset.Basic
import Mathlib.Algebra.Order.BigOperators.Group.Finset
import Verif.Spec.Held
import Verif.Spec.History
import Verif.Props.History

/-! # The nodes of a tree are different nodes of its document, if no node has two parents -/

namespace Verif.Njson
open Verif Verif.Spec

theorem reach_last {g : Nat → Option Cont} {x y : Nat} (h : Reach g x y) :
    x = y ∨ ∃ (z : Nat) (k : Cont) (s : Nat) (v : V), Reach g x z ∧ g z = some k ∧ k.vals[s]? = some v ∧ v.id = y := by
  induction h with
  | refl => exact Or.inl rfl
  | @step x y k v h1 h2 h3 ih =>
    obtain ⟨s, hs⟩ := List.mem_iff_getElem?.1 h2
    rcases ih with he | ⟨z, k', s', v', e1, e2, e3, e4⟩
    · exact Or.inr ⟨x, k, s, v, .refl _, h1, hs, he⟩
    · exact Or.inr ⟨z, k', s', v', .step h1 h2 e1, e2, e3, e4⟩

/-- the trees below two children of a node have no node in common -/
theorem children_apart {d : Doc} (hd : NoSharing d) {t : JVal} {id : Nat} {c : Cont} (hr : Reps d.cont t id) (hc : d.cont id = some c) :
    c.vals.Pairwise fun v w => ∀ j, ¬ (Reach d.cont v.id j ∧ Reach d.cont w.id j) := by
  have key : ∀ (a b : Nat) (v w : V), a ≠ b → c.vals[a]? = some v → c.vals[b]? = some w → ¬ Reach d.cont v.id w.id := by
    intro a b v w hab hv hw h
    rcases reach_last h with he | ⟨z, k, s, x, e1, e2, e3, e4⟩
    · exact hab (hd id id c c a b v w hc hc hv hw he).2
    · obtain ⟨rfl, _⟩ := hd z id k c s b x w e2 hc e3 hw e4
      exact reps_child_no_loop hr hc (List.mem_of_getElem? hv) e1
  rw [List.pairwise_iff_getElem]
  intro a b ha hb hab j hj
  have h1 : c.vals[a]? = some c.vals[a] := List.getElem?_eq_getElem ha
  have h2 : c.vals[b]? = some c.vals[b] := List.getElem?_eq_getElem hb
  rcases Props.C29_disjoint d hd _ _ j hj.1 hj.2 with h | h
  · exact key a b _ _ (by omega) h1 h2 h
  · exact key b a _ _ (by omega) h2 h1 h

theorem tree_nodes {d : Doc} (hd : NoSharing d) :
    (∀ t : JVal, ∀ id, Reps d.cont t id → ∃ l : List Nat, l.length = t.size ∧ t.ser.length ≤ (l.map (heldAt d.cont)).sum ∧
      (∀ j ∈ l, Reach d.cont id j) ∧ l.Nodup) ∧
    (∀ xs, ∀ vs, RepsElems d.cont xs vs → ∃ l : List Nat, l.length = sizeElems xs ∧
      (serElems xs).length ≤ (l.map (heldAt d.cont)).sum + (vs.map fun v => v.key.length + 4).sum ∧
      (∀ j ∈ l, ∃ v ∈ vs, Reach d.cont v.id j) ∧
      (vs.Pairwise (fun v w => ∀ j, ¬ (Reach d.cont v.id j ∧ Reach d.cont w.id j)) → l.Nodup)) ∧
    (∀ ms, ∀ vs, RepsMembers d.cont ms vs → ∃ l : List Nat, l.length = sizeMembers ms ∧
      (serMembers ms).length ≤ (l.map (heldAt d.cont)).sum + (vs.map fun v => v.key.length + 4).sum ∧
      (∀ j ∈ l, ∃ v ∈ vs, Reach d.cont v.id j) ∧
      (vs.Pairwise (fun v w => ∀ j, ¬ (Reach d.cont v.id j ∧ Reach d.cont w.id j)) → l.Nodup)) := by
  have scalar : ∀ {id : Nat} {t : JVal} {typ : Typ} {raw : Bytes}, t.size = 1 → t.ser.length ≤ raw.length + 2 → d.cont id = some ⟨typ, raw, []⟩ →
      ∃ l : List Nat, l.length = t.size ∧ t.ser.length ≤ (l.map (heldAt d.cont)).sum ∧ (∀ j ∈ l, Reach d.cont id j) ∧ l.Nodup := by
    intro id t typ raw h1 h2 h3
    refine ⟨[id], by simp [h1], ?_, ?_, by simp⟩
    · simp [heldAt, h3]; exact h2
    · intro j hj; simp at hj; subst hj; exact .refl _
  have node : ∀ {t : JVal} {id : Nat} {typ : Typ} {vs : List V} {l : List Nat} {n k : Nat}, Reps d.cont t id → d.cont id = some ⟨typ, [], vs⟩ →
      t.size = 1 + n → t.ser.length = k + 2 → l.length = n → k ≤ (l.map (heldAt d.cont)).sum + (vs.map fun v => v.key.length + 4).sum →
      (∀ j ∈ l, ∃ v ∈ vs, Reach d.cont v.id j) →
      (vs.Pairwise (fun v w => ∀ j, ¬ (Reach d.cont v.id j ∧ Reach d.cont w.id j)) → l.Nodup) →
      ∃ l : List Nat, l.length = t.size ∧ t.ser.length ≤ (l.map (heldAt d.cont)).sum ∧ (∀ j ∈ l, Reach d.cont id j) ∧ l.Nodup := by
    intro t id typ vs l n k hr hc h1 h2 h3 h4 h5 h6
    refine ⟨id :: l, by simp [h1, h3]; omega, ?_, ?_, ?_⟩
    · rw [List.map_cons, List.sum_cons, h2]
      have : heldAt d.cont id = 2 + (vs.map fun v => v.key.length + 4).sum := by simp [heldAt, hc]
      omega
    · intro j hj
      rcases List.mem_cons.1 hj with rfl | hj
      · exact .refl _
      · obtain ⟨v, hv, hvj⟩ := h5 j hj
        exact .step hc hv hvj
    · refine List.nodup_cons.2 ⟨fun hm => ?_, h6 (children_apart hd hr hc)⟩
      obtain ⟨v, hv, hvj⟩ := h5 id hm
      exact reps_child_no_loop hr hc hv hvj
  have join : ∀ {v : V} {vs : List V} {l1 l2 : List Nat}, (∀ j ∈ l1, Reach d.cont v.id j) → l1.Nodup →
      (∀ j ∈ l2, ∃ v ∈ vs, Reach d.cont v.id j) →
      (vs.Pairwise (fun v w => ∀ j, ¬ (Reach d.cont v.id j ∧ Reach d.cont w.id j)) → l2.Nodup) →
      (∀ j ∈ l1 ++ l2, ∃ w ∈ v :: vs, Reach d.cont w.id j) ∧
      ((v :: vs).Pairwise (fun v w => ∀ j, ¬ (Reach d.cont v.id j ∧ Reach d.cont w.id j)) → (l1 ++ l2).Nodup) := by
    intro v vs l1 l2 h1 h2 h3 h4
    refine ⟨fun j hj => ?_, fun hp => ?_⟩
    · rcases List.mem_append.1 hj with hj | hj
      · exact ⟨v, by simp, h1 j hj⟩
      · obtain ⟨w, hw, hwj⟩ := h3 j hj
        exact ⟨w, by simp [hw], hwj⟩
    · obtain ⟨p1, p2⟩ := List.pairwise_cons.1 hp
      refine List.nodup_append.2 ⟨h2, h4 p2, fun a ha b hb hab => ?_⟩
      subst hab
      obtain ⟨w, hw, hwj⟩ := h3 a hb
      exact p1 w hw a ⟨h1 a ha, hwj⟩
  apply jval_ind
  · intro id h; exact scalar rfl (by decide) h
  · intro b id h; cases b <;> exact scalar rfl (by decide) h
  · intro r id h; exact scalar rfl (by simp [JVal.ser]) h
  · intro r id h; exact scalar rfl (by simp [JVal.ser]) h
  · intro xs ih id h
    have hr := h
    obtain ⟨vs, h1, h2⟩ := h
    obtain ⟨l, a1, a2, a3, a4⟩ := ih vs h2
    exact node hr h1 (by simp [JVal.size]) (by simp [JVal.ser]) a1 a2 a3 a4
  · intro xs ih id h
    have hr := h
    obtain ⟨vs, h1, h2⟩ := h
    obtain ⟨l, a1, a2, a3, a4⟩ := ih vs h2
    exact node hr h1 (by simp [JVal.size]) (by simp [JVal.ser]) a1 a2 a3 a4
  · intro vs h; exact ⟨[], rfl, by simp [serElems], by simp, by simp⟩
  · intro x xs h1 h2 vs h
    obtain ⟨id, vs', rfl, e1, e2⟩ := h
    obtain ⟨l1, a1, a2, a3, a4⟩ := h1 id e1
    obtain ⟨l2, b1, b2, b3, b4⟩ := h2 vs' e2
    obtain ⟨j1, j2⟩ := join (v := ⟨id, []⟩) a3 a4 b3 b4
    refine ⟨l1 ++ l2, by simp [sizeElems, a1, b1], ?_, j1, j2⟩
    have : (serElems (x :: xs)).length ≤ x.ser.length + 1 + (serElems xs).length := by
      cases xs <;> simp [serElems]; omega
    simp only [List.map_append, List.sum_append, List.map_cons, List.sum_cons, List.length_nil]
    omega
  · intro vs h; exact ⟨[], rfl, by simp [serMembers], by simp, by simp⟩
  · intro k x xs h1 h2 vs h
    obtain ⟨id, vs', rfl, e1, e2⟩ := h
    obtain ⟨l1, a1, a2, a3, a4⟩ := h1 id e1
    obtain ⟨l2, b1, b2, b3, b4⟩ := h2 vs' e2
    obtain ⟨j1, j2⟩ := join (v := ⟨id, k⟩) a3 a4 b3 b4
    refine ⟨l1 ++ l2, by simp [sizeMembers, a1, b1], ?_, j1, j2⟩
    have : (serMembers ((k, x) :: xs)).length ≤ k.length + 4 + x.ser.length + (serMembers xs).length := by
      cases xs <;> simp [serMembers] <;> omega
    simp only [List.map_append, List.sum_append, List.map_cons, List.sum_cons]
    omega

theorem sum_le_range {l : List Nat} {n : Nat} (hl : l.Nodup) (hn : ∀ j ∈ l, j < n) (f : Nat → Nat) :
    (l.map f).sum ≤ ((List.range n).map f).sum := by
  rw [← List.sum_toFinset f hl, ← List.sum_toFinset f List.nodup_range]
  apply Finset.sum_le_sum_of_subset
  intro j hj
  simpa using hn j (by simpa using hj)

theorem length_le_range {l : List Nat} {n : Nat} (hl : l.Nodup) (hn : ∀ j ∈ l, j < n) : l.length ≤ n := by
  have := sum_le_range hl hn fun _ => 1
  simpa using this

end Verif.Njson
