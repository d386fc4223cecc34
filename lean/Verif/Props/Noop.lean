import Verif.Props.Edit
import Verif.Props.New
import Verif.Spec.Noop

/-!
# C114: calls that do not apply change nothing
-/

namespace Verif.Props
open Verif Verif.Spec Verif.Njson

theorem typ_get {h : Heap} {n : Node} {d : NodeD} (hg : n.get h = some d) : n.typ h = d.typ := by
  unfold Node.typ; rw [hg]

theorem values_get {h : Heap} {n : Node} {d : NodeD} (hg : n.get h = some d) : n.values h = d.values.vis := by
  unfold Node.values; rw [hg]

theorem adopt_dead {h : Heap} {v : Node} (hv : Dead h v) (fuel : Nat) (r : Ref) (to : Nat) :
    copyOrAdopt h fuel r (v.document h) v.id to = some (h, maxUint) := by
  have : getOf h (v.document h) v.id = none := by
    unfold Dead Node.get at hv
    cases hd : v.document h with
    | none => rfl
    | some q => rw [hd] at hv; exact hv
  unfold copyOrAdopt
  rw [this]

/-- **C114**: a call that does not apply leaves every document as it was and returns. -/
theorem C114_misses (h : Heap) (fuel : Nat) (op : Op) (hm : op.Misses h) : op.run (fuel + 1) h = some (h, .unit) := by
  cases op with
  | set n k v =>
    simp only [Op.Misses] at hm
    simp only [Op.run, Node.set]
    cases hg : n.get h with
    | none => rfl
    | some d =>
      obtain ⟨r, hdoc, _⟩ := get_doc hg
      rw [hdoc]
      simp only
      rw [typ_get hg] at hm
      rcases hm with hm | hm
      · rw [if_neg hm]; rfl
      · rw [adopt_dead hm]
        split
        · simp
        · rfl
  | del n k =>
    simp only [Op.Misses] at hm
    simp only [Op.run, Node.del]
    rw [update_self]
    intro d hg
    rw [typ_get hg, values_get hg] at hm
    rcases hm with hm | hm
    · rw [if_neg hm]
    · split
      · have : d.values.vis.findIdx? (fun v => v.key = k) = none := by
          rw [List.findIdx?_eq_none_iff]
          intro v hv
          simpa using hm v hv
        rw [this]
      · rfl
  | append n vs =>
    simp only [Op.Misses] at hm
    simp only [Op.run, Node.append]
    rcases hm with hm | rfl
    · split
      · rfl
      · cases hg : n.get h with
        | none => rfl
        | some d =>
          obtain ⟨r, hdoc, _⟩ := get_doc hg
          rw [hdoc]
          simp only
          rw [typ_get hg] at hm
          rw [if_neg hm]; rfl
    · rfl
  | replace n i v =>
    simp only [Op.Misses] at hm
    simp only [Op.run, Node.replace]
    cases hg : n.get h with
    | none => rfl
    | some d =>
      obtain ⟨r, hdoc, _⟩ := get_doc hg
      rw [hdoc]
      simp only
      rw [typ_get hg, values_get hg] at hm
      by_cases hc : d.typ = tArray ∧ 0 ≤ i ∧ i < d.values.vis.length
      · rw [if_pos hc]
        rcases hm with hm | hm | hm | hm
        · exact absurd hc.1 hm
        · omega
        · omega
        · rw [adopt_dead hm]
          simp
      · rw [if_neg hc]; rfl
  | remove n i =>
    simp only [Op.Misses] at hm
    simp only [Op.run, Node.remove]
    rw [update_self]
    intro d hg
    rw [typ_get hg, values_get hg] at hm
    rw [if_neg]
    rintro ⟨h1, h2, h3⟩
    rcases hm with hm | hm | hm
    · exact hm h1
    · omega
    · omega
  | slice n i j =>
    simp only [Op.Misses] at hm
    simp only [Op.run, Node.slice]
    rw [update_self]
    intro d hg
    rw [typ_get hg, values_get hg] at hm
    rw [if_neg]
    rintro ⟨h1, h2, h3, h4⟩
    rcases hm with hm | hm | hm | hm
    · exact hm h1
    · omega
    · omega
    · omega
  | strip n k =>
    simp only [Op.Misses] at hm
    simp only [Op.run, Node.strip]
    cases hd : n.document h with
    | none => rfl
    | some r =>
      have hs : (h r).strip k (fuel + 1) n.id = some (h r) := by
        unfold Doc.strip
        cases hg : (h r).get n.id with
        | none => rfl
        | some d =>
          have hg' : n.get h = some d := by unfold Node.get; rw [hd]; exact hg
          rw [typ_get hg'] at hm
          simp only
          rw [if_neg hm]
      simp only [hs]
      have : h.set r (h r) = h := by
        funext q
        by_cases hq : q = r
        · subst hq; simp [Heap.set]
        · simp [Heap.set, hq]
      rw [this]; rfl
  | setScalar n t b =>
    simp only [Op.Misses, Dead] at hm
    simp only [Op.run, Node.setScalar]
    rw [update_self]
    intro d hg
    rw [hm] at hg
    exact absurd hg (by simp)
  | _ => exact absurd hm (by simp [Op.Misses])

/-- **C25, Slice up to the end**: for every array and every `i`, `Slice(i, len)` changes nothing. -/
theorem C25_slice_end (h : Heap) (n : Node) (xs : List JVal) (hn : Tree h n (.arr xs)) (i : Int) : n.slice h i xs.length = h := by
  have hl := (C19_values_array h n xs hn).1
  have := C114_misses h 0 (.slice n i xs.length) (Or.inr (Or.inr (Or.inr (by rw [hl]; omega))))
  simpa [Op.run] using this

-- Set on an array, Append on a number, Replace beyond the end, Del of an absent key, a zero Node as value
example : Op.Misses arrHeap (.set ⟨0, 0, some 0⟩ b!"a" ⟨1, 0, some 0⟩) := Or.inl (by decide +kernel)
example : Op.Misses arrHeap (.append ⟨1, 0, some 0⟩ [⟨2, 0, some 0⟩]) := Or.inl (by decide +kernel)
example : Op.Misses arrHeap (.replace ⟨0, 0, some 0⟩ 2 ⟨1, 0, some 0⟩) := Or.inr (Or.inr (Or.inl (by decide +kernel)))
example : Op.Misses parsedHeap (.del ⟨0, 0, some 0⟩ b!"b") := Or.inr (by decide +kernel)
example : Op.Misses parsedHeap (.set ⟨0, 0, some 0⟩ b!"b" ⟨0, 0, none⟩) := Or.inr (by unfold Dead; decide +kernel)

end Verif.Props
