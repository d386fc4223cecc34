import Verif.Props.UnPrefix
import Verif.Props.Cycle

/-! # Property C142 for nodes -/

namespace Verif.Props
open Verif Verif.Njson

/-- the bytes begin with these -/
def Pre (dst : Bytes) : Option (Bytes × Bool) → Prop
  | none => True
  | some (r, _) => ∃ s, r = dst ++ s

theorem pre_trans {dst s : Bytes} : ∀ {x : Option (Bytes × Bool)}, Pre (dst ++ s) x → Pre dst x
  | none, _ => trivial
  | some (_, _), ⟨s', h⟩ => ⟨s ++ s', by rw [h, List.append_assoc]⟩

theorem pre_elems {rec : Bytes → Nat → Option (Bytes × Bool)} (hr : ∀ b i, Pre b (rec b i)) : ∀ (vs : List V) (first : Bool) (dst : Bytes),
    Pre dst (appendElems rec vs first dst)
  | [], _, dst => ⟨[], by simp⟩
  | v :: vs, first, dst => by
    unfold appendElems
    obtain ⟨s, h1⟩ : ∃ s, (if first then dst else dst ++ [44]) = dst ++ s := by cases first; exact ⟨[44], rfl⟩; exact ⟨[], by simp⟩
    rw [h1]
    have := hr (dst ++ s) v.id
    cases hx : rec (dst ++ s) v.id with
    | none => trivial
    | some p =>
      obtain ⟨r, e⟩ := p
      rw [hx] at this
      obtain ⟨s', rfl⟩ := this
      cases e with
      | true => exact ⟨s ++ s', by simp⟩
      | false => exact pre_trans (s := s) (pre_trans (pre_elems hr vs false _))

theorem pre_members {rec : Bytes → Nat → Option (Bytes × Bool)} (hr : ∀ b i, Pre b (rec b i)) : ∀ (vs : List V) (first : Bool) (dst : Bytes),
    Pre dst (appendMembers rec vs first dst)
  | [], _, dst => ⟨[], by simp⟩
  | v :: vs, first, dst => by
    unfold appendMembers
    obtain ⟨s, h1⟩ : ∃ s, (if first then dst else dst ++ [44]) ++ [34] ++ v.key ++ [34, 58] = dst ++ s := by
      cases first; exact ⟨[44] ++ [34] ++ v.key ++ [34, 58], by simp⟩; exact ⟨[34] ++ v.key ++ [34, 58], by simp⟩
    rw [h1]
    have := hr (dst ++ s) v.id
    cases hx : rec (dst ++ s) v.id with
    | none => trivial
    | some p =>
      obtain ⟨r, e⟩ := p
      rw [hx] at this
      obtain ⟨s', rfl⟩ := this
      cases e with
      | true => exact ⟨s ++ s', by simp⟩
      | false => exact pre_trans (s := s) (pre_trans (pre_members hr vs false _))

theorem pre_append (get : Nat → Option NodeD) : ∀ (fuel : Nat) (dst : Bytes) (id : Nat), Pre dst (Njson.appendJSON get fuel dst id)
  | 0, _, _ => trivial
  | fuel + 1, dst, id => by
    have ih := pre_append get fuel
    unfold Njson.appendJSON
    cases get id with
    | none => exact ⟨[], by simp⟩
    | some n =>
      dsimp only
      split
      · have := pre_members ih n.values.vis true (dst ++ [123])
        split
        · rename_i d hd; rw [hd] at this; obtain ⟨s, rfl⟩ := this; exact ⟨[123] ++ s ++ [125], by simp⟩
        · exact pre_trans this
      · split
        · have := pre_elems ih n.values.vis true (dst ++ [91])
          split
          · rename_i d hd; rw [hd] at this; obtain ⟨s, rfl⟩ := this; exact ⟨[91] ++ s ++ [93], by simp⟩
          · exact pre_trans this
        · split
          · exact ⟨[34] ++ n.raw ++ [34], by simp⟩
          · exact ⟨_, rfl⟩

/-- **C142 (partial), nodes**: `AppendJSON` of a node of a document returns what it was given with something appended, also if it fails below that node, and so does
`AppendJSON` of a document. A node that is empty returns nil. -/
theorem C142_node_partial (h : Heap) (fuel : Nat) (dst : Bytes) :
    (∀ (n : Node) r e, n.appendJSON h fuel dst = some (r, e) → n.get h ≠ none → ∃ s, r = dst ++ s) ∧
    (∀ (n : Node) r e, n.appendJSON h fuel dst = some (r, e) → n.get h = none → r = [] ∧ e = true) ∧
    (∀ (d : Doc) r e, d.appendJSON fuel dst = some (r, e) → ∃ s, r = dst ++ s) := by
  refine ⟨fun n r e hr hn => ?_, fun n r e hr hn => ?_, fun d r e hr => ?_⟩
  · unfold Node.appendJSON at hr
    split at hr
    · have := pre_append (getOf h n.doc) fuel dst n.id
      rw [hr] at this; exact this
    · rename_i hg; exact absurd hg hn
  · unfold Node.appendJSON at hr
    rw [hn] at hr
    cases hr; exact ⟨rfl, rfl⟩
  · have := pre_append d.get fuel dst 0
    unfold Doc.appendJSON at hr
    rw [hr] at this; exact this

-- the array [7,8] after `x`, an index that is not there, and an array with a child that is not there
example : Node.appendJSON (fun _ => (Doc.empty.parse b!"[7,8]").1) 5 ⟨0, 0, some 0⟩ b!"x" = some (b!"x[7,8]", false) := by decide +kernel
example : Node.appendJSON (fun _ => (Doc.empty.parse b!"[7,8]").1) 5 ⟨9, 0, some 0⟩ b!"x" = some ([], true) := by decide +kernel
example : (runOps 9 [.add 0 tArray [], .append ⟨0, 0, some 0⟩ [Node.zero], .json ⟨0, 0, some 0⟩ b!"x"] newHeap).map (·.2.getLast?) =
    some (some (.json (b!"x[", true))) := by decide +kernel

end Verif.Props
