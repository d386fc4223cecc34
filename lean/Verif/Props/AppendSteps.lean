import Verif.Proofs.AppendSteps
import Verif.Props.Missing
import Verif.Props.Doc

/-! # Property C145: AppendJSON takes time in proportion to what it writes -/

namespace Verif.Props
open Verif Verif.Spec Verif.Njson

/-- **C145**: the counting model is `AppendJSON`. -/
theorem C145_same (h : Heap) (fuel : Nat) (n : Node) (dst : Bytes) : (n.appendSteps h fuel dst).map (fun r => (r.1, r.2.1)) = n.appendJSON h fuel dst := by
  unfold Node.appendSteps Node.appendJSON
  cases n.get h with
  | none => rfl
  | some d => exact appendSteps_same _ fuel dst n.id

/-- **C145**: in every state, whatever calls led to it and whether the node is empty, part of a loop or holds ids that do not exist, whenever `AppendJSON` returns, with an
error or without one, it has taken at most one step, and two for each byte that it has written. -/
theorem C145_linear (h : Heap) (fuel : Nat) (n : Node) (dst out : Bytes) (err : Bool) (c : Nat) (hr : n.appendSteps h fuel dst = some (out, err, c)) :
    c ≤ 2 * (out.length - dst.length) + 1 ∧ (¬ Dead h n → dst.length ≤ out.length) := by
  unfold Node.appendSteps at hr
  unfold Dead
  cases hg : n.get h with
  | none =>
    rw [hg] at hr
    simp only [Option.some.injEq, Prod.mk.injEq] at hr
    obtain ⟨rfl, _, rfl⟩ := hr
    exact ⟨by simp, fun h => absurd rfl h⟩
  | some d =>
    rw [hg] at hr
    obtain ⟨h1, h2⟩ := appendSteps_cheap _ fuel dst n.id _ hr
    simp only at h1 h2
    exact ⟨by omega, fun _ => h1⟩

/-- **C145**: for a node with a tree the number of steps is exact: one call for each node, one pass of a loop for each child. -/
theorem C145_exact (h : Heap) (n : Node) (t : JVal) (ht : Tree h n t) (fuel : Nat) (hf : t.size ≤ fuel) (dst : Bytes) :
    n.appendSteps h fuel dst = some (dst ++ t.ser, false, 2 * t.size - 1) := by
  obtain ⟨r, d, a1, a2, a3, a4, a5⟩ := tree_cont ht
  have e1 := C145_same h fuel n dst
  rw [C21_appendJSON h n t dst ht fuel hf] at e1
  rw [doc_cont] at a5
  obtain ⟨out, e2⟩ := appendSteps_count.1 t n.id a5 fuel dst hf
  have e3 : n.appendSteps h fuel dst = some (out, false, 2 * t.size - 1) := by
    unfold Node.appendSteps; rw [a3, a2]; exact e2
  rw [e3] at e1 ⊢
  simp at e1
  rw [e1]

-- an array in an array: 4 nodes, 3 children
example : Node.appendSteps (fun _ => (Doc.empty.parse b!"[[1, 2]]").1) 9 ⟨0, 0, some 0⟩ b!"x" = some (b!"x[[1,2]]", false, 7) := by decide +kernel
-- a node that does not exist
example : Node.appendSteps arrHeap 9 ⟨7, 0, some 0⟩ b!"x" = some ([], true, 1) := by decide +kernel
-- an array that holds an id that does not exist: the error comes after the bracket
example : Node.appendSteps (fun _ => ⟨[⟨tArray, true, [], ⟨[⟨5, []⟩], 1⟩⟩], 1, 0⟩) 9 ⟨0, 0, some 0⟩ b!"x" = some (b!"x[", true, 3) := by decide +kernel

end Verif.Props
