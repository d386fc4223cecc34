import Verif.Props.GenRound
import Verif.Proofs.Depth

/-!
# C137: the calls of Parse and AppendJSON are as deep as the value is nested

`Doc.parseDepth` and `Node.jsonDepth` (Model/Depth.lean) are the numbers of calls in progress at the same time.
-/

namespace Verif.Props
open Verif Verif.Spec Verif.Njson Verif.Gen

/-- **C137** (accepted texts): as many calls as the value has levels, whatever the document was used for before. -/
theorem C137_parse (d : Doc) (hwf : d.Wf) (s : Bytes) (d' : Doc) (id : Nat) (t : JVal) (r : Bytes) (h : Parses d s d' id t r) :
    d.parseDepth s = levels t := by
  obtain ⟨pos, htp⟩ := (parses_iff hwf).1 ⟨d', id, h⟩
  exact (depth_all _).1 _ _ _ _ _ _ hwf htp

/-- **C137** (all texts): no more calls than bytes, and one. -/
theorem C137_bound (d : Doc) (hwf : d.Wf) (s : Bytes) : d.parseDepth s ≤ s.length + 1 := (depth_le _).1 _ _ _ hwf

/-- **C137** (there is no limit): a text of `n` opening brackets, which is rejected, takes `n` calls. -/
theorem C137_deep (d : Doc) (hwf : d.Wf) (n : Nat) : n ≤ d.parseDepth (List.replicate n 91) :=
  depth_ge n _ _ _ hwf (by simp)

def nest : Nat → JVal
  | 0 => .arr []
  | n + 1 => .arr [nest n]

theorem nest_ser : ∀ n, (nest n).ser = List.replicate (n + 1) 91 ++ List.replicate (n + 1) 93
  | 0 => rfl
  | n + 1 => by
    have h : (nest (n + 1)).ser = [91] ++ (nest n).ser ++ [93] := by simp [nest, JVal.ser, serElems]
    rw [h, nest_ser n, List.replicate_succ (n := n + 1), List.replicate_succ' (n := n + 1) (a := (93 : UInt8))]
    simp

theorem nest_levels : ∀ n, levels (nest n) = n + 1
  | 0 => rfl
  | n + 1 => by
    have := nest_levels n
    simp only [nest, levels, levelsElems]
    omega

theorem nest_clean : ∀ n, Clean (nest n)
  | 0 => trivial
  | n + 1 => ⟨nest_clean n, trivial⟩

/-- **C137** (there is no limit): a text of `n` opening and `n` closing brackets is accepted; Parse nests `n` calls to read it, and AppendJSON to write it. -/
theorem C137_nested (d : Doc) (hwf : d.Wf) (n : Nat) : ∃ d' id t,
    Parses d (List.replicate (n + 1) 91 ++ List.replicate (n + 1) 93) d' id t [] ∧
    d.parseDepth (List.replicate (n + 1) 91 ++ List.replicate (n + 1) 93) = n + 1 ∧
    ∀ fuel, t.size ≤ fuel → appendDepth d'.get fuel id = n + 1 := by
  obtain ⟨d', id, h⟩ := clean_parses (nest_clean n) hwf
  rw [nest_ser] at h
  refine ⟨d', id, nest n, h, ?_, fun fuel hf => ?_⟩
  · rw [C137_parse d hwf _ _ _ _ _ h, nest_levels]
  · rw [(append_depth d'.get).1 _ _ h.2 fuel hf, nest_levels]

/-- **C137** (AppendJSON): as many calls as the tree of the node has levels. -/
theorem C137_append (h : Heap) (n : Node) (t : JVal) (ht : Tree h n t) (fuel : Nat) (hf : t.size ≤ fuel) : n.jsonDepth h fuel = levels t := by
  obtain ⟨r, d, hd, hdoc, hg, hg', hr⟩ := tree_cont ht
  unfold Node.jsonDepth
  rw [hdoc]
  exact (append_depth _).1 t n.id hr fuel hf

/-- A value with three levels, in a document that has been used. -/
example : Doc.parseDepth ⟨[⟨tArray, true, [], ⟨[⟨7, []⟩], 1⟩⟩], 1, 3⟩ b!" {\"a\":[1,{}],\"b\":2}" = 3 := by decide +kernel

example : Node.jsonDepth parsedHeap 9 ⟨0, 0, some 0⟩ = 4 := by decide +kernel

end Verif.Props
