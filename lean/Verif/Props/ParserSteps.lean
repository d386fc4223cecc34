import Verif.Props.Bound
import Verif.Proofs.ParserSteps

/-!
# C136: `Document.Parse` takes time in proportion to the text

`Doc.parseSteps` counts the steps of one call (Model/ParserSteps.lean). Beyond the text, a call pays for the children that earlier texts have
left in the array and that it clears, and for copying the array when the document is full.
-/

namespace Verif.Props
open Verif Verif.Spec Verif.Njson

/-- The children that all nodes of the array of `d` have, also those behind its length. -/
def children (d : Doc) : Nat := (d.arr.map fun n => n.values.len).sum

/-- Texts are parsed one after another, with `Reset` after each: the steps of all calls of Parse. -/
def stepsOf : Doc → List Bytes → Nat
  | _, [] => 0
  | d, s :: l => d.parseSteps s + stepsOf (d.parse s).1.reset l

theorem sum_take_le (l : List Nat) (n : Nat) : (l.take n).sum ≤ l.sum := by
  conv => rhs; rw [← List.take_append_drop n l, List.sum_append]
  omega

theorem map_len_modify (l : List NodeD) (i : Nat) :
    ((l.modify i fun n => { n with root := true }).map fun n => n.values.len) = l.map fun n => n.values.len := by
  apply List.ext_getElem?
  intro j
  simp only [List.getElem?_map, List.getElem?_modify]
  by_cases h : i = j
  · subst h; cases l[i]? <;> simp
  · simp [h]

theorem parse_not_crash (d : Doc) (hwf : d.Wf) (s : Bytes) : (d.parse s).2 ≠ .crash := by
  rcases parse_cases hwf s with ⟨_, _, _, _, _, h, _⟩ | ⟨_, _, _, h, _⟩ | ⟨_, _, _, _, _, _, h, _⟩ <;> rw [h] <;> intro hc <;> cases hc

theorem parse_wf {d : Doc} (hwf : d.Wf) (s : Bytes) : (d.parse s).1.Wf := by
  rcases parse_cases hwf s with ⟨_, _, _, _, _, h, h1, _⟩ | ⟨_, _, _, h, h1, _⟩ | ⟨_, _, _, _, _, _, h, h1, _⟩ <;> rw [h] <;> exact h1

/-- **C136**: whatever the text and whether it is accepted or not, Parse takes at most twenty steps for each byte, twenty-one more, three for each node
that the document already has, and one for each child that the call removes from the array. -/
theorem C136_steps (d : Doc) (hwf : d.Wf) (s : Bytes) :
    d.parseSteps s + children (d.parse s).1 ≤ 20 * s.length + 21 + 3 * d.len + children d := by
  have ht := (timed_all (2 * s.length + 2)).1 ⟨d.arr, d.len⟩ 0 s hwf
  have hpot : (⟨d.arr, d.len⟩ : P).pot ≤ 3 * d.len + children d := by
    unfold P.pot P.kids children
    unfold Doc.Wf at hwf
    simp only
    omega
  have hc := parse_not_crash d hwf s
  unfold Doc.parseSteps
  unfold Doc.parse at hc ⊢
  simp only at hc ⊢
  generalize parseValue (2 * s.length + 2) ⟨d.arr, d.len⟩ 0 s = r at ht hc ⊢
  cases r with
  | crash =>
    exact absurd rfl hc
  | ok p pos rest =>
    unfold PRes.Timed at ht
    have := kids_le_pot p
    unfold P.kids at this
    unfold children at *
    simp only [map_len_modify]
    omega
  | err p e =>
    unfold PRes.Timed P.kids at ht
    cases e <;>
    · unfold children at *
      simp only [List.map_take]
      have := sum_take_le (p.nodes.map fun n => n.values.len) d.arr.length
      omega

/-- **C136** (histories): texts parsed one after another by one document, which is Reset in between, take time in proportion to the texts: what an
earlier text has left behind is paid for by that text. -/
theorem C136_run : ∀ (l : List Bytes) (d : Doc), d.Wf →
    stepsOf d l ≤ (l.map fun s => 20 * s.length + 21).sum + 3 * d.len + children d
  | [], d, _ => Nat.zero_le _
  | s :: l, d, hwf => by
    have h1 := C136_steps d hwf s
    have hr : (d.parse s).1.reset.Wf := Nat.zero_le _
    have h2 := C136_run l (d.parse s).1.reset hr
    have h3 : children (d.parse s).1.reset = children (d.parse s).1 := rfl
    have h4 : (d.parse s).1.reset.len = 0 := rfl
    rw [h3, h4] at h2
    unfold stepsOf
    simp only [List.map_cons, List.sum_cons]
    omega

/-- **C136** (a new document): only the texts count. -/
theorem C136_new (rev : UInt64) (l : List Bytes) : stepsOf ⟨[], 0, rev⟩ l ≤ (l.map fun s => 20 * s.length + 21).sum :=
  C136_run l ⟨[], 0, rev⟩ (Nat.zero_le _)

/-- **C136** (the count is not too low): Parse takes a step for every two bytes that it consumes. -/
theorem C136_least (d : Doc) (hwf : d.Wf) (s : Bytes) {d' : Doc} {id : Nat} {tail : Bytes} (h : d.parse s = (d', .ok id tail)) :
    s.length ≤ tail.length + 2 * d.parseSteps s := by
  have ht := (took_all (2 * s.length + 2)).1 ⟨d.arr, d.len⟩ 0 s
  obtain ⟨t, pos, e1, e2, -⟩ := parse_ok hwf h
  have href := (refine_all (2 * s.length + 2)).1 ⟨d.arr, d.len⟩ 0 s hwf
  have htp : tVal (2 * s.length + 2) 0 s = treeParse s := rfl
  rw [htp, e1] at href
  obtain ⟨p', he, -⟩ := href
  rw [he] at ht
  unfold PRes.Took at ht
  unfold Doc.parseSteps
  simp only at ht
  omega

/-- A document with `n` nodes that fill its array. -/
def full (n : Nat) : Doc := ⟨List.replicate n ⟨tNull, true, b!"null", Slice.nil⟩, n, 0⟩

/-- **C136** (the nodes of the document matter): when the document is full, one byte is enough to have the whole array copied; and if the text is
rejected, the next call copies it again. -/
theorem C136_full (n : Nat) : (full n).Wf ∧ 3 * n ≤ (full n).parseSteps b!"[" ∧ ((full n).parse b!"[").1 = full n := by
  have hw : (full n).Wf := by simp [full, Doc.Wf]
  have h1 : skipSpace 0 b!"[" = (0, b!"[") := by decide
  have h2 : skipSpace 1 [] = (1, []) := rfl
  refine ⟨hw, ?_, ?_⟩
  · simp only [full, Doc.parseSteps, valueSteps, h1, P.nodeSteps, P.node]
    simp [h2]
    omega
  · simp only [full, Doc.parse, parseValue, h1, P.node]
    simp [h2, P.setNode]
    rw [List.take_modify, List.take_append, List.take_of_length_le (by simp)]
    apply List.ext_getElem?
    intro j
    simp only [List.getElem?_modify]
    by_cases h : n = j
    · subst h; simp
    · simp [h]

/-- A pooled document that reads a long array, then a rejected text, then a short one: the hypotheses hold, and the three calls take 91 steps. -/
example : stepsOf ⟨[], 0, 0⟩ [b!"[1,[2],\"a\"]", b!"[1,[2", b!"{}"] = 91 := by decide +kernel

end Verif.Props
