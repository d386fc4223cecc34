import Verif.Proofs.SerInj
import Verif.Props.Alike
import Verif.Props.Access

/-! # Property C144: the JSON of a node determines its content -/

namespace Verif.Props
open Verif Verif.Spec Verif.Njson

/-- **C144 (partial)**, nodes built through the API: if `AppendJSON` gives the same text for two nodes, whose keys and string values are escaped texts, then they have
the same tree: they cannot be told apart (C143). Missing from the full claim: pairs of a built node and a parsed one, for which it is false. -/
theorem C144_built_partial (h h' : Heap) (n n' : Node) (t t' : JVal) (h1 : Tree h n t) (h2 : Tree h' n' t') (p1 : Protected t) (p2 : Protected t') (fuel fuel' : Nat)
    (hf : t.size ≤ fuel) (hf' : t'.size ≤ fuel') (dst : Bytes) (heq : n.appendJSON h fuel dst = n'.appendJSON h' fuel' dst) : t = t' := by
  rw [C21_appendJSON h n t dst h1 fuel hf, C21_appendJSON h' n' t' dst h2 fuel' hf'] at heq
  simp at heq
  exact ser_inj_protected p1 p2 heq

/-- **C144 (partial)**, parsed nodes: the same for two nodes that `Parse` made, or that are below them (`C144_parsed`). -/
theorem C144_parsed_partial (h h' : Heap) (n n' : Node) (t t' : JVal) (h1 : Tree h n t) (h2 : Tree h' n' t') (p1 : AsParsed t) (p2 : AsParsed t') (fuel fuel' : Nat)
    (hf : t.size ≤ fuel) (hf' : t'.size ≤ fuel') (dst : Bytes) (heq : n.appendJSON h fuel dst = n'.appendJSON h' fuel' dst) : t = t' := by
  rw [C21_appendJSON h n t dst h1 fuel hf, C21_appendJSON h' n' t' dst h2 fuel' hf'] at heq
  simp at heq
  exact ser_inj_parsed p1 p2 heq

/-- **C144**: trees that are built from escaped texts and legal numbers are as `C144_built_partial` wants them. -/
theorem C144_api (t : JVal) (h : ApiTree t) : Protected t :=
  (allRaw_mono (fun _ ⟨x, html, e⟩ => e ▸ rfcBody_escBody (C03_escaped_legal x html).1) (fun _ ⟨x, html, e⟩ => e ▸ rfcBody_escBody (C03_escaped_legal x html).1)
    (fun _ hs => rfcNumber_lenient hs)).1 t h

theorem allRaw_child {S K N : Bytes → Prop} {g : Nat → Option Cont} {t : JVal} {a : Nat} {c : Cont} {v : V} (ht : Reps g t a) (hg : g a = some c) (hv : v ∈ c.vals)
    (h : AllRaw S K N t) : ∃ x, Reps g x v.id ∧ AllRaw S K N x := by
  have hel : ∀ (xs : List JVal) (vs : List V), RepsElems g xs vs → AllRawElems S K N xs → v ∈ vs → ∃ x, Reps g x v.id ∧ AllRaw S K N x := by
    intro xs
    induction xs with
    | nil => intro vs h1 _ h3; simp only [RepsElems] at h1; subst h1; simp at h3
    | cons x xs ih =>
      intro vs h1 h2 h3
      simp only [RepsElems] at h1
      obtain ⟨id, vs', rfl, r1, r2⟩ := h1
      rcases List.mem_cons.1 h3 with rfl | h3
      · exact ⟨x, r1, h2.1⟩
      · exact ih vs' r2 h2.2 h3
  have hme : ∀ (xs : List (Bytes × JVal)) (vs : List V), RepsMembers g xs vs → AllRawMembers S K N xs → v ∈ vs → ∃ x, Reps g x v.id ∧ AllRaw S K N x := by
    intro xs
    induction xs with
    | nil => intro vs h1 _ h3; simp only [RepsMembers] at h1; subst h1; simp at h3
    | cons x xs ih =>
      intro vs h1 h2 h3
      obtain ⟨k, x⟩ := x
      simp only [RepsMembers] at h1
      obtain ⟨id, vs', rfl, r1, r2⟩ := h1
      rcases List.mem_cons.1 h3 with rfl | h3
      · exact ⟨x, r1, h2.2.1⟩
      · exact ih vs' r2 h2.2.2 h3
  have hno : ∀ {typ : Typ} {raw : Bytes}, g a = some ⟨typ, raw, []⟩ → False := by
    intro typ raw e
    rw [hg] at e
    simp only [Option.some.injEq] at e
    rw [e] at hv
    simp at hv
  cases t with
  | null => simp only [Reps] at ht; exact (hno ht).elim
  | bool b => cases b <;> (simp only [Reps] at ht; exact (hno ht).elim)
  | num _ => simp only [Reps] at ht; exact (hno ht).elim
  | str _ => simp only [Reps] at ht; exact (hno ht).elim
  | arr xs =>
    simp only [Reps] at ht
    obtain ⟨vs, h1, h2⟩ := ht
    rw [hg] at h1
    simp only [Option.some.injEq] at h1
    rw [h1] at hv
    exact hel xs vs h2 (by simpa [AllRaw] using h) hv
  | obj ms =>
    simp only [Reps] at ht
    obtain ⟨vs, h1, h2⟩ := ht
    rw [hg] at h1
    simp only [Option.some.injEq] at h1
    rw [h1] at hv
    exact hme ms vs h2 (by simpa [AllRaw] using h) hv

/-- **C144**: every node that `Parse` made, whatever the text and the document, is as `C144_parsed_partial` wants it. -/
theorem C144_parsed (d : Doc) (hwf : d.Wf) (s : Bytes) (d' : Doc) (id : Nat) (t : JVal) (r : Bytes) (h : Parses d s d' id t r) (m : Nat) (x : JVal)
    (hm : Reach d'.cont id m) (hx : Reps d'.cont x m) : AsParsed x := by
  obtain ⟨w, v, _, _, hv, _⟩ := (C11_language d hwf s t r).1 ⟨d', id, h⟩
  have key : ∀ (a b : Nat), Reach d'.cont a b → ∀ t : JVal, Reps d'.cont t a → AsParsed t → ∀ x : JVal, Reps d'.cont x b → AsParsed x := by
    intro a b hab
    induction hab with
    | refl a => intro t h1 h2 x h3; rw [← reps_unique h1 h3]; exact h2
    | step hg hv _ ih =>
      intro t h1 h2 x h3
      obtain ⟨y, h4, h5⟩ := allRaw_child h1 hg hv h2
      exact ih y h4 h5 x h3
  exact key id m hm t h.2 (gval_allRaw hv) x hx

/-- The calls that build the array of the three texts `\`, `,1,` and `,2`. -/
def builtOps : List Op := [.add 0 tArray [], .add 0 tString (StrJson.escaped b!"\\" false false), .add 0 tString (StrJson.escaped b!",1," false false),
  .add 0 tString (StrJson.escaped b!",2" false false), .append ⟨0, 0, some 0⟩ [⟨1, 0, some 0⟩, ⟨2, 0, some 0⟩, ⟨3, 0, some 0⟩]]

/-- **C144 is false** of the code, as strings are misread (C10): an array of three texts, built through the API, and the array of four elements that `Parse` reads from its
text have the same JSON. -/
theorem C144_false : (runOps 9 (builtOps ++ [.json ⟨0, 0, some 0⟩ [], .index ⟨0, 0, some 0⟩ 3]) newHeap).map (fun p => p.2.drop 5) =
      some [.json (b!"[\"\\\\\",\",1,\",\",2\"]", false), .node ⟨maxUint, 0, some 0⟩] ∧
    (runOps 9 [.parse 0 b!"[\"\\\\\",\",1,\",\",2\"]", .json ⟨0, 0, some 0⟩ [], .index ⟨0, 0, some 0⟩ 3] newHeap).map (fun p => p.2.drop 1) =
      some [.json (b!"[\"\\\\\",\",1,\",\",2\"]", false), .node ⟨4, 0, some 0⟩] := by
  constructor <;> decide +kernel

/-- **C144 is false** also because `Set` writes keys as they are (C128): an object with one member, whose key is `a":1,"b`, and an object with two members have the
same JSON. -/
theorem C144_false_keys : (runOps 9 [.add 0 tObject [], .add 0 tNumber b!"2", .set ⟨0, 0, some 0⟩ b!"a\":1,\"b" ⟨1, 0, some 0⟩, .json ⟨0, 0, some 0⟩ [],
        .get ⟨0, 0, some 0⟩ b!"a"] newHeap).map (fun p => p.2.drop 3) = some [.json (b!"{\"a\":1,\"b\":2}", false), .node ⟨maxUint, 0, some 0⟩] ∧
    (runOps 9 [.parse 0 b!"{\"a\":1,\"b\":2}", .json ⟨0, 0, some 0⟩ [], .get ⟨0, 0, some 0⟩ b!"a"] newHeap).map (fun p => p.2.drop 1) =
      some [.json (b!"{\"a\":1,\"b\":2}", false), .node ⟨1, 0, some 0⟩] := by
  constructor <;> decide +kernel

-- the trees of the examples of C143 meet the conditions of both theorems, and have the same text
example : Protected (.arr [.num b!"7", .num b!"8"]) ∧ AsParsed (.arr [.num b!"7", .num b!"8"]) ∧
    Node.appendJSON arrHeap 3 ⟨0, 0, some 0⟩ [] = Node.appendJSON innerHeap 3 ⟨2, 0, some 0⟩ [] := by
  have n1 : ∀ c : UInt8, IsDigitByte c → ¬ NumberEnd c → LenientNum [c] := fun c h1 h2 => ⟨⟨c, [], rfl, .inl h1⟩, by simpa using h2⟩
  have a : LenientNum b!"7" := n1 55 (by unfold IsDigitByte; decide) (by unfold NumberEnd; decide)
  have b : LenientNum b!"8" := n1 56 (by unfold IsDigitByte; decide) (by unfold NumberEnd; decide)
  exact ⟨⟨a, b, trivial⟩, ⟨a, b, trivial⟩, by decide +kernel⟩

-- one text with an escaped backslash at its end, which `Parse` does not read, is allowed by `C144_built_partial`
example : Protected (.obj [(b!"k", .str b!"\\\\")]) := ⟨.plain (by decide) (by decide) .nil, .esc 92 .nil, trivial⟩

end Verif.Props
