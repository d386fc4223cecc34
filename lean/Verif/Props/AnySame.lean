import Verif.Proofs.AnySame
import Verif.Props.Access
import Verif.Props.UnTotal

/-! # `Unmarshal` into an `interface{}` stores what `ToInterface` returns (C105) -/

namespace Verif.Props
open Verif Verif.Float Verif.Spec Verif.Njson Verif.Unjson

theorem any_comp {U : Univ} {t' : Ty} (h : Comp U .any t') : t' = .any := by
  cases h with
  | refl => rfl
  | ptr hb | slice hb | array hb | map hb | field hb => cases hb

/-- **C105**: for every text that starts with a JSON value, `Unmarshal` into a variable of type `interface{}` stores what `ToInterface` returns for a node with
that value; when `ToInterface` fails, so does `Unmarshal`, and the variable keeps its value. -/
theorem C105_any {U : Univ} (hU : U.Ok) (hE : U.EmbedsStructs) (hn : NoUnmarshal U (.ptr .any)) (hn' : NoUnmarshal U .any) {x : GV} (hx : HasTy U .any x)
    {d : Doc} (hd : d.Wf) {s : Bytes} {d' : Doc} {id : Nat} {j : JVal} {tail : Bytes} (hp : Parses d s d' id j tail)
    {h : Heap} {n : Node} (ht : Tree h n j) {fuel : Nat} (hf : j.size ≤ fuel) :
    (∃ g y N, n.toInterface floatOf h fuel = some (some g) ∧ AsAny g y ∧
      ∀ fuel', N ≤ fuel' → unmarshal U fuel' d s (some (.ptr .any, .ptr x)) = some (.done (some (.ptr .any, .ptr y)) none)) ∨
    (∃ N, n.toInterface floatOf h fuel = some none ∧
      ∀ fuel', N ≤ fuel' → unmarshal U fuel' d s (some (.ptr .any, .ptr x)) = some (.done (some (.ptr .any, .ptr x)) (some (.typeError (jtyp j) tAnyValue)))) := by
  have hb : U.base (.ptr .any) = .ptr .any := rfl
  have hsup : Supported U .any := by intro t h; rw [any_comp h]; simp [Univ.base, Ty.any]
  obtain ⟨N, r, hr⟩ := C74_returns hE (t := .ptr .any) (.ptr x) (fun e he => by
    cases he
    refine ⟨⟨⟨[.any], fun t h => by rw [any_comp h]; simp⟩, fun t h => by rw [any_comp h]; exact .leaf (by simp [Univ.base, Ty.any]),
      fun t j h hb => by rw [any_comp h] at hb; cases hb⟩, fun t h => by rw [any_comp h]; exact .leaf (by simp [Univ.base, Ty.any])⟩) hd s
  have ha : UnmarshalArg U (.ptr .any) .any x := ⟨rfl, hn, fun t h => by rw [any_comp h]; exact hn', hx⟩
  have hres : r = match anyOf j with
      | some y => .done (some (.ptr .any, .ptr y)) none
      | none => .done (some (.ptr .any, .ptr x)) (some (.typeError (jtyp j) tAnyValue)) := by
    rcases unmarshal_tree hU hE ha N hd s r (hr N (Nat.le_refl _)) hp with ⟨_, h, _⟩ | ⟨r', hdec, rfl⟩
    · exact absurd h (newTypeDecoder_accepts hU hb hsup _)
    · cases hq : anyOf j with
      | some y => rw [decodes_unique hdec _ (.any hq)]; rfl
      | none => rw [decodes_unique hdec _ (.anyErr (i := 0) rfl hq)]; rfl
  obtain ⟨rf, hd', hr'⟩ := ht
  have ht : Tree h n j := ⟨rf, hd', hr'⟩
  rw [doc_cont] at hr'
  have hsame := any_same (h rf).get fuel n.id
  have e : n.toInterface floatOf h fuel = toInterface floatOf (h rf).get fuel n.id := by
    unfold Node.toInterface; rw [hd']; rfl
  rw [e]
  have hnot : toInterface floatOf (h rf).get fuel n.id ≠ none := by
    have := C35_toInterface floatOf h n j ht fuel hf
    rw [e] at this
    intro h0
    by_cases hnp : NumsParse floatOf j
    · obtain ⟨g, h1, _⟩ := this.1 hnp; rw [h0] at h1; cases h1
    · rw [this.2 hnp] at h0; cases h0
  have hspec := (toAny_spec (h rf).get).1 j n.id hr' fuel
  generalize toInterface floatOf (h rf).get fuel n.id = a at hsame hnot ⊢
  generalize toAny (h rf).get fuel n.id = b at hsame hspec
  cases hsame with
  | endless => exact absurd rfl hnot
  | fail =>
    rw [← hspec _ rfl] at hres
    exact .inr ⟨N, rfl, fun fuel' h => by rw [hr fuel' h, hres]⟩
  | ok hg =>
    rw [← hspec _ rfl] at hres
    exact .inl ⟨_, _, N, rfl, hg, fun fuel' h => by rw [hr fuel' h, hres]⟩

/-- What `Decode` of the decoder for interface types leaves in the variable when it fails. -/
def anyRest : JVal → GV
  | .arr _ => .iface (.slice .any) .nilSlice
  | .num _ => .iface (.float .b64) (.float .nan)
  | _ => .nilIface

/-- **C105**: the decoder that `NewTypeDecoder` returns for an interface type stores the same. When it fails it overwrites the variable nevertheless: with nil, NaN, or
a nil slice. -/
theorem C105_decoder {U : Univ} {tag : Bytes} {fuel0 i : Nat} {t : Ty} (hb : U.base t = .iface 0 i) {c : TypeDecoder} (hc : newTypeDecoder U tag fuel0 t = .ok c) (x : GV)
    {h : Heap} {n : Node} {j : JVal} (ht : Tree h n j) {fuel : Nat} (hf : j.size ≤ fuel) :
    (∃ g y, n.toInterface floatOf h fuel = some (some g) ∧ AsAny g y ∧ c.decode U fuel h n (.ptr .any) (.ptr x) = some (.done (.ptr y) none)) ∨
    (n.toInterface floatOf h fuel = some none ∧
      c.decode U fuel h n (.ptr .any) (.ptr x) = some (.done (.ptr (anyRest j)) (some (.typeError (jtyp j) tAnyValue)))) := by
  have hc' : c = .iface := by
    unfold newTypeDecoder at hc
    rw [hb] at hc
    simp at hc
    exact hc.symm
  subst hc'
  obtain ⟨rf, hd', hr'⟩ := ht
  have ht : Tree h n j := ⟨rf, hd', hr'⟩
  have htyp : n.typ h = jtyp j := tree_typ ht
  rw [doc_cont] at hr'
  have hsame := any_same (h rf).get fuel n.id
  have e : n.toInterface floatOf h fuel = toInterface floatOf (h rf).get fuel n.id := by
    unfold Node.toInterface; rw [hd']; rfl
  have hg : getOf h (n.document h) = (h rf).get := by rw [hd']; rfl
  have hnot : toInterface floatOf (h rf).get fuel n.id ≠ none := by
    have := C35_toInterface floatOf h n j ht fuel hf
    rw [e] at this
    intro h0
    by_cases hnp : NumsParse floatOf j
    · obtain ⟨g, h1, _⟩ := this.1 hnp; rw [h0] at h1; cases h1
    · rw [this.2 hnp] at h0; cases h0
  have hrest : toAnyRest (h rf).get n.id = anyRest j := by
    have key : ∀ {c : Cont}, contOf (h rf).get n.id = some c → ∃ m, (h rf).get n.id = some m ∧ m.typ = c.typ := by
      intro c hc
      obtain ⟨m, h1, h2, _⟩ := contOf_some hc
      exact ⟨m, h1, h2⟩
    unfold toAnyRest
    cases j with
    | bool b => cases b <;> (obtain ⟨m, h1, h2⟩ := key hr'; rw [h1]; simp only [h2]; rfl)
    | arr xs => obtain ⟨vs, h3, _⟩ := hr'; obtain ⟨m, h1, h2⟩ := key h3; rw [h1]; simp only [h2]; rfl
    | obj ms => obtain ⟨vs, h3, _⟩ := hr'; obtain ⟨m, h1, h2⟩ := key h3; rw [h1]; simp only [h2]; rfl
    | _ => obtain ⟨m, h1, h2⟩ := key hr'; rw [h1]; simp only [h2]; rfl
  rw [e]
  simp only [TypeDecoder.decode, if_true, hg, htyp, hrest]
  generalize toInterface floatOf (h rf).get fuel n.id = a at hsame hnot ⊢
  generalize toAny (h rf).get fuel n.id = b at hsame ⊢
  cases hsame with
  | endless => exact absurd rfl hnot
  | fail => exact .inr ⟨rfl, rfl⟩
  | ok hg => exact .inl ⟨_, _, rfl, hg, rfl⟩

/-- The hypotheses are met, by a text with a key that occurs twice. -/
example : exU.Ok ∧ exU.EmbedsStructs ∧ NoUnmarshal exU (.ptr .any) ∧ NoUnmarshal exU .any ∧ HasTy exU .any (.iface .bool (.bool true)) ∧
    (∃ d' id, Parses Doc.empty b!"{\"a\":[1,{\"b\":\"x\"}],\"c\":null,\"a\":true}" d' id
      (.obj [(b!"a", .arr [.num b!"1", .obj [(b!"b", .str b!"x")]]), (b!"c", .null), (b!"a", .bool true)]) []) ∧
    Tree parsedHeap ⟨0, 0, some 0⟩ (.obj [(b!"a", .arr [.num b!"1", .obj [(b!"b", .str b!"x")]]), (b!"c", .null), (b!"a", .bool true)]) ∧
    unmarshal exU 30 Doc.empty b!"{\"a\":[1,{\"b\":\"x\"}],\"c\":null,\"a\":true}" (some (.ptr .any, .ptr (.iface .bool (.bool true)))) =
      some (.done (some (.ptr .any, .ptr (.iface (.map .string .any) (.map [(.str b!"a", .iface .bool (.bool true)), (.str b!"c", .nilIface)])))) none) :=
  ⟨exU_ok, exU_embeds, exU_noUnmarshal _, exU_noUnmarshal _, .iface (m := 0) (i := 0) rfl (.bool rfl), (parses_iff empty_wf).2 ⟨_, by rfl⟩, parsed_tree,
    eq_of_sameX (by decide +kernel)⟩

/-- The second case does occur: the parser takes `1e` for a number. -/
example : (∃ d' id, Parses Doc.empty b!"1e" d' id (.num b!"1e") []) ∧ floatOf b!"1e" = none ∧
    unmarshal exU 30 Doc.empty b!"1e" (some (.ptr .any, .ptr (.iface .bool (.bool true)))) =
      some (.done (some (.ptr .any, .ptr (.iface .bool (.bool true)))) (some (.typeError tNumber tAnyValue))) :=
  ⟨(parses_iff empty_wf).2 ⟨_, by rfl⟩, by decide +kernel, eq_of_sameX (by decide +kernel)⟩

/-- There is a decoder for `interface{}`. -/
example : newTypeDecoder exU [] 1 .any = .ok .iface ∧ exU.base .any = .iface 0 0 := ⟨rfl, rfl⟩

end Verif.Props
