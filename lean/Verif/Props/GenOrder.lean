import Verif.Proofs.GenOrder
import Verif.Props.GenUAgain
import Verif.Props.UnOrder

/-! # Generated UnmarshalNodeJSON and the order of members (C134) -/

namespace Verif.Props
open Verif Verif.Float Verif.Spec Verif.Njson Verif.Unjson Verif.Gen

/-- If one call succeeds, so does the other one. -/
theorem method_shuffled {E : Env} (hE : E.Ok) (hH : UHooks E) (hB : OrderBlindIn E) {o : GenOptions} (hF : FieldsApart E o) {gf : Nat} {t : Ty} {b : UBlock}
    (hb : typeUnmarshaler E o gf t = .ok b) (hc : unmarshalerCompiles E b t = true) {v v' : GV} (hv : HasTy E.U t v) (hv' : HasTy E.U t v') (hs : SameVal v v')
    {h h' : Heap} {n n' : Node} {j j' : JVal} (ht : Tree h n j) (ht' : Tree h' n' j') (hj : Shuffled j j') {f f' : Nat} (hf : j.size ≤ f) (hf' : j'.size ≤ f')
    {y : GV} (hr : runUnmarshaler E h f b t v n = some (.done y none)) : ∃ y', runUnmarshaler E h' f' b t v' n' = some (.done y' none) ∧ SameVal y y' := by
  by_cases hn : j = .null
  · rw [(C79_stores_partial hE hH hb hc ht hv hf).1 hn] at hr
    cases hr
    exact ⟨v', (C79_stores_partial hE hH hb hc ht' hv' hf').1 (hj.null_iff.1 hn), hs⟩
  · rcases C79_returned hE hH hb hc ht hv hf hn with ⟨z, err', k1, k2, _⟩ | ⟨k1, _⟩
    · rw [k1] at hr; cases hr
      obtain ⟨y', g1, g2⟩ := gdec_shuffled hB hF k2 rfl v' j' hs hj
      rcases C79_returned hE hH hb hc ht' hv' hf' (fun h => hn (hj.null_iff.2 h)) with ⟨z, err', l1, l2, _⟩ | ⟨_, _, l2⟩
      · obtain ⟨rfl, rfl⟩ := C79_one g1 l2
        exact ⟨_, l1, g2⟩
      · exact absurd g1 (l2 _ _)
    · rw [k1] at hr; cases hr

/-- **C134**: two calls of a generated `UnmarshalNodeJSON` with trees that differ only in the order of members with different names, for variables with the same content:
both succeed, and leave the same value, or neither does. -/
theorem C134_method {E : Env} (hE : E.Ok) (hH : UHooks E) (hB : OrderBlindIn E) {o : GenOptions} (hF : FieldsApart E o) {gf : Nat} {t : Ty} {b : UBlock}
    (hb : typeUnmarshaler E o gf t = .ok b) (hc : unmarshalerCompiles E b t = true) {v v' : GV} (hv : HasTy E.U t v) (hv' : HasTy E.U t v') (hs : SameVal v v')
    {h h' : Heap} {n n' : Node} {j j' : JVal} (ht : Tree h n j) (ht' : Tree h' n' j') (hj : Shuffled j j') {f f' : Nat} (hf : j.size ≤ f) (hf' : j'.size ≤ f') :
    (∃ y y', runUnmarshaler E h f b t v n = some (.done y none) ∧ runUnmarshaler E h' f' b t v' n' = some (.done y' none) ∧ SameVal y y') ∨
    (∀ y, runUnmarshaler E h f b t v n ≠ some (.done y none)) ∧ ∀ y', runUnmarshaler E h' f' b t v' n' ≠ some (.done y' none) := by
  by_cases hr : ∃ y, runUnmarshaler E h f b t v n = some (.done y none)
  · obtain ⟨y, hr⟩ := hr
    obtain ⟨y', h1, h2⟩ := method_shuffled hE hH hB hF hb hc hv hv' hs ht ht' hj hf hf' hr
    exact .inl ⟨y, y', hr, h1, h2⟩
  · refine .inr ⟨fun y h => hr ⟨y, h⟩, fun y' h => hr ?_⟩
    obtain ⟨y, h1, _⟩ := method_shuffled hE hH hB hF hb hc hv' hv hs.symm ht' ht hj.symm hf' hf h
    exact ⟨y, h1⟩

/-- **C134**, from texts. -/
theorem C134_text {E : Env} (hE : E.Ok) (hH : UHooks E) (hB : OrderBlindIn E) {o : GenOptions} (hF : FieldsApart E o) {gf : Nat} {t : Ty} {b : UBlock}
    (hb : typeUnmarshaler E o gf t = .ok b) (hc : unmarshalerCompiles E b t = true) {v v' : GV} (hv : HasTy E.U t v) (hv' : HasTy E.U t v') (hs : SameVal v v')
    {d1 d2 : Doc} (hd1 : d1.Wf) (hd2 : d2.Wf) {s1 s2 : Bytes} {d1' d2' : Doc} {id1 id2 : Nat} {j1 j2 : JVal} {tail1 tail2 : Bytes}
    (hp1 : Parses d1 s1 d1' id1 j1 tail1) (hp2 : Parses d2 s2 d2' id2 j2 tail2) (hj : Shuffled j1 j2) {f1 f2 : Nat} (hf1 : j1.size ≤ f1) (hf2 : j2.size ≤ f2) :
    (∃ y y', parseInto E f1 d1 b t v s1 = some (.done y none) ∧ parseInto E f2 d2 b t v' s2 = some (.done y' none) ∧ SameVal y y') ∨
    (∀ y, parseInto E f1 d1 b t v s1 ≠ some (.done y none)) ∧ ∀ y', parseInto E f2 d2 b t v' s2 ≠ some (.done y' none) := by
  rcases heap_parse hd1 s1 with ⟨d', id, j, tail, h, n, hp, hq, ht⟩ | ⟨hp, _⟩
  · rcases heap_parse hd2 s2 with ⟨d2', id2, j', tail2, h', n', hp', hq', ht'⟩ | ⟨hp', _⟩
    · obtain ⟨rfl, _⟩ := parses_unique hd1 hp hp1
      obtain ⟨rfl, _⟩ := parses_unique hd2 hp' hp2
      unfold parseInto
      rw [hq, hq']
      exact C134_method hE hH hB hF hb hc hv hv' hs ht ht' hj hf1 hf2
    · exact absurd ⟨_, _, _, _, hp2⟩ hp'
  · exact absurd ⟨_, _, _, _, hp1⟩ hp

/-! ### Examples -/

theorem genE_orderBlindIn : OrderBlindIn genE where
  json := by intro t v v' j j' _ _ _ _ h; cases h
  text := by intro t v v' s _ _ _ h; cases h

/-- A case: a struct with a map, whose entries come in the order of the members, and a pointer to a struct. -/
example : genE.Ok ∧ UHooks genE ∧ OrderBlindIn genE ∧ FieldsApart genE {} ∧
    Shuffled (.obj [(b!"p", .obj [(b!"X", .bool true)]), (b!"m", .obj [(b!"k", .bool true), (b!"l", .bool false)])])
      (.obj [(b!"m", .obj [(b!"l", .bool false), (b!"k", .bool true)]), (b!"p", .obj [(b!"X", .bool true)])]) ∧
    (∃ b, typeUnmarshaler genE {} 10 (.struct 19) = .ok b ∧ unmarshalerCompiles genE b (.struct 19) = true ∧
      parseInto genE 100 Doc.empty b (.struct 19) (.struct [.nilMap, .nilPtr, .str b!"old"]) b!"{\"p\":{\"X\":true},\"m\":{\"k\":true,\"l\":false}}" =
        some (.done (.struct [.map [(.str b!"k", .bool true), (.str b!"l", .bool false)], .ptr (.struct [.bool true]), .str b!"old"]) none)) ∧
    ∃ b, typeUnmarshaler genE {} 10 (.struct 19) = .ok b ∧ unmarshalerCompiles genE b (.struct 19) = true ∧
      parseInto genE 100 Doc.empty b (.struct 19) (.struct [.nilMap, .nilPtr, .str b!"old"]) b!"{\"m\":{\"l\":false,\"k\":true},\"p\":{\"X\":true}}" =
        some (.done (.struct [.map [(.str b!"l", .bool false), (.str b!"k", .bool true)], .ptr (.struct [.bool true]), .str b!"old"]) none) := by
  refine ⟨genE_ok, genE_uhooks, genE_orderBlindIn, genE_apart, ?_, intoText (by decide +kernel), intoText (by decide +kernel)⟩
  refine .obj (.insert (ns := [(b!"m", .obj [(b!"l", .bool false), (b!"k", .bool true)])]) (ns' := []) .same (by decide) ?_)
  exact .insert (ns := []) (ns' := []) (C120_perm (List.Perm.swap _ _ _) (by decide)) (by decide) .nil

/-- Calls that fail may leave different values: what comes before the error is stored. -/
theorem C134_errors :
    (∃ b, typeUnmarshaler genE {} 10 (.struct 21) = .ok b ∧ unmarshalerCompiles genE b (.struct 21) = true ∧
      parseInto genE 100 Doc.empty b (.struct 21) (.struct [.int 0, .struct [.bool false]]) b!"{\"a\":1,\"v\":null}" =
        some (.done (.struct [.int 1, .struct [.bool false]]) (some (.typeError tNull tObject)))) ∧
    ∃ b, typeUnmarshaler genE {} 10 (.struct 21) = .ok b ∧ unmarshalerCompiles genE b (.struct 21) = true ∧
      parseInto genE 100 Doc.empty b (.struct 21) (.struct [.int 0, .struct [.bool false]]) b!"{\"v\":null,\"a\":1}" =
        some (.done (.struct [.int 0, .struct [.bool false]]) (some (.typeError tNull tObject))) :=
  ⟨intoText (by decide +kernel), intoText (by decide +kernel)⟩

/-- The package of the examples, with a field of a struct as a field of its own. -/
def genOver : Env := { genE with fields := fun j => if j = 21 then genGroups 21 ++ [[⟨b!"X", true, .bool, [1, 0], []⟩]] else genGroups j }

/-- Without `FieldsApart` the order matters: the member for the struct and the one for its field are stored in the order in which they come. -/
theorem C134_apart : ¬ FieldsApart genOver {} ∧
    (∃ b, typeUnmarshaler genOver {} 10 (.struct 21) = .ok b ∧ unmarshalerCompiles genOver b (.struct 21) = true ∧
      parseInto genOver 100 Doc.empty b (.struct 21) (.struct [.int 0, .struct [.bool false]]) b!"{\"v\":{\"X\":true},\"X\":false}" =
        some (.done (.struct [.int 0, .struct [.bool false]]) none)) ∧
    ∃ b, typeUnmarshaler genOver {} 10 (.struct 21) = .ok b ∧ unmarshalerCompiles genOver b (.struct 21) = true ∧
      parseInto genOver 100 Doc.empty b (.struct 21) (.struct [.int 0, .struct [.bool false]]) b!"{\"X\":false,\"v\":{\"X\":true}}" =
        some (.done (.struct [.int 0, .struct [.bool true]]) none) := by
  refine ⟨fun h => ?_, intoText (by decide +kernel), intoText (by decide +kernel)⟩
  have hm : (unmarshalPicks genOver {} 21).map (fun p => (p.name, p.field.path)) = [(b!"a", [0]), (b!"v", [1]), (b!"X", [1, 0])] := by
    rw [unmarshalPicks_all]
    · decide +kernel
    · intro f hf
      have hf : f ∈ [gfld b!"A" (.int .b8) 0 b!"a", gfld b!"V" (.struct 1) 1 b!"v", ⟨b!"X", true, .bool, [1, 0], []⟩] := hf
      simp only [List.mem_cons, List.not_mem_nil, or_false] at hf
      rcases hf with rfl | rfl | rfl
      · exact .int (k := .b8) rfl
      · exact .struct (j := 1) rfl (by simp [genOver, genE, genU, genFields])
      · exact .bool rfl
  have key : ∀ {q : Bytes × List Nat}, q ∈ [(b!"a", [0]), (b!"v", [1]), (b!"X", [1, 0])] → ∃ p ∈ unmarshalPicks genOver {} 21, (p.name, p.field.path) = q := by
    intro q hq
    rw [← hm] at hq
    exact List.mem_map.1 hq
  obtain ⟨p, p1, p2⟩ := key (q := (b!"v", [1])) (by simp)
  obtain ⟨q, q1, q2⟩ := key (q := (b!"X", [1, 0])) (by simp)
  rw [Prod.mk.injEq] at p2 q2
  have := h 21 p p1 q q1 (by rw [p2.1, q2.1]; decide)
  rw [p2.2, q2.2] at this
  revert this
  unfold Apart
  decide

end Verif.Props
