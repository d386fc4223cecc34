import Verif.Proofs.GenUAgain
import Verif.Props.GenDec

/-! # Generated UnmarshalNodeJSON of the same JSON into the same variable, again (C133) -/

namespace Verif.Props
open Verif Verif.Float Verif.Spec Verif.Njson Verif.Unjson Verif.Gen

/-- **C133**: the second of two calls of a generated `UnmarshalNodeJSON` for the same variable, with nodes of the same tree, returns what the first one returned, an error or
none, and leaves the variable as it is, if no object of the tree has a name twice and there was no slice with elements in the variable. -/
theorem C133_method_partial {E : Env} (hE : E.Ok) (hH : UHooks E) (hA : UMethodsAgain E) {o : GenOptions} (hF : FieldsApart E o) {gf : Nat} {t : Ty} {b : UBlock}
    (hb : typeUnmarshaler E o gf t = .ok b) (hc : unmarshalerCompiles E b t = true) {v : GV} (hv : HasTy E.U t v) (hs : ¬ Filled v)
    {h1 h2 : Heap} {n1 n2 : Node} {j : JVal} (ht1 : Tree h1 n1 j) (ht2 : Tree h2 n2 j) (hn : NamesOnce j) {f1 f2 : Nat} (hf1 : j.size ≤ f1) (hf2 : j.size ≤ f2)
    {y : GV} {err : Option UErr} (hr : runUnmarshaler E h1 f1 b t v n1 = some (.done y err)) : runUnmarshaler E h2 f2 b t y n2 = some (.done y err) := by
  by_cases hj : j = .null
  · rw [(C79_stores_partial hE hH hb hc ht1 hv hf1).1 hj] at hr
    cases hr
    exact (C79_stores_partial hE hH hb hc ht2 hv hf2).1 hj
  · rcases C79_returned hE hH hb hc ht1 hv hf1 hj with ⟨z, err', k1, k2, k3, _⟩ | ⟨k1, _⟩
    · rw [k1] at hr; cases hr
      have ha := gdec_again hE hH hA hF k2 true ((unmarshalerCompiles_iff hE hb).1 hc).2.1 hv hs hn
      rcases C79_returned hE hH hb hc ht2 k3 hf2 hj with ⟨z, err', l1, l2, _⟩ | ⟨_, _, l2⟩
      · obtain ⟨rfl, rfl⟩ := C79_one ha l2
        exact l1
      · exact absurd ha (l2 _ _)
    · rw [k1] at hr; cases hr

/-- **C133**, from a text. -/
theorem C133_text_partial {E : Env} (hE : E.Ok) (hH : UHooks E) (hA : UMethodsAgain E) {o : GenOptions} (hF : FieldsApart E o) {gf : Nat} {t : Ty} {b : UBlock}
    (hb : typeUnmarshaler E o gf t = .ok b) (hc : unmarshalerCompiles E b t = true) {v : GV} (hv : HasTy E.U t v) (hs : ¬ Filled v)
    {d1 d2 : Doc} (hd1 : d1.Wf) (hd2 : d2.Wf) {s : Bytes} {f1 f2 : Nat}
    (hn : ∀ d' id j tail, Parses d1 s d' id j tail → NamesOnce j ∧ j.size ≤ f1 ∧ j.size ≤ f2) {y : GV} {err : Option UErr}
    (hr : parseInto E f1 d1 b t v s = some (.done y err)) : parseInto E f2 d2 b t y s = some (.done y err) := by
  rcases heap_parse hd1 s with ⟨d', id, j, tail, h, n, hp, hq, ht⟩ | ⟨hp, h, n, out, hq, h1, h2⟩
  · rcases heap_parse hd2 s with ⟨d2', id2, j2, tail2, h', n', hp', hq', ht'⟩ | ⟨hp', _⟩
    · obtain ⟨p, e1⟩ := (parses_iff hd1).1 ⟨d', id, hp⟩
      obtain ⟨p2, e2⟩ := (parses_iff hd2).1 ⟨d2', id2, hp'⟩
      rw [e1] at e2; cases e2
      unfold parseInto at hr ⊢
      rw [hq] at hr; rw [hq']
      obtain ⟨g1, g2, g3⟩ := hn _ _ _ _ hp
      exact C133_method_partial hE hH hA hF hb hc hv hs ht ht' g1 g2 g3 hr
    · refine absurd ?_ hp'
      obtain ⟨d'', id', h⟩ := (parses_iff hd2).2 ((parses_iff hd1).1 ⟨d', id, hp⟩)
      exact ⟨_, _, _, _, h⟩
  · have hp2 : ¬ ∃ d' id j tail, Parses d2 s d' id j tail := by
      rintro ⟨d', id, j, tail, h⟩
      obtain ⟨d'', id', h⟩ := (parses_iff hd1).2 ((parses_iff hd2).1 ⟨d', id, h⟩)
      exact hp ⟨_, _, _, _, h⟩
    rcases C79_text hE hH hb hc hd1 hv s with ⟨_, k⟩ | ⟨_, _, _, _, k, _⟩
    · rw [k] at hr; cases hr
      rcases C79_text hE hH hb hc hd2 hv s with ⟨_, k⟩ | ⟨_, _, _, _, k, _⟩
      · exact k f2
      · exact absurd ⟨_, _, _, _, k⟩ hp2
    · exact absurd ⟨_, _, _, _, k⟩ hp

/-! ### Examples -/

theorem genE_apart : FieldsApart genE {} := by
  have hall : ∀ i, ((genE.fields i).flatten).Pairwise fun f g => Apart f.path g.path := by
    intro i
    unfold genE genGroups Apart
    dsimp only
    split <;> decide
  intro i p hp q hq hne
  obtain ⟨p1, p2, _⟩ := mem_unmarshalPicks hp
  obtain ⟨q1, q2, _⟩ := mem_unmarshalPicks hq
  have hsym : Std.Symm fun f g : GField => Apart f.path g.path := ⟨fun _ _ h => Apart.symm h⟩
  refine (hall i).forall p1 q1 (fun h => hne ?_)
  rw [h, q2, Option.some.injEq, Prod.mk.injEq] at p2
  exact p2.1.symm

theorem genE_uagain : UMethodsAgain genE := by
  intro m t v s y b h1 h2
  cases h2
  exact ⟨rfl, rfl⟩

/-- The hypotheses are met, with a variable that is not a zero value, and the text is read twice. -/
example : genE.Ok ∧ UHooks genE ∧ UMethodsAgain genE ∧ FieldsApart genE {} ∧ HasTy genE.U (.struct 19) (.struct [.nilMap, .nilPtr, .str b!"old"]) ∧
    ¬ Filled (.struct [.nilMap, .nilPtr, .str b!"old"]) ∧ NamesOnce (.obj [(b!"p", .obj [(b!"X", .bool true)]), (b!"m", .obj [(b!"k", .bool true)])]) ∧
    (∃ b, typeUnmarshaler genE {} 10 (.struct 19) = .ok b ∧ unmarshalerCompiles genE b (.struct 19) = true ∧
      parseInto genE 100 Doc.empty b (.struct 19) (.struct [.nilMap, .nilPtr, .str b!"old"]) b!"{\"p\":{\"X\":true},\"m\":{\"k\":true}}" =
        some (.done (.struct [.map [(.str b!"k", .bool true)], .ptr (.struct [.bool true]), .str b!"old"]) none)) ∧
    ∃ b, typeUnmarshaler genE {} 10 (.struct 19) = .ok b ∧ unmarshalerCompiles genE b (.struct 19) = true ∧
      parseInto genE 100 Doc.empty b (.struct 19) (.struct [.map [(.str b!"k", .bool true)], .ptr (.struct [.bool true]), .str b!"old"])
          b!"{\"p\":{\"X\":true},\"m\":{\"k\":true}}" =
        some (.done (.struct [.map [(.str b!"k", .bool true)], .ptr (.struct [.bool true]), .str b!"old"]) none) := by
  refine ⟨genE_ok, genE_uhooks, genE_uagain, genE_apart, ?_, ?_, ?_, intoText (by decide +kernel), intoText (by decide +kernel)⟩
  · refine .struct rfl rfl ?_
    intro i f v hf hv
    match i with
    | 0 => cases hf; cases hv; exact .nilMap rfl
    | 1 => cases hf; cases hv; exact .nilPtr rfl
    | 2 => cases hf; cases hv; exact .str rfl
    | i + 3 => cases hf
  · intro h
    cases h with
    | struct hx h => simp at hx; rcases hx with rfl | rfl | rfl <;> cases h
  · refine .obj (by decide) ?_
    intro m hm
    simp at hm
    rcases hm with rfl | rfl <;> exact .obj (by decide) (by intro m hm; simp at hm; subst hm; exact .bool)

/-- A slice is read twice as well: it was empty the first time. -/
example : ¬ Filled (genE.U.zero (.struct 17)) ∧
    (∃ b, typeUnmarshaler genE {} 10 (.struct 17) = .ok b ∧ unmarshalerCompiles genE b (.struct 17) = true ∧
      parseInto genE 100 Doc.empty b (.struct 17) (genE.U.zero (.struct 17)) b!"{\"l\":[2,3]}" = some (.done (.struct [.slice [.int 2, .int 3] 2]) none)) ∧
    ∃ b, typeUnmarshaler genE {} 10 (.struct 17) = .ok b ∧ unmarshalerCompiles genE b (.struct 17) = true ∧
      parseInto genE 100 Doc.empty b (.struct 17) (.struct [.slice [.int 2, .int 3] 2]) b!"{\"l\":[2,3]}" = some (.done (.struct [.slice [.int 2, .int 3] 2]) none) :=
  ⟨not_filled_zero genE_ok.univ _, intoText (by decide +kernel), intoText (by decide +kernel)⟩

/-- The full claim is false: a slice with elements that has to be made longer becomes too long the first time, but not the second time. -/
theorem C133_false :
    (∃ b, typeUnmarshaler genE {} 10 (.struct 17) = .ok b ∧ unmarshalerCompiles genE b (.struct 17) = true ∧
      parseInto genE 100 Doc.empty b (.struct 17) (.struct [.slice [.int 1] 1]) b!"{\"l\":[2,3]}" = some (.done (.struct [.slice [.int 2, .int 3, .int 0] 3]) none)) ∧
    ∃ b, typeUnmarshaler genE {} 10 (.struct 17) = .ok b ∧ unmarshalerCompiles genE b (.struct 17) = true ∧
      parseInto genE 100 Doc.empty b (.struct 17) (.struct [.slice [.int 2, .int 3, .int 0] 3]) b!"{\"l\":[2,3]}" =
        some (.done (.struct [.slice [.int 2, .int 3, .int 0] 2]) none) :=
  ⟨intoText (by decide +kernel), intoText (by decide +kernel)⟩

/-- So does a name that is there twice, also for a variable without slices that have elements. -/
theorem C133_false_names :
    (∃ b, typeUnmarshaler genE {} 10 (.struct 17) = .ok b ∧ unmarshalerCompiles genE b (.struct 17) = true ∧
      parseInto genE 100 Doc.empty b (.struct 17) (genE.U.zero (.struct 17)) b!"{\"l\":[1],\"l\":[2,3]}" =
        some (.done (.struct [.slice [.int 2, .int 3, .int 0] 3]) none)) ∧
    ∃ b, typeUnmarshaler genE {} 10 (.struct 17) = .ok b ∧ unmarshalerCompiles genE b (.struct 17) = true ∧
      parseInto genE 100 Doc.empty b (.struct 17) (.struct [.slice [.int 2, .int 3, .int 0] 3]) b!"{\"l\":[1],\"l\":[2,3]}" =
        some (.done (.struct [.slice [.int 2, .int 3, .int 0] 2]) none) :=
  ⟨intoText (by decide +kernel), intoText (by decide +kernel)⟩

end Verif.Props
