import Verif.Proofs.GenMapOrder
import Verif.Props.GenAppend
import Verif.Props.UnMapOrder

/-! # The order in which maps are iterated over by generated AppendJSON methods (C131) -/

namespace Verif.Props
open Verif Verif.Float Verif.Spec Verif.Njson Verif.Unjson Verif.Gen

/-- **C131**: two calls of a generated AppendJSON method for the same value, with any two orders of iteration over each map: both succeed and append the texts of
trees that differ in the order of members only, or both fail. -/
theorem C131_text {E : Env} (hE : E.Ok) (hH : Hooks E.U) (hF : Floats64 E.U) (hB : MethodsBlind E.U) {o : GenOptions} {fuel : Nat} {j : Nat} {b : ABlock}
    (h : typeAppender E o fuel (.struct j) [] = .ok b) (hc : appenderCompiles E b (.struct j) = true) (hm : NoMarshal E.U (.struct j))
    {v v' : GV} (hv : HasTy E.U (.struct j) v) (hv' : HasTy E.U (.struct j) v') (hk : NumKeys E o (.struct j) v) (hg : GoMaps v) (hg' : GoMaps v')
    (hs : SameVal v v') (out out' : Bytes) :
    (∃ jv jv', runAppender E.U o b (.struct j) (.ptr v) out = some (.done (out ++ jv.ser) none) ∧
      runAppender E.U o b (.struct j) (.ptr v') out' = some (.done (out' ++ jv'.ser) none) ∧
      GEnc E o [] (.struct j) v jv ∧ GEnc E o [] (.struct j) v' jv' ∧ Reordered jv jv') ∨
    ∃ r r', runAppender E.U o b (.struct j) (.ptr v) out = some r ∧ runAppender E.U o b (.struct j) (.ptr v') out' = some r' ∧ Failed r ∧ Failed r' := by
  have hk' := numKeys_same hk hs hg hg'
  have fail : ∀ {v : GV}, HasTy E.U (.struct j) v → NumKeys E o (.struct j) v → ∀ out, (∃ jv, GEnc E o [] (.struct j) v jv ∧
      (¬ GFails E o (.struct j) v ∧ ¬ GPanics E o (.struct j) v) ∧ runAppender E.U o b (.struct j) (.ptr v) out = some (.done (out ++ jv.ser) none)) ∨
      ((GFails E o (.struct j) v ∨ GPanics E o (.struct j) v) ∧ ∃ r, runAppender E.U o b (.struct j) (.ptr v) out = some r ∧ Failed r) := by
    intro v hv hk out
    rcases C78_writes_partial hE hH hF h hc hm hv hk with ⟨jv, h1, h2, h3⟩ | ⟨h1, h2⟩ | ⟨h1, h2⟩
    · exact .inl ⟨jv, h1, h2, h3 out⟩
    · obtain ⟨b, hb⟩ := h2 out
      exact .inr ⟨.inl h1, _, hb, .inr ⟨_, _, rfl⟩⟩
    · exact .inr ⟨.inr h1, _, h2 out, .inl rfl⟩
  rcases fail hv hk out with ⟨jv, h1, h2, h3⟩ | ⟨h1, r, h2, h3⟩ <;> rcases fail hv' hk' out' with ⟨jv', h1', h2', h3'⟩ | ⟨h1', r', h2', h3'⟩
  · obtain ⟨k, hk1, hk2⟩ := genc_same hB h1 v' hs hg hg'
    refine .inl ⟨jv, k, h3, ?_, h1, hk1, hk2⟩
    rw [genc_one hk1 _ h1']
    exact h3'
  · rcases h1' with hx | hx
    · exact absurd (gstops_same hB hx hs.symm hg' hg) h2.1
    · exact absurd (gstops_same hB hx hs.symm hg' hg) h2.2
  · rcases h1 with hx | hx
    · exact absurd (gstops_same hB hx hs hg hg') h2'.1
    · exact absurd (gstops_same hB hx hs hg hg') h2'.2
  · exact .inr ⟨r, r', h2, h2', h3, h3'⟩

/-- **C131**: what can make the call fail, and what can make it panic, does not depend on the order. So where nothing panics, the two calls return the same. -/
theorem C131_causes {E : Env} (hB : MethodsBlind E.U) {o : GenOptions} {t : Ty} {v v' : GV} (hg : GoMaps v) (hg' : GoMaps v') (hs : SameVal v v') :
    (GFails E o t v ↔ GFails E o t v') ∧ (GPanics E o t v ↔ GPanics E o t v') :=
  ⟨⟨fun h => gstops_same hB h hs hg hg', fun h => gstops_same hB h hs.symm hg' hg⟩, ⟨fun h => gstops_same hB h hs hg hg', fun h => gstops_same hB h hs.symm hg' hg⟩⟩

/-- **C131**: methods that panic are the only reason for two calls to end differently: without them both return the error of a method. -/
theorem C131_errors {E : Env} (hE : E.Ok) (hH : Hooks E.U) (hF : Floats64 E.U) (hB : MethodsBlind E.U) {o : GenOptions} {fuel : Nat} {j : Nat} {b : ABlock}
    (h : typeAppender E o fuel (.struct j) [] = .ok b) (hc : appenderCompiles E b (.struct j) = true) (hm : NoMarshal E.U (.struct j))
    {v v' : GV} (hv : HasTy E.U (.struct j) v) (hv' : HasTy E.U (.struct j) v') (hk : NumKeys E o (.struct j) v) (hg : GoMaps v) (hg' : GoMaps v')
    (hs : SameVal v v') (hp : ¬ GPanics E o (.struct j) v) {out out' : Bytes} {w : Bytes} {e : UErr}
    (hr : runAppender E.U o b (.struct j) (.ptr v) out = some (.done w (some e))) :
    e = .hook ∧ ∃ w', runAppender E.U o b (.struct j) (.ptr v') out' = some (.done w' (some .hook)) := by
  have hk' := numKeys_same hk hs hg hg'
  rcases C78_writes_partial hE hH hF h hc hm hv hk with ⟨jv, h1, h2, h3⟩ | ⟨h1, h2⟩ | ⟨h1, h2⟩
  · rw [h3] at hr; cases hr
  · obtain ⟨w', hw⟩ := h2 out
    rw [hw] at hr; cases hr
    refine ⟨rfl, ?_⟩
    have hf := gstops_same hB h1 hs hg hg'
    rcases C78_writes_partial hE hH hF h hc hm hv' hk' with ⟨jv, h1, h2, h3⟩ | ⟨h1, h2⟩ | ⟨h1, h2⟩
    · exact absurd hf h2.1
    · exact h2 out'
    · exact absurd (gstops_same hB h1 hs.symm hg' hg) hp
  · exact absurd h1 hp

/-! ### The example -/

theorem genU_blind : MethodsBlind genU where
  append := by intro t v v' j _ hr h; exact ⟨j, hr, h, .same⟩
  json := by intro t v v' j _ _ h; cases h
  text := fun _ _ _ _ => rfl
  stops := by
    intro m t v v' s _ h
    cases s <;> cases m <;> exact h
  omits := by intro _ _ _ _ _ h; cases h
  omitPanics := fun _ _ _ _ _ => rfl

/-- `T18{M: map[int]bool{1: true, 2: false}}`, with the entries in this order or in the other one -/
def gmapV (b : Bool) : GV := .struct [.map (if b then [(.int 1, .bool true), (.int 2, .bool false)] else [(.int 2, .bool false), (.int 1, .bool true)])]

theorem gmapV_go (b : Bool) : GoMaps (gmapV b) := by
  refine .struct fun x hx => ?_
  simp only [List.mem_cons, List.not_mem_nil, or_false] at hx
  subst hx
  refine .map (by cases b <;> simp) ?_
  intro p hp
  cases b <;> simp at hp <;> rcases hp with rfl | rfl <;> exact .bool

theorem gmapV_same : SameVal (gmapV true) (gmapV false) := by
  refine .struct rfl fun i x y hx hy => ?_
  match i with
  | i + 1 => cases hx
  | 0 =>
    cases hx; cases hy
    have hn : ((if true = true then [(GV.int 1, GV.bool true), (.int 2, .bool false)] else [(.int 2, .bool false), (.int 1, .bool true)]).map Prod.fst).Nodup := by simp
    have hm : ((if false = true then [(GV.int 1, GV.bool true), (.int 2, .bool false)] else [(.int 2, .bool false), (.int 1, .bool true)]).map Prod.fst).Nodup := by simp
    refine .map (fun k => ⟨?_, ?_⟩) ?_
    · rintro ⟨x, hx⟩
      have := entryAt_mem hx
      exact ⟨x, mem_entryAt hm (by simpa [or_comm] using this)⟩
    · rintro ⟨x, hx⟩
      have := entryAt_mem hx
      exact ⟨x, mem_entryAt hn (by simpa [or_comm] using this)⟩
    · intro k x y hx hy
      have := entryAt_mem hx
      have h2 : EntryAt _ k x := mem_entryAt hm (by simpa [or_comm] using this)
      rw [hy.unique h2]
      exact .refl

theorem gmapV_ty (b : Bool) : HasTy genE.U (.struct 18) (gmapV b) := by
  refine .struct rfl rfl ?_
  intro i f v hf hv
  match i with
  | i + 1 => cases hf
  | 0 =>
    cases hf; cases hv
    refine .map rfl ?_ ?_ <;> intro p hp <;> cases b <;> simp at hp <;> rcases hp with rfl | rfl <;>
      first | exact .bool rfl | exact .int (k := .std) rfl (by decide) (by decide)

theorem gmapV_keys (b : Bool) : NumKeys genE {} (.struct 18) (gmapV b) := by
  refine .struct fun p hp x hx => ?_
  obtain ⟨h1, -⟩ := mem_appendPicks hp
  simp only [genE, genGroups, List.flatten, List.mem_cons, List.append_eq, List.cons_append, List.nil_append, List.not_mem_nil, or_false] at h1
  rw [h1] at hx ⊢
  cases hx
  refine .map rfl (.inl (noM (by simp))) ?_ ?_ <;> intro p hp <;> cases b <;> simp at hp <;> rcases hp with rfl | rfl <;>
    first | rfl | exact .leaf (by intros; nofun) (by intros; nofun) (by intros; nofun) (by intros; nofun)

/-- The hypotheses are met, and the texts do differ. -/
example : genE.Ok ∧ Hooks genE.U ∧ Floats64 genE.U ∧ MethodsBlind genE.U ∧ NoMarshal genE.U (.struct 18) ∧ SameVal (gmapV true) (gmapV false) ∧
    (∀ b, HasTy genE.U (.struct 18) (gmapV b) ∧ NumKeys genE {} (.struct 18) (gmapV b) ∧ GoMaps (gmapV b)) ∧
    (∃ b, typeAppender genE {} 10 (.struct 18) [] = .ok b ∧ appenderCompiles genE b (.struct 18) = true ∧
      runAppender genE.U {} b (.struct 18) (.ptr (gmapV true)) [] = some (.done b!"{\"m\":{\"1\":true,\"2\":false}}" none)) ∧
    ∃ b, typeAppender genE {} 10 (.struct 18) [] = .ok b ∧ appenderCompiles genE b (.struct 18) = true ∧
      runAppender genE.U {} b (.struct 18) (.ptr (gmapV false)) [] = some (.done b!"{\"m\":{\"2\":false,\"1\":true}}" none) :=
  ⟨genE_ok, genU_hooks, genU_floats, genU_blind, noM (by simp), gmapV_same, fun b => ⟨gmapV_ty b, gmapV_keys b, gmapV_go b⟩,
    appendText (by decide +kernel), appendText (by decide +kernel)⟩

end Verif.Props
