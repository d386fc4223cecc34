import Verif.Proofs.UnMapOrder
import Verif.Proofs.UnEncOne
import Verif.Props.UnMeth
import Verif.Props.UnMarshal
import Verif.Props.UnOrder
import Verif.Props.UnRound

/-! # The order in which maps are iterated over (C130) -/

namespace Verif.Props
open Verif Verif.Float Verif.Spec Verif.Njson Verif.Unjson

/-- The call did not succeed: it returned an error, or it panicked. -/
def Failed (r : Out Bytes) : Prop := r = .panic ∨ ∃ b e, r = .done b (some e)

/-- **C130**: two calls for the same value, with any two orders of iteration over each map: both succeed with texts that differ in the order of members
only, or both fail. -/
theorem C130_text {U : Univ} (hU : U.Program) (hB : U.OrderBlind) {t : Ty} {v v' : GV} (hv : HasTy U t v) (hv' : HasTy U t v') (hg : GoMaps v)
    (hg' : GoMaps v') (hs : SameVal v v') {f f' : Nat} {out out' : Bytes} {r r' : Out Bytes} (h : Unjson.appendJSON U f out (some (t, v)) = some r)
    (h' : Unjson.appendJSON U f' out' (some (t, v')) = some r') :
    (∃ s s', r = .done (out ++ s) none ∧ r' = .done (out' ++ s') none ∧ TextSame s s') ∨ (Failed r ∧ Failed r') := by
  obtain ⟨w, h1, h2⟩ := C87_exact hU hv f out r h
  obtain ⟨w', h1', h2'⟩ := C87_exact hU hv' f' out' r' h'
  have fail : ∀ {out : Bytes} {e : Fail} {r : Out Bytes}, Agrees out (.error e) r → Failed r := by
    intro out e r h
    cases e with
    | err e => obtain ⟨b, h⟩ := h; exact .inr ⟨b, e, h⟩
    | panic => exact .inl h
  cases w with
  | ok s =>
    obtain ⟨s', hw, hss⟩ := wArg_same hB h1 hs hg hg'
    cases C87_one hw h1'
    exact .inl ⟨s, s', h2, h2', hss⟩
  | error e =>
    cases w' with
    | ok s' =>
      obtain ⟨s, hw, _⟩ := wArg_same hB h1' hs.symm hg' hg
      cases C87_one hw h1
    | error e' => exact .inr ⟨fail h2, fail h2'⟩

/-- **C130**: the same for an encoder that was made with other options. -/
theorem C130_encoder {U : Univ} (hU : U.Program) (hB : U.OrderBlind) {o o' : Options} (ho : InForce o o') {t : Ty} {v v' : GV} (hv : HasTy U t v)
    (hv' : HasTy U t v') (hg : GoMaps v) (hg' : GoMaps v') (hs : SameVal v v') {fuel : Nat} {m : TypeEncoder} (hm : newTypeEncoder U o fuel t = .ok m)
    {f f' : Nat} {out out' : Bytes} {r r' : Out Bytes} (h : m.encodeArg U f out (some (t, v)) = some r) (h' : m.encodeArg U f' out' (some (t, v')) = some r') :
    (∃ s s', r = .done (out ++ s) none ∧ r' = .done (out' ++ s') none ∧ TextSame s s') ∨ (Failed r ∧ Failed r') := by
  obtain ⟨w, h1, h2⟩ := C87_encoder hU ho hv fuel m hm f out r h
  obtain ⟨w', h1', h2'⟩ := C87_encoder hU ho hv' fuel m hm f' out' r' h'
  have fail : ∀ {out : Bytes} {e : Fail} {r : Out Bytes}, Agrees out (.error e) r → Failed r := by
    intro out e r h
    cases e with
    | err e => obtain ⟨b, h⟩ := h; exact .inr ⟨b, e, h⟩
    | panic => exact .inl h
  cases w with
  | ok s =>
    obtain ⟨s', hw, hss⟩ := wArg_same hB h1 hs hg hg'
    cases C87_one hw h1'
    exact .inl ⟨s, s', h2, h2', hss⟩
  | error e =>
    cases w' with
    | ok s' =>
      obtain ⟨s, hw, _⟩ := wArg_same hB h1' hs.symm hg' hg
      cases C87_one hw h1
    | error e' => exact .inr ⟨fail h2, fail h2'⟩

/-- **C130**: for types without methods, the two texts are the texts of trees that differ in the order of members only. -/
theorem C130_tree {U : Univ} (hU : U.Program) (hB : U.OrderBlind) (hO : U.NoOmitMethod) {t : Ty} {v v' : GV} (hv : HasTy U t v) (hv' : HasTy U t v')
    (ha : MarshalArg U t v) (ha' : MarshalArg U t v') (hg : GoMaps v) (hg' : GoMaps v') (hs : SameVal v v') {f f' : Nat} {out out' : Bytes} {r r' : Out Bytes}
    (h : Unjson.appendJSON U f out (some (t, v)) = some r) (h' : Unjson.appendJSON U f' out' (some (t, v')) = some r') :
    (∃ j j', r = .done (out ++ j.ser) none ∧ r' = .done (out' ++ j'.ser) none ∧ MarshalsAs U t v j ∧ MarshalsAs U t v' j' ∧ Reordered j j') ∨
    (∃ b e b' e', r = .done b (some e) ∧ r' = .done b' (some e')) := by
  have hn : ∀ {v : GV} {f : Nat} {out : Bytes} {r : Out Bytes}, MarshalArg U t v → Unjson.appendJSON U f out (some (t, v)) = some r → Failed r →
      ∃ b e, r = .done b (some e) := by
    intro v f out r ha h hf
    rcases hf with rfl | hf
    · rcases C47_encodes hU.embeds hO hU.floats ha f out _ h with ⟨j, h, _⟩ | ⟨b, e, h⟩ <;> cases h
    · exact hf
  rcases C130_text hU hB hv hv' hg hg' hs h h' with ⟨s, s', rfl, rfl, _⟩ | ⟨h1, h2⟩
  · obtain ⟨j, h1, h2⟩ : ∃ j, Out.done (out ++ s) none = Out.done (out ++ j.ser) none ∧ MarshalsAs U t v j := by
      rcases C47_encodes hU.embeds hO hU.floats ha f out _ h with h | ⟨b, e, h⟩
      · exact h
      · cases h
    obtain ⟨k, h1', h2'⟩ : ∃ j, Out.done (out' ++ s') none = Out.done (out' ++ j.ser) none ∧ MarshalsAs U t v' j := by
      rcases C47_encodes hU.embeds hO hU.floats ha' f' out' _ h' with h | ⟨b, e, h⟩
      · exact h
      · cases h
    refine .inl ⟨j, k, h1, h1', h2, h2', ?_⟩
    have he := marshalsAs_encodes h2
    have he' := marshalsAs_encodes h2'
    obtain ⟨k', hk, hr⟩ := encodes_same he v' hs hg hg'
    rw [encodes_one he' hk]
    exact hr
  · obtain ⟨b, e, h1⟩ := hn ha h h1
    obtain ⟨b', e', h2⟩ := hn ha' h' h2
    exact .inr ⟨b, e, b', e', h1, h2⟩

/-- **C130**: where no name is twice in an object, the trees differ only in what does not matter to `Unmarshal` (C120). -/
theorem C130_names {j j' : JVal} (h : Reordered j j') (hn : NamesOnce j) : Shuffled j j' := reordered_shuffled h hn

/-! ### The example -/

theorem exU_program : exU.Program where
  ok := exU_ok
  embeds := exU_embeds
  ifaces := fun _ _ _ _ _ => rfl
  floats := exU_floats
  appends := fun _ _ _ => ⟨rfl, rfl, fun h => by cases h⟩
  paired := by
    intro h t s hu
    refine absurd ?_ hu
    simp [unmarshalMeth, exU]

theorem exU_blind : exU.OrderBlind where
  text := by
    intro m t v v' s hs h
    refine ⟨s, ?_, .same⟩
    cases m <;> exact h
  omits := by intro name t m v v' h; cases h
  omitPanics := fun _ _ _ _ _ => rfl

/-- The entries `x: true, y: false`, in this order or in the other one -/
def exInner (b : Bool) : List (GV × GV) :=
  if b then [(.str b!"x", .bool true), (.str b!"y", .bool false)] else [(.str b!"y", .bool false), (.str b!"x", .bool true)]

/-- `map[string]interface{}{"a": 1, "b": map[string]bool{"x": true, "y": false}}` -/
def exOuter (b : Bool) : List (GV × GV) :=
  let e1 := (GV.str b!"a", GV.iface (.int .b64) (.int 1))
  let e2 := (GV.str b!"b", GV.iface (.map .string .bool) (.map (exInner b)))
  if b then [e1, e2] else [e2, e1]

theorem exMap_go (b : Bool) : GoMaps (.map (exOuter b)) := by
  have h : GoMaps (.map (exInner b)) := by
    refine .map (by cases b <;> simp [exInner]) ?_
    intro p hp
    cases b <;> simp [exInner] at hp <;> rcases hp with rfl | rfl <;> exact .bool
  refine .map (by cases b <;> simp [exInner, exOuter]) ?_
  intro p hp
  cases b <;> simp [exOuter] at hp <;> rcases hp with rfl | rfl <;> first | exact .iface .int | exact .iface h

theorem exMap_same : SameVal (.map (exOuter true)) (.map (exOuter false)) := by
  have key : ∀ {es fs : List (GV × GV)}, (es.map Prod.fst).Nodup → (fs.map Prod.fst).Nodup → (∀ p ∈ es, ∃ q ∈ fs, p.1 = q.1 ∧ SameVal p.2 q.2) →
      (∀ q ∈ fs, ∃ p ∈ es, p.1 = q.1) → SameVal (.map es) (.map fs) := by
    intro es fs hn hm h1 h2
    refine .map (fun k => ⟨?_, ?_⟩) ?_
    · rintro ⟨x, hx⟩
      obtain ⟨q, hq, hk, _⟩ := h1 _ (entryAt_mem hx)
      exact ⟨q.2, mem_entryAt hm (by rw [show k = q.1 from hk]; exact hq)⟩
    · rintro ⟨x, hx⟩
      obtain ⟨p, hp, hk⟩ := h2 _ (entryAt_mem hx)
      exact ⟨p.2, mem_entryAt hn (by rw [show k = p.1 from hk.symm]; exact hp)⟩
    · intro k x y hx hy
      obtain ⟨q, hq, hk, hs⟩ := h1 _ (entryAt_mem hx)
      have : EntryAt fs k q.2 := mem_entryAt hm (by rw [show k = q.1 from hk]; exact hq)
      rw [hy.unique this]; exact hs
  have hi : SameVal (.map (exInner true)) (.map (exInner false)) := by
    refine key (by simp [exInner]) (by simp [exInner]) ?_ (by simp [exInner])
    intro p hp
    simp [exInner] at hp
    rcases hp with rfl | rfl
    · exact ⟨(.str b!"x", .bool true), by simp [exInner], rfl, .refl⟩
    · exact ⟨(.str b!"y", .bool false), by simp [exInner], rfl, .refl⟩
  refine key (by simp [exInner, exOuter]) (by simp [exInner, exOuter]) ?_ (by simp [exInner, exOuter])
  intro p hp
  simp [exOuter] at hp
  rcases hp with rfl | rfl
  · exact ⟨(.str b!"a", .iface (.int .b64) (.int 1)), by simp [exInner, exOuter], rfl, .refl⟩
  · exact ⟨(.str b!"b", .iface (.map .string .bool) (.map (exInner false))), by simp [exInner, exOuter], rfl, .iface hi⟩

theorem exMap_ty (b : Bool) : HasTy exU (.map .string .any) (.map (exOuter b)) := by
  have h : HasTy exU (.map .string .bool) (.map (exInner b)) := by
    refine .map rfl ?_ ?_ <;> intro p hp <;> cases b <;> simp [exInner] at hp <;> rcases hp with rfl | rfl <;> first | exact .str rfl | exact .bool rfl
  refine .map rfl ?_ ?_ <;> intro p hp <;> cases b <;> simp [exOuter] at hp <;> rcases hp with rfl | rfl <;>
    first | exact .str rfl | exact .iface rfl h | exact .iface rfl (.int rfl (by decide) (by decide))

theorem exMap_arg (b : Bool) : MarshalArg exU (.map .string .any) (.map (exOuter b)) := by
  have h : Plain exU (.map .string .bool) (.map (exInner b)) := by
    refine .map (by unfold NoMarshal; decide) rfl rfl (by decide) ?_ ?_ <;> intro p hp <;> cases b <;> simp [exInner] at hp <;> rcases hp with rfl | rfl <;>
      first | exact ⟨_, rfl⟩ | exact .bool (by unfold NoMarshal; decide) rfl
  refine .inl ⟨(by intro e h; cases h), (by unfold NoMarshal; decide), .map (by unfold NoMarshal; decide) rfl rfl (by decide) ?_ ?_⟩ <;> intro p hp <;> cases b <;>
    simp [exOuter] at hp <;> rcases hp with rfl | rfl <;>
    first
      | exact ⟨_, rfl⟩
      | exact .iface (by unfold NoMarshal; decide) rfl (by intro e h; cases h) (by unfold NoMarshal; decide) h
      | exact .iface (by unfold NoMarshal; decide) rfl (by intro e h; cases h) (by unfold NoMarshal; decide) (.int (by unfold NoMarshal; decide) rfl)

/-- Two orders of two maps, one inside the other. -/
example : (∀ b, HasTy exU (.map .string .any) (.map (exOuter b)) ∧ MarshalArg exU (.map .string .any) (.map (exOuter b))) ∧
    exU.Program ∧ exU.OrderBlind ∧ exU.NoOmitMethod ∧ GoMaps (.map (exOuter true)) ∧ GoMaps (.map (exOuter false)) ∧
    SameVal (.map (exOuter true)) (.map (exOuter false)) ∧
    marshal exU 30 (some (.map .string .any, .map (exOuter true))) = some (.done b!"{\"a\":1,\"b\":{\"x\":true,\"y\":false}}" none) ∧
    marshal exU 30 (some (.map .string .any, .map (exOuter false))) = some (.done b!"{\"b\":{\"y\":false,\"x\":true},\"a\":1}" none) :=
  ⟨fun b => ⟨exMap_ty b, exMap_arg b⟩, exU_program, exU_blind, exU_omit, exMap_go _, exMap_go _, exMap_same, eq_of_sameB (by decide +kernel), eq_of_sameB (by decide +kernel)⟩

/-- **C130**: which error is returned, and whether there is an error or a panic, is a matter of the order: `map[string]interface{}` with a NaN and a channel, or a
NaN and a nil pointer. -/
theorem C130_errors :
    marshal exU 30 (some (.map .string .any, .map [(.str b!"a", .iface (.float .b64) (.float .nan)), (.str b!"b", .iface .other .opaque)])) =
      some (.done b!"{\"a\":" (some .value)) ∧
    marshal exU 30 (some (.map .string .any, .map [(.str b!"b", .iface .other .opaque), (.str b!"a", .iface (.float .b64) (.float .nan))])) =
      some (.done [] (some .invalidType)) ∧
    marshal exU 30 (some (.map .string .any, .map [(.str b!"b", .iface (.ptr .bool) .nilPtr), (.str b!"a", .iface (.float .b64) (.float .nan))])) = some .panic ∧
    marshal exU 30 (some (.map .string .any, .map [(.str b!"a", .iface (.float .b64) (.float .nan)), (.str b!"b", .iface (.ptr .bool) .nilPtr)])) =
      some (.done b!"{\"a\":" (some .value)) :=
  ⟨eq_of_sameB (by decide +kernel), eq_of_sameB (by decide +kernel), eq_of_isPanic (by decide +kernel), eq_of_sameB (by decide +kernel)⟩

/-- **C130**: two keys that are not valid UTF-8 may be written as the same name. Then the order decides which of the two values `Unmarshal` finds; so the
condition of `C130_names` is needed. -/
theorem C130_collide :
    marshal exU 30 (some (.map .string .bool, .map [(.str [255], .bool true), (.str [254], .bool false)])) =
      some (.done b!"{\"\\ufffd\":true,\"\\ufffd\":false}" none) ∧
    marshal exU 30 (some (.map .string .bool, .map [(.str [254], .bool false), (.str [255], .bool true)])) =
      some (.done b!"{\"\\ufffd\":false,\"\\ufffd\":true}" none) :=
  ⟨eq_of_sameB (by decide +kernel), eq_of_sameB (by decide +kernel)⟩

end Verif.Props
