import Verif.Props.UnIgnore
import Verif.Proofs.GenDecPanic

/-! # Generated methods allocate the pointers they need (C126) -/

namespace Verif.Gen
open Verif Verif.Float Verif.Spec Verif.Njson Verif.Unjson

/-- A pointer type is taken care of otherwise only if it is said to be a time or a duration: pointers to pointers have no methods. -/
theorem ptr_not_unmarshals {E : Env} (hE : E.Ok) {t e : Ty} (hb : E.U.base t = .ptr e) (ht : E.isTime t = false) (hd : E.isDuration t = false) : ¬ Unmarshals E t := by
  rintro (h | h | h)
  · rw [ht] at h; cases h
  · rw [hd] at h; cases h
  · exact h ⟨hE.ptrPtr _ _ _ hb, hE.ptrPtr _ _ _ hb, hE.ptrPtr _ _ _ hb⟩

/-- What is stored in a pointer. -/
theorem gdec_ptr {E : Env} {o : GenOptions} {t e : Ty} (hm : ¬ Unmarshals E t) (hb : E.U.base t = .ptr e) {v : GV} {j : JVal} {y : GV} {err : Option UErr}
    (h : GDec E o t v j y err) :
    j = .null ∧ y = .nilPtr ∧ err = none ∨ j ≠ .null ∧ ∃ x z, y = .ptr z ∧ (v = .ptr x ∨ v = .nilPtr ∧ x = E.U.zero e) ∧ GDec E o e x j z err := by
  cases h with
  | ptrNull => exact .inl ⟨rfl, rfl, rfl⟩
  | ptr _ hb' hn h => rw [hb] at hb'; cases hb'; exact .inr ⟨hn, _, _, rfl, .inl rfl, h⟩
  | ptrNew _ hb' hn h => rw [hb] at hb'; cases hb'; exact .inr ⟨hn, _, _, rfl, .inr ⟨rfl, rfl⟩, h⟩
  | time h => exact absurd (.inl h) hm
  | timeErr h => exact absurd (.inl h) hm
  | json _ _ _ h => exact (hm (.inr (.inr fun hn => by rw [hn.2.1] at h; cases h))).elim
  | text _ _ _ _ h => exact (hm (.inr (.inr fun hn => by rw [hn.2.2] at h; cases h))).elim
  | textErr _ _ _ _ h => exact (hm (.inr (.inr fun hn => by rw [hn.2.2] at h; cases h))).elim
  | struct => cases hb
  | structErr => cases hb
  | _ _ hb' => rw [hb] at hb'; cases hb'

theorem gdec_members {E : Env} {o : GenOptions} {i : Nat} (hm : ¬ Unmarshals E (.struct i)) {v : GV} {ms : List (Bytes × JVal)} {y : GV} {err : Option UErr}
    (h : GDec E o (.struct i) v (.obj ms) y err) : GDecMembers E o i v ms y err := by
  cases h with
  | struct _ h => exact h
  | structErr _ h => exact absurd rfl h
  | time h => exact absurd (.inl h) hm
  | timeErr h => exact absurd (.inl h) hm
  | json _ _ _ h => exact (not_um_json hm h).elim
  | textErr _ _ _ _ h => exact (not_um_text hm h).elim
  | _ _ hb => cases hb

/-- The last member with the name of a field decides. -/
theorem members_last {E : Env} (hE : E.Ok) (hH : UHooks E) {o : GenOptions} {i : Nat} (hm : ¬ Unmarshals E (.struct i)) (hc : UCompiles E o true (.struct i))
    {p : Pick} (hp : p ∈ unmarshalPicks E o i) (hr : ¬ RawString E.U p) {val : JVal} {ms' : List (Bytes × JVal)} (ha : ∀ q ∈ unmarshalPicks E o i, q.name ∈ ms'.map Prod.fst → Apart q.field.path p.field.path) {y : GV} :
    ∀ {ms : List (Bytes × JVal)} {v : GV}, HasTy E.U (.struct i) v → GDecMembers E o i v (ms ++ (p.name, val) :: ms') y none →
      ∃ x z, HasTy E.U p.field.typ x ∧ GDec E o p.field.typ x val z none ∧ getPath y p.field.path = some z := by
  have hcs : ∀ p ∈ unmarshalPicks E o i, ¬ RawString E.U p → UCompiles E o true p.field.typ := by
    cases hc with
    | struct _ h => exact h
    | time h => exact absurd (.inl h) hm
    | json _ _ _ h => exact (hm (.inr (.inr fun hn => by rw [hn.2.1] at h; cases h))).elim
    | text _ _ _ _ h => exact (hm (.inr (.inr fun hn => by rw [hn.2.2] at h; cases h))).elim
    | _ _ hb => cases hb
  intro ms
  induction ms with
  | nil =>
    intro v hv h
    rw [List.nil_append] at h
    generalize hn : p.name = key at h
    cases h with
    | unknown h => exact absurd hn (h p hp)
    | raw hq hraw => cases picks_unique hp hq hn; exact absurd hraw hr
    | cons hq _ hf hd hrest =>
      cases picks_unique hp hq hn
      obtain ⟨x, mk, hs⟩ := focus_spec hE.univ (hE.path i _ (mem_unmarshalPicks hp).1) hv
      rw [hs.found] at hf; cases hf
      have ht := (gdec_typed hE hH hd true (hcs p hp hr) hs.typed).1
      exact ⟨_, _, hs.typed, hd, (gdec_typed hE hH (.struct hm hrest) true hc (hs.keeps _ ht)).2 i ms' rfl hm rfl _ _ ha (hs.get _)⟩
  | cons m ms ih =>
    intro v hv h
    rw [List.cons_append] at h
    cases h with
    | unknown _ h => exact ih hv h
    | raw hq hraw hf h =>
      obtain ⟨x, mk, hs⟩ := focus_spec hE.univ (hE.path i _ (mem_unmarshalPicks hq).1) hv
      rw [hs.found] at hf; cases hf
      exact ih (hs.keeps _ (.str hraw.2)) h
    | cons hq hraw hf hd h =>
      obtain ⟨x, mk, hs⟩ := focus_spec hE.univ (hE.path i _ (mem_unmarshalPicks hq).1) hv
      rw [hs.found] at hf; cases hf
      exact ih (hs.keeps _ (gdec_typed hE hH hd true (hcs _ hq hraw) hs.typed).1) h

end Verif.Gen

namespace Verif.Props
open Verif Verif.Float Verif.Spec Verif.Njson Verif.Unjson Verif.Gen

/-- **C126**: wherever generated code reads into a pointer, the pointer is nil afterwards if the value is null, and else points to something,
error or not; what it pointed to before, or a new zero value, is what the value was read into. -/
theorem C126_place {E : Env} (hE : E.Ok) {o : GenOptions} {t e : Ty} (hb : E.U.base t = .ptr e) (ht : E.isTime t = false) (hd : E.isDuration t = false)
    {v : GV} {j : JVal} {y : GV} {err : Option UErr} (h : GDec E o t v j y err) :
    (j = .null → y = .nilPtr ∧ err = none) ∧
    (j ≠ .null → ∃ x z, y = .ptr z ∧ (v = .ptr x ∨ v = .nilPtr ∧ x = E.U.zero e) ∧ GDec E o e x j z err) := by
  rcases gdec_ptr (ptr_not_unmarshals hE hb ht hd) hb h with ⟨rfl, hy, he⟩ | ⟨hn, hx⟩
  · exact ⟨fun _ => ⟨hy, he⟩, fun hn => absurd rfl hn⟩
  · exact ⟨fun h => absurd h hn, fun _ => hx⟩

/-- **C126**: with a method of the type that is pointed to: it is called on the pointer that is there, or on a pointer to a new zero value,
never on a nil pointer, and not for null. -/
theorem C126_method {E : Env} (hE : E.Ok) {o : GenOptions} {t e : Ty} (hb : E.U.base t = .ptr e) (ht : E.isTime t = false) (hd : E.isDuration t = false)
    (he : E.isTime e = false) (hed : E.isDuration e = false) (hn : E.U.impl (.ptr e) .unmarshaler = false) (hj : E.U.impl (.ptr e) .jsonUnmarshaler = true)
    {v : GV} {j : JVal} {y : GV} {err : Option UErr} (h : GDec E o t v j y err) :
    (j = .null → y = .nilPtr ∧ err = none) ∧
    (j ≠ .null → ∃ x, (v = .ptr x ∨ v = .nilPtr ∧ x = E.U.zero e) ∧ y = .ptr (pointee x (E.U.unmarshal .jsonUnmarshaler (.ptr e) (.ptr x) j.ser).1) ∧
      err = hookErr (E.U.unmarshal .jsonUnmarshaler (.ptr e) (.ptr x) j.ser).2) := by
  obtain ⟨h1, h2⟩ := C126_place hE hb ht hd h
  refine ⟨h1, fun hne => ?_⟩
  obtain ⟨x, z, rfl, hv, hz⟩ := h2 hne
  have hp : E.U.panics .jsonUnmarshaler (.ptr e) (.ptr x) j.ser = false :=
    Bool.eq_false_iff.2 fun hp => panics_not_gdec (.json he hed hn hj hp) _ _ hz
  obtain ⟨rfl, rfl⟩ := gdec_fun hz (.json he hed hn hj hp rfl)
  exact ⟨x, hv, rfl, rfl⟩

/-- **C126**: the fields of a struct, for the generated method on a parsed object: after a call without an error, a field of a pointer type
that is named in the object is nil if its last member is null, and points to something else; in any case it can be reached: the embedded
pointers on the way to it are not nil. (The last member: by `ha` the field is not named after it.) -/
theorem C126_field {E : Env} (hE : E.Ok) (hH : UHooks E) {o : GenOptions} {gf : Nat} {i : Nat} {b : UBlock}
    (hg : typeUnmarshaler E o gf (.struct i) = .ok b) (hc : unmarshalerCompiles E b (.struct i) = true) (hm : ¬ Unmarshals E (.struct i))
    {p : Pick} (hp : p ∈ unmarshalPicks E o i) {e : Ty} (hb : E.U.base p.field.typ = .ptr e) (ht : E.isTime p.field.typ = false)
    (hd : E.isDuration p.field.typ = false) {ms ms' : List (Bytes × JVal)} {val : JVal} (ha : ∀ q ∈ unmarshalPicks E o i, q.name ∈ ms'.map Prod.fst → Apart q.field.path p.field.path)
    {h : Heap} {n : Node} (hT : Tree h n (.obj (ms ++ (p.name, val) :: ms'))) {v : GV} (hv : HasTy E.U (.struct i) v) {fuel : Nat}
    (hf : (JVal.obj (ms ++ (p.name, val) :: ms')).size ≤ fuel) {y : GV} (hy : runUnmarshaler E h fuel b (.struct i) v n = some (.done y none)) :
    (val = .null → getPath y p.field.path = some .nilPtr) ∧ (val ≠ .null → ∃ w, getPath y p.field.path = some (.ptr w)) := by
  rcases C79_returned hE hH hg hc hT hv hf (by simp) with ⟨y', err, hr, hdec, _⟩ | ⟨hr, _⟩ <;> rw [hy] at hr <;> cases hr
  have hcc := ((unmarshalerCompiles_iff hE hg).1 hc).2.1
  have hraw : ¬ RawString E.U p := fun h => by have := h.2; rw [hb] at this; cases this
  have hmem := gdec_members hm hdec
  obtain ⟨x, z, hx, hz, hget⟩ := members_last hE hH hm hcc hp hraw ha hv hmem
  obtain ⟨h1, h2⟩ := C126_place hE hb ht hd hz
  rw [hget]
  refine ⟨fun h => by rw [(h1 h).1], fun h => ?_⟩
  obtain ⟨_, w, rfl, _⟩ := h2 h
  exact ⟨w, rfl⟩

/-- A case: the field `P *T1` with a value, with null, and with both; the embedded pointer `*T2` for a member of the struct it points to. -/
example : (∃ b, typeUnmarshaler genE {} 10 (.struct 19) = .ok b ∧ unmarshalerCompiles genE b (.struct 19) = true ∧
      parseInto genE 100 Doc.empty b (.struct 19) (.struct [.nilMap, .nilPtr, .str []]) b!"{\"p\":null,\"p\":{}}" =
        some (.done (.struct [.nilMap, .ptr (.struct [.bool false]), .str []]) none)) ∧
    (∃ b, typeUnmarshaler genE {} 10 (.struct 19) = .ok b ∧ unmarshalerCompiles genE b (.struct 19) = true ∧
      parseInto genE 100 Doc.empty b (.struct 19) (.struct [.nilMap, .ptr (.struct [.bool true]), .str []]) b!"{\"p\":{},\"p\":null,\"s\":\"x\"}" =
        some (.done (.struct [.nilMap, .nilPtr, .str b!"x"]) none)) ∧
    (∃ b, typeUnmarshaler genE {} 10 (.struct 20) = .ok b ∧ unmarshalerCompiles genE b (.struct 20) = true ∧
      parseInto genE 100 Doc.empty b (.struct 20) (.struct [.nilPtr, .bool false]) b!"{\"Y\":5}" =
        some (.done (.struct [.ptr (.struct [.uint 5]), .bool false]) none)) :=
  ⟨intoText (by decide +kernel), intoText (by decide +kernel), intoText (by decide +kernel)⟩

/-- The hypotheses of C126 are met by the field `P *T1` of type 19, followed by a member for `S`. -/
example : genE.Ok ∧ UHooks genE ∧ ¬ Unmarshals genE (.struct 19) ∧ ∃ p ∈ unmarshalPicks genE {} 19, p.name = b!"p" ∧ genE.U.base p.field.typ = .ptr (.struct 1) ∧
    genE.isTime p.field.typ = false ∧ genE.isDuration p.field.typ = false ∧
    ∀ q ∈ unmarshalPicks genE {} 19, q.name ∈ [(b!"s", JVal.null)].map Prod.fst → Apart q.field.path p.field.path := by
  refine ⟨genE_ok, genE_uhooks, by unfold Unmarshals NoUnmarshal; decide +kernel, ⟨b!"p", [], gfld b!"P" (.ptr (.struct 1)) 1 b!"p"⟩, ?_, rfl, rfl, rfl, rfl, ?_⟩
  · rw [genPicks19]; exact .tail _ (.head _)
  · rw [genPicks19]
    unfold Apart
    decide +kernel

end Verif.Props
