import Verif.Props.GenNil
import Verif.Props.GenDec

/-! # Generated `UnmarshalNodeJSON` methods and methods that panic (C129) -/

namespace Verif.Props
open Verif Verif.Float Verif.Spec Verif.Njson Verif.Unjson Verif.Gen

/-- **C129**: the generated method panics exactly when the node is not null and it comes to a call of a method that panics; in all other cases it returns. -/
theorem C129_exact {E : Env} (hE : E.Ok) (hH : UHooks E) {o : GenOptions} {gf : Nat} {t : Ty} {b : UBlock}
    (hb : typeUnmarshaler E o gf t = .ok b) (hc : unmarshalerCompiles E b t = true) {h : Heap} {n : Node} {j : JVal} (ht : Tree h n j) {v : GV}
    (hv : HasTy E.U t v) {fuel : Nat} (hf : j.size ≤ fuel) :
    (runUnmarshaler E h fuel b t v n = some .panic ↔ j ≠ .null ∧ UPanics E o t v j) ∧
    ((∃ y err, runUnmarshaler E h fuel b t v n = some (.done y err)) ↔ j = .null ∨ ¬ UPanics E o t v j) := by
  by_cases hj : j = .null
  · rw [(C79_stores_partial hE hH hb hc ht hv hf).1 hj]
    exact ⟨⟨(fun h => by cases h), fun h => absurd hj h.1⟩, ⟨fun _ => .inl hj, fun _ => ⟨_, _, rfl⟩⟩⟩
  · rcases C79_returned hE hH hb hc ht hv hf hj with ⟨y, err, hr, _, _, hp⟩ | ⟨hr, hp, _⟩ <;> rw [hr]
    · exact ⟨⟨(fun h => by cases h), fun h => absurd h.2 hp⟩, ⟨fun _ => .inr hp, fun _ => ⟨_, _, rfl⟩⟩⟩
    · exact ⟨⟨fun _ => ⟨hj, hp⟩, fun _ => rfl⟩, ⟨(fun ⟨_, _, h⟩ => by cases h), fun h => h.elim (fun h => absurd h hj) fun h => absurd hp h⟩⟩

/-- **C129**: a panic comes from a call of `UnmarshalJSON` or `UnmarshalText` on a pointer that is not nil, of a type that has the method. -/
theorem C129_cause {E : Env} {o : GenOptions} {t : Ty} {v : GV} {j : JVal} (h : UPanics E o t v j) :
    ∃ m e x s, (m = .jsonUnmarshaler ∨ m = .textUnmarshaler) ∧ E.U.impl (.ptr e) m = true ∧ E.U.panics m (.ptr e) (.ptr x) s = true := by
  refine UPanics.rec (motive_1 := fun _ _ _ _ => ∃ m e x s, (m = .jsonUnmarshaler ∨ m = .textUnmarshaler) ∧ E.U.impl (.ptr e) m = true ∧ E.U.panics m (.ptr e) (.ptr x) s = true)
    (motive_2 := fun _ _ _ _ => ∃ m e x s, (m = .jsonUnmarshaler ∨ m = .textUnmarshaler) ∧ E.U.impl (.ptr e) m = true ∧ E.U.panics m (.ptr e) (.ptr x) s = true)
    (motive_3 := fun _ _ _ => ∃ m e x s, (m = .jsonUnmarshaler ∨ m = .textUnmarshaler) ∧ E.U.impl (.ptr e) m = true ∧ E.U.panics m (.ptr e) (.ptr x) s = true)
    (motive_4 := fun _ _ _ _ => ∃ m e x s, (m = .jsonUnmarshaler ∨ m = .textUnmarshaler) ∧ E.U.impl (.ptr e) m = true ∧ E.U.panics m (.ptr e) (.ptr x) s = true)
    ?_ ?_ ?_ ?_ ?_ ?_ ?_ ?_ ?_ ?_ ?_ ?_ ?_ ?_ ?_ ?_ ?_ h
  case refine_1 => intro t v j _ _ _ h4 h5; exact ⟨_, t, v, _, .inl rfl, h4, h5⟩
  case refine_2 => intro t v s _ _ _ _ h4 h5; exact ⟨_, t, v, _, .inr rfl, h4, h5⟩
  all_goals intros; assumption

/-- Where methods that panic are called on nil pointers only, the generated method always returns: it makes pointers before it calls a method on them. -/
theorem C129_nil {E : Env} (hN : ∀ m t v s, E.U.panics m (.ptr t) v s = true → v = .nilPtr) {o : GenOptions} {t : Ty} {v : GV} {j : JVal} : ¬ UPanics E o t v j := by
  intro h
  obtain ⟨m, e, x, s, _, _, hp⟩ := C129_cause h
  cases hN m e _ s hp

/-- What decides is what comes first: a member with a value that does not fit, in front of the value for which the method would panic, makes the method return
an error instead. -/
theorem C129_first {E : Env} (hE : E.Ok) (hH : UHooks E) {o : GenOptions} {gf : Nat} {i : Nat} {b : UBlock}
    (hb : typeUnmarshaler E o gf (.struct i) = .ok b) (hc : unmarshalerCompiles E b (.struct i) = true) (hm : ¬ Unmarshals E (.struct i))
    {ms ms' : List (Bytes × JVal)} {h : Heap} {n : Node} (ht : Tree h n (.obj (ms ++ ms'))) {v : GV} (hv : HasTy E.U (.struct i) v) {fuel : Nat}
    (hf : (JVal.obj (ms ++ ms')).size ≤ fuel) {y : GV} {e : UErr} (hd : GDecMembers E o i v ms y (some e)) :
    runUnmarshaler E h fuel b (.struct i) v n = some (.done y (some e)) := by
  have key : ∀ {ms : List (Bytes × JVal)} {v : GV}, GDecMembers E o i v ms y (some e) → GDecMembers E o i v (ms ++ ms') y (some e) := by
    intro ms
    induction ms with
    | nil => intro v h; generalize hr : some e = r at h; cases h; cases hr
    | cons m ms ih =>
      intro v h
      rw [List.cons_append]
      generalize hr : some e = r at h
      cases h with
      | unknown hu h => subst hr; exact .unknown hu (ih h)
      | raw hp hw hx h => subst hr; exact .raw hp hw hx (ih h)
      | cons hp hw hx hd h => subst hr; exact .cons hp hw hx hd (ih h)
      | fail hp hw hx hd => cases hr; exact .fail hp hw hx hd
  have hg : GDec E o (.struct i) v (.obj (ms ++ ms')) y (some e) := .struct hm (key hd)
  rcases C79_returned hE hH hb hc ht hv hf (by simp) with ⟨y', err, hr, hd', _⟩ | ⟨_, hp, _⟩
  · obtain ⟨rfl, rfl⟩ := gdec_fun hg hd'
    exact hr
  · exact absurd hg (panics_not_gdec hp _ _)

/-! ### The example -/

/-- The package with `type T0 struct { P *T1; L []*T1 }` and `type T1 struct { X bool }`, where `*T1` has a method `UnmarshalJSON` that sets `X` and panics for
the text `5`. -/
def gpanU : Univ :=
  { gnilU with
    impl := fun t m => decide (t = .ptr (.struct 1) ∧ m = .jsonUnmarshaler)
    panics := fun m _ _ s => decide (m = .jsonUnmarshaler ∧ s = b!"5")
    unmarshal := fun _ t v _ => if t = .ptr (.struct 1) then (.ptr (.struct [.bool true]), false) else (v, true) }

def gpanE : Env := { gnilE with U := gpanU }

theorem gpanE_mem {j : Nat} {f : GField} (h : f ∈ (gpanE.fields j).flatten) :
    pathTy gpanU (.struct j) f.path = some f.typ ∧ ∃ i, f.path = [i] := by
  unfold gpanE gnilE at h
  dsimp only at h
  split at h <;> simp at h
  · rcases h with rfl | rfl <;> exact ⟨rfl, _, rfl⟩
  · subst h
    refine ⟨?_, _, rfl⟩
    simp only [gfld, pathTy, fieldTy, Univ.base, gpanU, gnilU]
    rfl

theorem gpanE_ok : gpanE.Ok where
  univ := ⟨genU_ok.under_base, genU_ok.under_struct, by
      intro j
      simp only [gpanE, gpanU, gnilU]
      split <;> simp [fld, Univ.zero], by
      intro i
      simp only [gpanE, gpanU, gnilU, genU]
      split <;> simp [Univ.zero]⟩
  path := fun j f h => (gpanE_mem h).1
  nonempty := by
    intro j f h
    obtain ⟨-, i, h⟩ := gpanE_mem h
    simp [h]
  embeds := by
    intro j f pre post t e h hp hne ht hb
    obtain ⟨-, i, h⟩ := gpanE_mem h
    rw [h] at hp
    cases pre with
    | nil => cases ht; cases hb
    | cons i pre =>
      simp at hp
      exact absurd hp.2.2 hne
  methods := by
    intro t m h h1 h2
    simp only [gpanE, gpanU, decide_eq_true_eq] at h
    obtain ⟨rfl, _⟩ := h
    exact absurd rfl (h2 (.struct 1))
  ptrPtr := by
    intro t e m hb
    simp only [gpanE, gpanU, decide_eq_false_iff_not]
    rintro ⟨h, -⟩
    cases h; cases hb
  namedPtr := by intro i e m hb; simp [gpanE, gpanU]

theorem gpanE_hooks : UHooks gpanE where
  time := by intro t s y h; cases h
  method := by
    intro m t v s h hv
    simp only [gpanE, gpanU, decide_eq_true_eq] at h
    obtain ⟨h, _⟩ := h
    cases h
    refine ⟨.struct [.bool true], false, rfl, .struct (j := 1) rfl rfl ?_⟩
    intro i f v hf hv
    match i with
    | 0 => cases hf; cases hv; exact .bool rfl
    | i + 1 => cases hf

/-- All three: a nil pointer and an element are made and given to the method; `5` in the list makes it panic; an error in front of it is returned. -/
example : gpanE.Ok ∧ UHooks gpanE ∧
    (∃ b, typeUnmarshaler gpanE {} 10 (.struct 0) = .ok b ∧ unmarshalerCompiles gpanE b (.struct 0) = true ∧
      parseInto gpanE 100 Doc.empty b (.struct 0) (.struct [.nilPtr, .nilSlice]) b!"{\"P\":6,\"L\":[7,null]}" =
        some (.done (.struct [.ptr (.struct [.bool true]), .slice [.ptr (.struct [.bool true]), .nilPtr] 2]) none)) ∧
    (∃ b, typeUnmarshaler gpanE {} 10 (.struct 0) = .ok b ∧ unmarshalerCompiles gpanE b (.struct 0) = true ∧
      parseInto gpanE 100 Doc.empty b (.struct 0) (.struct [.nilPtr, .nilSlice]) b!"{\"P\":6,\"L\":[7,5]}" = some .panic) ∧
    (∃ b, typeUnmarshaler gpanE {} 10 (.struct 0) = .ok b ∧ unmarshalerCompiles gpanE b (.struct 0) = true ∧
      parseInto gpanE 100 Doc.empty b (.struct 0) (.struct [.nilPtr, .nilSlice]) b!"{\"L\":1,\"P\":5}" =
        some (.done (.struct [.nilPtr, .nilSlice]) (some (.typeError tNumber (tArray ||| tNull))))) := by
  refine ⟨gpanE_ok, gpanE_hooks, intoText (by decide +kernel), ?_, intoText (by decide +kernel)⟩
  obtain ⟨b, h1, h2⟩ := genUOk_iff (E := gpanE) (o := {}) (t := .struct 0)
    (P := fun b => unmarshalerCompiles gpanE b (.struct 0) && isPanic (parseInto gpanE 100 Doc.empty b (.struct 0) (.struct [.nilPtr, .nilSlice]) b!"{\"P\":6,\"L\":[7,5]}"))
    (by decide +kernel)
  rw [Bool.and_eq_true] at h2
  exact ⟨b, h1, h2.1, eq_of_isPanic h2.2⟩

/-- The relation on the example: the method is called on the second element, on a pointer that was made for it. -/
example : UPanics gpanE {} (.slice (.ptr (.struct 1))) .nilSlice (.arr [.num b!"7", .num b!"5"]) := by
  have hs : ¬ Unmarshals gpanE (.slice (.ptr (.struct 1))) := by
    rintro (h | h | h)
    · cases h
    · cases h
    · exact h ⟨by decide +kernel, by decide +kernel, by decide +kernel⟩
  have hp : ¬ Unmarshals gpanE (.ptr (.struct 1)) := by
    rintro (h | h | h)
    · cases h
    · cases h
    · exact h ⟨by decide +kernel, by decide +kernel, by decide +kernel⟩
  refine .sliceNew hs rfl (.later (y := .ptr (.struct [.bool true])) (.ptrNew hp rfl (by simp) ?_) (.here (.ptrNew hp rfl (by simp) ?_)))
  · exact .json rfl rfl (by decide +kernel) (by decide +kernel) (by decide +kernel) rfl
  · exact .json rfl rfl (by decide +kernel) (by decide +kernel) (by decide +kernel)

end Verif.Props
