import Verif.Proofs.GenRun

/-! # What generated `AppendJSON` methods write is determined by the specification -/

namespace Verif.Gen
open Verif Verif.Float Verif.Spec Verif.Njson Verif.Unjson

theorem voidPtr_base {E : Env} {o : GenOptions} {e : Ty} (h : VoidPtr E o e) : ∃ e', E.U.base e = .ptr e' := by
  cases h with
  | struct hb => exact ⟨_, hb⟩
  | ptr hb => exact ⟨_, hb⟩

theorem arr_same {xs ys : List JVal} (h : xs.map JVal.ser = ys.map JVal.ser) : (JVal.arr xs).ser = (JVal.arr ys).ser := by
  have key : ∀ (xs ys : List JVal), xs.map JVal.ser = ys.map JVal.ser → ∀ f, sepElems f xs = sepElems f ys := by
    intro xs
    induction xs with
    | nil => intro ys h f; cases ys with | nil => rfl | cons => cases h
    | cons x xs ih =>
      intro ys h f
      cases ys with
      | nil => cases h
      | cons y ys =>
        obtain ⟨h1, h2⟩ := List.cons.inj h
        rw [sepElems_cons, sepElems_cons, h1, ih ys h2]
  rw [ser_arr, ser_arr, ← sepElems_true, ← sepElems_true, key xs ys h]

theorem obj_same {xs ys : List (Bytes × JVal)} (h : xs.map (fun m => (m.1, m.2.ser)) = ys.map (fun m => (m.1, m.2.ser))) :
    (JVal.obj xs).ser = (JVal.obj ys).ser := by
  have key : ∀ (xs ys : List (Bytes × JVal)), xs.map (fun m => (m.1, m.2.ser)) = ys.map (fun m => (m.1, m.2.ser)) → ∀ f, tailText f xs = tailText f ys := by
    intro xs
    induction xs with
    | nil => intro ys h f; cases ys with | nil => rfl | cons => cases h
    | cons x xs ih =>
      intro ys h f
      cases ys with
      | nil => cases h
      | cons y ys =>
        obtain ⟨h1, h2⟩ := List.cons.inj h
        obtain ⟨k, x⟩ := x
        obtain ⟨k', y⟩ := y
        obtain ⟨rfl, h1⟩ := Prod.mk.inj h1
        rw [tailText_cons, tailText_cons, ih ys h2]
        simp only at h1
        rw [h1]
  rw [← tailText_true, ← tailText_true, key xs ys h]

local macro "off" : tactic => `(tactic| (simp_all [NoMarshal]; done))

/-- One text. -/
theorem genc_one {E : Env} {o : GenOptions} {ps : List Bytes} {t : Ty} {v : GV} {j : JVal} (h : GEnc E o ps t v j) :
    ∀ j', GEnc E o ps t v j' → j.ser = j'.ser := by
  refine GEnc.rec (motive_1 := fun ps t v j _ => ∀ j', GEnc E o ps t v j' → j.ser = j'.ser)
    (motive_2 := fun ps t xs js _ => ∀ js', GEncElems E o ps t xs js' → js.map JVal.ser = js'.map JVal.ser)
    (motive_3 := fun ps t es ms _ => ∀ ms', GEncEntries E o ps t es ms' → ms.map (fun m => (m.1, m.2.ser)) = ms'.map (fun m => (m.1, m.2.ser)))
    (motive_4 := fun v ps ms _ => ∀ ms', GEncFields E o v ps ms' → ms.map (fun m => (m.1, m.2.ser)) = ms'.map (fun m => (m.1, m.2.ser)))
    ?_ ?_ ?_ ?_ ?_ ?_ ?_ ?_ ?_ ?_ ?_ ?_ ?_ ?_ ?_ ?_ ?_ ?_ ?_ ?_ ?_ ?_ ?_ ?_ ?_ h
  · intro ps t v j hi _ ha j' h'
    cases h' with
    | appender _ _ hb =>
      have := (ha []).symm.trans (hb [])
      simpa using this
    | _ => off
  · intro ps t v j h1 h2 _ ha j' h'
    cases h' with
    | json _ _ _ hb => rw [ha] at hb; exact Option.some.inj hb
    | _ => off
  · intro ps t v s h1 h2 h3 ha j' h'
    cases h' with
    | text _ _ _ hb => rw [ha] at hb; rw [Option.some.inj hb]
    | _ => off
  · intro ps t b hm hb j' h'; cases h' <;> first | rfl | off
  · intro ps t k i hm hb j' h'; cases h' <;> first | rfl | off
  · intro ps t k i hm hb j' h'; cases h' <;> first | rfl | off
  · intro ps t k i hm hb j' h'; cases h' <;> first | rfl | off
  · intro ps t s hm hb hr j' h'; cases h' <;> first | rfl | off
  · intro ps t s hm hb hr j' h'; cases h' <;> first | rfl | off
  · intro ps t e hm hb j' h'; cases h' <;> first | rfl | off
  · intro ps t e v j hm hb hn _ ih j' h'
    cases h' with
    | ptr _ hb' _ h' => rw [hb] at hb'; cases hb'; exact ih _ h'
    | ptrVoid _ hb' h' => rw [hb] at hb'; cases hb'; obtain ⟨e', he⟩ := voidPtr_base h'; exact absurd he (hn _)
    | _ => off
  · intro ps t e v hm hb hv j' h'
    cases h' with
    | ptr _ hb' hn h' => rw [hb] at hb'; cases hb'; obtain ⟨e', he⟩ := voidPtr_base hv; exact absurd he (hn _)
    | ptrVoid => rfl
    | _ => off
  · intro ps t e hm hb j' h'; cases h' <;> first | rfl | off
  · intro ps t e arr len js hm hb _ ih j' h'
    cases h' with
    | slice _ hb' h' => rw [hb] at hb'; cases hb'; exact arr_same (ih _ h')
    | _ => off
  · intro ps t k e hm hb j' h'; cases h' <;> first | rfl | off
  · intro ps t k e es ms hm hb _ _ ih j' h'
    cases h' with
    | map _ hb' _ h' => rw [hb] at hb'; cases hb'; exact obj_same (ih _ h')
    | _ => off
  · intro ps j fs ms hm _ ih j' h'
    cases h' with
    | struct _ h' => exact obj_same (ih _ h')
    | _ => off
  · intro ps t js' h'; cases h'; rfl
  · intro ps t x xs j js _ _ ih1 ih2 js' h'
    cases h' with
    | cons h1 h2 => rw [List.map_cons, List.map_cons, ih1 _ h1, ih2 _ h2]
  · intro ps t ms' h'; cases h'; rfl
  · intro ps t k s x es j ms hk _ _ ih1 ih2 ms' h'
    cases h' with
    | cons hk' h1 h2 =>
      rw [hk] at hk'; cases hk'
      rw [List.map_cons, List.map_cons, ih1 _ h1, ih2 _ h2]
  · intro v ms' h'; cases h'; rfl
  · intro v p ps ms hl _ ih ms' h'
    cases h' with
    | absent _ h => exact ih _ h
    | omitted hl' => rw [hl] at hl'; cases hl'
    | present hl' => rw [hl] at hl'; cases hl'
  · intro v p ps ms x hl h1 h2 _ ih ms' h'
    cases h' with
    | absent hl' => rw [hl] at hl'; cases hl'
    | omitted _ _ _ h => exact ih _ h
    | present hl' ho => rw [hl] at hl'; cases hl'; rw [ho h1] at h2; cases h2
  · intro v p ps ms x j hl h1 _ _ ih1 ih2 ms' h'
    cases h' with
    | absent hl' => rw [hl] at hl'; cases hl'
    | omitted hl' ho ho' => rw [hl] at hl'; cases hl'; rw [h1 ho] at ho'; cases ho'
    | present hl' _ h3 h4 =>
      rw [hl] at hl'; cases hl'
      rw [List.map_cons, List.map_cons, ih1 _ h3, ih2 _ h4]

theorem elems_mem {E : Env} {o : GenOptions} {ps : List Bytes} {t : Ty} : ∀ {xs : List GV} {js : List JVal}, GEncElems E o ps t xs js → ∀ x ∈ xs,
    ∃ j, GEnc E o ps t x j := by
  intro xs
  induction xs with
  | nil => intro js _ x hx; cases hx
  | cons y xs ih =>
    intro js h x hx
    cases h with
    | cons h1 h2 =>
      rcases List.mem_cons.1 hx with rfl | hx
      · exact ⟨_, h1⟩
      · exact ih h2 x hx

theorem entries_mem {E : Env} {o : GenOptions} {ps : List Bytes} {t : Ty} : ∀ {es : List (GV × GV)} {ms : List (Bytes × JVal)}, GEncEntries E o ps t es ms →
    ∀ p ∈ es, ∃ j, GEnc E o ps t p.2 j := by
  intro es
  induction es with
  | nil => intro ms _ x hx; cases hx
  | cons y es ih =>
    intro ms h p hp
    cases h with
    | cons _ h1 h2 =>
      rcases List.mem_cons.1 hp with rfl | hp
      · exact ⟨_, h1⟩
      · exact ih h2 p hp

theorem fields_mem {E : Env} {o : GenOptions} {v : GV} : ∀ {ps : List Pick} {ms : List (Bytes × JVal)}, GEncFields E o v ps ms →
    ∀ p ∈ ps, ∀ x, look v p.field.path = some x → (b!"omitempty" ∈ p.params → omitted E o p.field.typ x = false) →
    ∃ j, GEnc E o p.params p.field.typ x j := by
  intro ps
  induction ps with
  | nil => intro ms _ x hx; cases hx
  | cons q ps ih =>
    intro ms h p hp x hl ho
    rcases List.mem_cons.1 hp with rfl | hp
    · cases h with
      | absent hl' => rw [hl] at hl'; cases hl'
      | omitted hl' h1 h2 => rw [hl] at hl'; cases hl'; rw [ho h1] at h2; cases h2
      | present hl' _ h => rw [hl] at hl'; cases hl'; exact ⟨_, h⟩
    · cases h with
      | absent _ h => exact ih h p hp x hl ho
      | omitted _ _ _ h => exact ih h p hp x hl ho
      | present _ _ _ h => exact ih h p hp x hl ho

/-- A value for which a method fails has no text. -/
theorem genc_fails {E : Env} {o : GenOptions} {t : Ty} {v : GV} (h : GFails E o t v) : ∀ ps j, ¬ GEnc E o ps t v j := by
  have key : ∀ {s t v}, GStops E o s t v → s = .error → ∀ ps j, ¬ GEnc E o ps t v j := by
    intro s t v h
    induction h with
    | appender h1 h2 =>
      intro hs ps j h'
      cases h' with
      | appender _ _ hb => subst hs; have := h2.2; simp [hb] at this
      | _ => off
    | json h1 h2 h3 =>
      intro hs ps j h'
      cases h' with
      | json _ _ _ hb => subst hs; have := h3.2; simp [hb] at this
      | _ => off
    | text h1 h2 h3 h4 =>
      intro hs ps j h'
      cases h' with
      | text _ _ _ hb => subst hs; have := h4.2; simp [hb] at this
      | _ => off
    | ptr hm hb hn _ ih =>
      intro hs ps j h'
      cases h' with
      | ptr _ hb' _ h' => rw [hb] at hb'; cases hb'; exact ih hs _ _ h'
      | ptrVoid _ hb' h' => rw [hb] at hb'; cases hb'; obtain ⟨e', he⟩ := voidPtr_base h'; exact absurd he (hn _)
      | _ => off
    | slice hm hb hx _ ih =>
      intro hs ps j h'
      cases h' with
      | slice _ hb' h' => rw [hb] at hb'; cases hb'; obtain ⟨j, hj⟩ := elems_mem h' _ hx; exact ih hs _ _ hj
      | _ => off
    | map hm hb hp _ ih =>
      intro hs ps j h'
      cases h' with
      | map _ hb' _ h' => rw [hb] at hb'; cases hb'; obtain ⟨j, hj⟩ := entries_mem h' _ hp; exact ih hs _ _ hj
      | _ => off
    | struct hm hp hl ho _ ih =>
      intro hs ps j h'
      cases h' with
      | struct _ h' => obtain ⟨j, hj⟩ := fields_mem h' _ hp _ hl ho; exact ih hs _ _ hj
      | _ => off
    | omits => intro hs; cases hs
  exact key h rfl


end Verif.Gen
