import Verif.Spec.UnMethJson
import Verif.Proofs.UnText

/-! # What Marshal writes is JSON if what the methods write is -/

namespace Verif.Unjson
open Verif Verif.Float Verif.Spec Verif.Njson

theorem isWs_nil : IsWs [] := by intro b hb; cases hb

theorem IsWs.append {w w' : Bytes} (h : IsWs w) (h' : IsWs w') : IsWs (w ++ w') := by
  intro b hb
  rcases List.mem_append.1 hb with hb | hb
  · exact h b hb
  · exact h' b hb

theorem rfcText_value {s : Bytes} {j : JVal} (h : RfcValue s j) : RfcText s j := ⟨[], s, [], by simp, isWs_nil, h, isWs_nil⟩

/-- A member of an object as the encoder writes it. -/
def MemberText (s : Bytes) : Prop := ∃ k v j, s = [34] ++ k ++ [34, 58] ++ v ∧ RfcBody k ∧ RfcText v j

theorem elems_text : ∀ (ss : List Bytes), (∀ s ∈ ss, ∃ j, RfcText s j) → ss ≠ [] →
    ∃ w body xs, commas ss = w ++ body ∧ IsWs w ∧ GElems RfcBody RfcBody RfcNumber body xs
  | [], _, h => absurd rfl h
  | [s], h, _ => by
    obtain ⟨j, w, v, w', rfl, h1, h2, h3⟩ := h s (by simp)
    exact ⟨w, v ++ w', [j], by simp [commas], h1, .one h2 h3⟩
  | s :: s' :: ss, h, _ => by
    obtain ⟨j, w, v, w', rfl, h1, h2, h3⟩ := h s (by simp)
    obtain ⟨w1, body, xs, h4, h5, h6⟩ := elems_text (s' :: ss) (fun x hx => h x (by simp only [List.mem_cons] at hx ⊢; exact .inr hx)) (by simp)
    refine ⟨w, v ++ w' ++ [44] ++ w1 ++ body, j :: xs, ?_, h1, .cons h2 h3 h5 h6⟩
    rw [commas, h4]
    · simp
    · simp

theorem members_text : ∀ (ss : List Bytes), (∀ s ∈ ss, MemberText s) → ss ≠ [] →
    ∃ xs, GMembers RfcBody RfcBody RfcNumber (commas ss) xs
  | [], _, h => absurd rfl h
  | [s], h, _ => by
    obtain ⟨k, _, j, rfl, h0, w, v, w', rfl, h1, h2, h3⟩ := h s (by simp)
    have := GMembers.one (S := RfcBody) (K := RfcBody) (N := RfcNumber) h0 isWs_nil h1 h2 h3
    refine ⟨[(k, j)], ?_⟩
    simpa [commas] using this
  | s :: s' :: ss, h, _ => by
    obtain ⟨k, _, j, rfl, h0, w, v, w', rfl, h1, h2, h3⟩ := h s (by simp)
    obtain ⟨xs, h6⟩ := members_text (s' :: ss) (fun x hx => h x (by simp only [List.mem_cons] at hx ⊢; exact .inr hx)) (by simp)
    have := GMembers.cons (S := RfcBody) (K := RfcBody) (N := RfcNumber) h0 isWs_nil h1 h2 h3 isWs_nil h6
    refine ⟨(k, j) :: xs, ?_⟩
    rw [commas]
    · simpa using this
    · simp

theorem array_text {ss : List Bytes} (h : ∀ s ∈ ss, ∃ j, RfcText s j) : ∃ j, RfcText ([91] ++ commas ss ++ [93]) j := by
  by_cases hn : ss = []
  · subst hn
    exact ⟨_, rfcText_value (.arr0 (w := []) isWs_nil)⟩
  · obtain ⟨w, body, xs, h1, h2, h3⟩ := elems_text ss h hn
    refine ⟨.arr xs, rfcText_value ?_⟩
    rw [h1]
    have := GVal.arr (S := RfcBody) (K := RfcBody) (N := RfcNumber) h2 h3
    simpa [RfcValue] using this

theorem object_text {ss : List Bytes} (h : ∀ s ∈ ss, MemberText s) : ∃ j, RfcText ([123] ++ commas ss ++ [125]) j := by
  by_cases hn : ss = []
  · subst hn
    exact ⟨_, rfcText_value (.obj0 (w := []) isWs_nil)⟩
  · obtain ⟨xs, h3⟩ := members_text ss h hn
    refine ⟨.obj xs, rfcText_value ?_⟩
    have := GVal.obj (S := RfcBody) (K := RfcBody) (N := RfcNumber) isWs_nil h3
    simpa [RfcValue] using this

theorem methText_json {U : Univ} (hM : U.MethsJSON) {m : Meth} (hm : m = .appender ∨ m = .jsonMarshaler ∨ m = .textMarshaler) {t : Ty} {v : GV} {s : Bytes}
    (h : methText U m t v = .ok s) : ∃ j, RfcText s j := by
  rcases hm with rfl | rfl | rfl <;> unfold methText at h <;> dsimp only at h
  · split at h
    · cases h
    · split at h
      · cases h
      · rename_i h'
        cases h
        exact hM.append t v (by simpa using h')
  · split at h
    · cases h
    · split at h
      · rename_i h'
        cases h
        exact hM.json _ _ _ h'
      · cases h
  · split at h
    · cases h
    · split at h
      · rename_i h'
        cases h
        exact ⟨_, rfcText_value (.str (hM.text _ _ _ h'))⟩
      · cases h

theorem callMeth_ok {U : Univ} {m : Meth} {t : Ty} {v : GV} {s : Bytes} (h : callMeth U m t v = .ok s) : ∃ t v, methText U m t v = .ok s := by
  unfold callMeth at h
  split at h
  · split at h
    · exact ⟨_, _, h⟩
    · cases h
  · cases h
  · split at h
    · exact ⟨_, _, h⟩
    · cases h

theorem callMeth_json {U : Univ} (hM : U.MethsJSON) {m : Meth} {t t' : Ty} (hm : marshalMeth U t' = some m) {v : GV} {s : Bytes}
    (h : callMeth U m t v = .ok s) : ∃ j, RfcText s j := by
  obtain ⟨t, v, h⟩ := callMeth_ok h
  refine methText_json hM ?_ h
  unfold marshalMeth at hm
  (repeat' split at hm) <;> cases hm <;> simp

theorem via_some {U : Univ} {c : Bool} {h : Hint} {t : Ty} {m : Meth} (hv : via U c h t = some m) : marshalMeth U t = some m := by
  unfold via at hv
  split at hv
  · cases hv
  · exact hv

theorem map_ok {α β : Type} {w : Except Fail α} {f : α → β} {s : β} (h : w.map f = .ok s) : ∃ a, w = .ok a ∧ s = f a := by
  cases w with
  | ok a => cases h; exact ⟨a, rfl, rfl⟩
  | error e => cases h

theorem keyText_json {U : Univ} (hM : U.MethsJSON) {k : Ty} {v : GV} {s : Bytes} (h : keyText U k v = .ok s) : ∃ b, s = [34] ++ b ++ [34] ∧ RfcBody b := by
  unfold keyText at h
  split at h
  · obtain ⟨t, v, h⟩ := callMeth_ok h
    unfold methText at h
    dsimp only at h
    split at h
    · cases h
    · split at h
      · rename_i h'
        cases h
        exact ⟨_, rfl, hM.text _ _ _ h'⟩
      · cases h
  · split at h
    · cases h
      exact ⟨_, rfl, (Props.C03_escaped_legal _ _).1⟩
    · cases h

/-- Options under which floats that JSON does not know are errors. -/
def StrictFloats (o : Options) : Prop := o.allowNaN = false ∧ o.allowInf = false

theorem floatOut_json {U : Univ} (hF : U.GoFloats) {o : Options} (ho : StrictFloats o) {f : Flt} (hf : Fits32 f) {s : Bytes} (h : floatOut U o f = .ok s) :
    RfcNumber s := by
  unfold floatOut at h
  rcases f with _ | ⟨neg, ⟨m, e⟩ | _⟩
  · dsimp only at h; rw [ho.1] at h; cases h
  · cases h; exact floatText_number hF _ _ _ (hf _ _ _ rfl)
  · dsimp only at h; rw [ho.2] at h; cases h

theorem writes_json {U : Univ} (hF : U.GoFloats) (hM : U.MethsJSON) (hD : U.PlainTags defaultOptions) {o : Options} {t : Ty} {v : GV} {w : Except Fail Bytes}
    (h : WArg U o t v w) : StrictFloats o → U.PlainTags o → AllFlt Fits32 v → ∀ s, w = .ok s → ∃ j, RfcText s j := by
  refine WArg.rec (U := U)
    (motive_1 := fun c a o h t v w _ => StrictFloats o → U.PlainTags o → (h.raw = true → h.html = true) → AllFlt Fits32 v → ∀ s, w = .ok s → ∃ j, RfcText s j)
    (motive_2 := fun c a o h t vs w _ => StrictFloats o → U.PlainTags o → (h.raw = true → h.html = true) → (∀ v ∈ vs, AllFlt Fits32 v) → ∀ ss, w = .ok ss →
      ∀ s ∈ ss, ∃ j, RfcText s j)
    (motive_3 := fun c o k t es w _ => StrictFloats o → U.PlainTags o → (∀ p ∈ es, AllFlt Fits32 p.2) → ∀ ss, w = .ok ss → ∀ s ∈ ss, MemberText s)
    (motive_4 := fun a o v cs w _ => StrictFloats o → U.PlainTags o → (∀ c ∈ cs, RfcBody c.key ∧ (c.hint.raw = true → c.hint.html = true)) →
      AllFlt Fits32 v → ∀ ss, w = .ok ss → ∀ s ∈ ss, MemberText s)
    (motive_5 := fun o t v w _ => StrictFloats o → U.PlainTags o → AllFlt Fits32 v → ∀ s, w = .ok s → ∃ j, RfcText s j)
    ?_ ?_ ?_ ?_ ?_ ?_ ?_ ?_ ?_ ?_ ?_ ?_ ?_ ?_ ?_ ?_ ?_ ?_ ?_ ?_ ?_ ?_ ?_ ?_ ?_ ?_ ?_ ?_ ?_ ?_ ?_ ?_ ?_ ?_ ?_ ?_ h
  case refine_1 => intro c a o h t v m h1 ho hT hh hq s hs; exact callMeth_json hM (via_some h1) hs
  case refine_2 =>
    intro c a o h t b h1 hb ho hT hh hq s hs
    cases hs
    cases b
    · exact ⟨_, rfcText_value .false⟩
    · exact ⟨_, rfcText_value .true⟩
  case refine_3 => intro c a o h t k i h1 hb ho hT hh hq s hs; cases hs; exact ⟨_, rfcText_value (.num (formatInt_number _))⟩
  case refine_4 => intro c a o h t k i h1 hb ho hT hh hq s hs; cases hs; exact ⟨_, rfcText_value (.num (formatUint_number _))⟩
  case refine_5 =>
    intro c a o h t k f h1 hb ho hT hh hq s hs
    exact ⟨_, rfcText_value (.num (floatOut_json hF ho (by cases hq with | float h => exact h) hs))⟩
  case refine_6 =>
    intro c a o h t s h1 hb ho hT hh hq s' hs
    cases hs
    refine ⟨_, rfcText_value (.str (?_ : RfcBody (strText h s)))⟩
    unfold strText
    by_cases h1 : h.html = true
    · rw [if_pos h1]; exact (Props.C03_escaped_legal _ _).1
    · rw [if_neg h1, if_neg (fun h2 => h1 (hh h2))]; exact (Props.C03_escaped_legal _ _).1
  case refine_7 => intro c a o h t e h1 hb ho hT hh hq s hs; cases hs; exact ⟨_, rfcText_value .null⟩
  case refine_8 =>
    intro c a o h t e v w h1 hb _ ih ho hT hh hq s hs
    exact ih ho hT hh (by cases hq with | ptr h => exact h) s hs
  case refine_9 => intro c a o h t e h1 hb ho hT hh hq s hs; cases hs; exact ⟨_, rfcText_value (.arr0 (w := []) isWs_nil)⟩
  case refine_10 =>
    intro c a o h t e arr len w h1 hb _ ih ho hT hh hq s hs
    obtain ⟨ss, rfl, rfl⟩ := map_ok hs
    exact array_text (ih ho hT hh (by cases hq with | slice h => exact h) ss rfl)
  case refine_11 =>
    intro c a o h t n e xs w h1 hb _ ih ho hT hh hq s hs
    obtain ⟨ss, rfl, rfl⟩ := map_ok hs
    exact array_text (ih ho hT hh (by cases hq with | array h => exact h) ss rfl)
  case refine_12 => intro c a o h t k e h1 hb ho hT hh hq s hs; cases hs; exact ⟨_, rfcText_value .null⟩
  case refine_13 =>
    intro c a o h t k e es w h1 hb _ ih ho hT hh hq s hs
    obtain ⟨ss, rfl, rfl⟩ := map_ok hs
    exact object_text (ih ho hT (by cases hq with | map h => exact h) ss rfl)
  case refine_14 => intro c a o h t i h1 hb ho hT hh hq s hs; cases hs; exact ⟨_, rfcText_value .null⟩
  case refine_15 =>
    intro c a o h t i t' v w h1 hb _ ih ho hT hh hq s hs
    exact ih ⟨rfl, rfl⟩ hD (by cases hq with | iface h => exact h) s hs
  case refine_16 =>
    intro c a o h t j cs fs w h1 hb hc _ ih ho hT hh hq s hs
    obtain ⟨ss, rfl, rfl⟩ := map_ok hs
    refine object_text (ih ho hT ?_ hq ss rfl)
    intro c hc'
    obtain ⟨j, f, h1, h2, h3, _, h4⟩ := resolve_from hc c hc'
    obtain ⟨q1, q2⟩ := hT j f h1 h2
    rw [h3, h4]; exact ⟨q1, q2⟩
  case refine_17 => intro c a o h t ho hT hh hq ss hs; cases hs; intro s hs; cases hs
  case refine_18 => intro c a o h t x xs f _ ih ho hT hh hq ss hs; cases hs
  case refine_19 =>
    intro c a o h t x xs s w _ _ ih1 ih2 ho hT hh hq ss hs
    obtain ⟨ss', rfl, rfl⟩ := map_ok hs
    intro s' hs'
    rcases List.mem_cons.1 hs' with rfl | hs'
    · exact ih1 ho hT hh (hq x List.mem_cons_self) _ rfl
    · exact ih2 ho hT hh (fun v hv => hq v (List.mem_cons_of_mem _ hv)) _ rfl s' hs'
  case refine_20 => intro c o k t ho hT hq ss hs; cases hs; intro s hs; cases hs
  case refine_21 => intro c o k t x y es f h1 ho hT hq ss hs; cases hs
  case refine_22 => intro c o k t x y es s f h1 _ ih ho hT hq ss hs; cases hs
  case refine_23 =>
    intro c o k t x y es s s' w h1 _ _ ih1 ih2 ho hT hq ss hs
    obtain ⟨ss', rfl, rfl⟩ := map_ok hs
    intro s'' hs'
    rcases List.mem_cons.1 hs' with rfl | hs'
    · obtain ⟨b, rfl, hb⟩ := keyText_json hM h1
      obtain ⟨j, hj⟩ := ih1 ho hT (by simp [Hint.none]) (hq (x, y) List.mem_cons_self) _ rfl
      exact ⟨b, s', j, by simp, hb, hj⟩
    · exact ih2 ho hT (fun v hv => hq v (List.mem_cons_of_mem _ hv)) _ rfl s'' hs'
  case refine_24 => intro a o v ho hT hc hq ss hs; cases hs; intro s hs; cases hs
  case refine_25 => intro a o v c cs w h1 _ ih ho hT hc hq ss hs; exact ih ho hT (fun c h => hc c (by simp [h])) hq ss hs
  case refine_26 => intro a o v c cs x h1 _ ho hT hc hq ss hs; cases hs
  case refine_27 => intro a o v c cs w x h1 _ _ ih ho hT hc hq ss hs; exact ih ho hT (fun c h => hc c (by simp [h])) hq ss hs
  case refine_28 => intro a o v c cs x f h1 _ _ ih ho hT hc hq ss hs; cases hs
  case refine_29 =>
    intro a o v c cs x s w h1 _ _ _ ih1 ih2 ho hT hc hq ss hs
    obtain ⟨ss', rfl, rfl⟩ := map_ok hs
    intro s'' hs'
    rcases List.mem_cons.1 hs' with rfl | hs'
    · obtain ⟨j, hj⟩ := ih1 ho hT (hc c (by simp)).2 (sub_allLeaf h1 hq) _ rfl
      exact ⟨c.key, s, j, rfl, (hc c (by simp)).1, hj⟩
    · exact ih2 ho hT (fun c h => hc c (by simp [h])) hq _ rfl s'' hs'
  case refine_30 => intro o t v h1 h2 h3 ho hT hq s hs; cases hs
  case refine_31 => intro o t e v h1 h2 h3 ho hT hq s hs; cases hs
  case refine_32 => intro o t e h1 h2 ho hT hq s hs; cases hs
  case refine_33 => intro o t e v m h1 h2 ho hT hq s hs; exact callMeth_json hM h2 hs
  case refine_34 =>
    intro o t e v w h1 h2 h3 _ ih ho hT hq s hs
    exact ih ho hT (by simp [Hint.none]) (by cases hq with | ptr h => exact h) s hs
  case refine_35 => intro o t v m h1 h2 ho hT hq s hs; exact callMeth_json hM h2 hs
  case refine_36 => intro o t v w h1 h2 h3 _ ih ho hT hq s hs; exact ih ho hT (by simp [Hint.none]) hq s hs

end Verif.Unjson
