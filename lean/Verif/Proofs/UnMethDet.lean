import Verif.Proofs.UnReject

/-! # The specification with methods describes one outcome -/

namespace Verif.Unjson
open Verif Verif.Float Verif.Spec Verif.Njson

theorem OmitCustom.no {U : Univ} {name : Bytes} {a : Bool} {t : Ty} {v : GV} {b : Option Bool} (h : OmitCustom U name a t v b) : ¬ NoOmit U name t := by
  rintro ⟨h1, h2, h3⟩
  cases h with
  | own _ h => rw [h1] at h; cases h
  | nilPtr _ hb h => rw [h2 _ hb] at h; cases h
  | pointee _ hb h => rw [h2 _ hb] at h; cases h
  | pointer _ hb h => rw [h3 hb] at h; cases h

theorem omitCustom_one {U : Univ} {name : Bytes} {a : Bool} {t : Ty} {v : GV} {b b' : Option Bool} (h : OmitCustom U name a t v b)
    (h' : OmitCustom U name a t v b') : b = b' := by
  cases h <;> (generalize hb : b' = r at h'; cases h' <;> simp_all)

theorem omitVal_one {U : Univ} {name : Bytes} {a : Bool} {t : Ty} {v : GV} {b : Option Bool} (h : OmitVal U name a t v b) :
    ∀ {b'}, OmitVal U name a t v b' → b = b' := by
  refine OmitVal.rec (motive_1 := fun t v b _ => ∀ {b'}, OmitVal U name a t v b' → b = b')
    (motive_2 := fun t xs b _ => ∀ {b'}, OmitVals U name a t xs b' → b = b') ?_ ?_ ?_ ?_ ?_ ?_ ?_ ?_ h
  case refine_1 =>
    intro t v b h b' h'
    cases h' with
    | custom h' => exact omitCustom_one h h'
    | plain hn => exact absurd hn h.no
    | array hn => exact absurd hn h.no
    | iface hn => exact absurd hn h.no
  case refine_2 =>
    intro t v hn h1 h2 b' h'
    cases h' with
    | custom h' => exact absurd hn h'.no
    | plain => rfl
    | array _ hb => exact absurd hb (h1 _ _)
    | iface _ hb hne => exact absurd (h2 _ _ hb) hne
  case refine_3 =>
    intro t n e xs b hn hb _ ih b' h'
    cases h' with
    | custom h' => exact absurd hn h'.no
    | plain _ h1 => exact absurd hb (h1 _ _)
    | array _ hb' h2 => rw [hb] at hb'; cases hb'; exact ih h2
    | iface _ hb' => rw [hb] at hb'; cases hb'
  case refine_4 =>
    intro t n i v hn hb hne b' h'
    cases h' with
    | custom h' => exact absurd hn h'.no
    | plain _ _ h2 => exact absurd (h2 _ _ hb) hne
    | array _ hb' => rw [hb] at hb'; cases hb'
    | iface => rfl
  case refine_5 => intro t b' h'; cases h'; rfl
  case refine_6 =>
    intro t x xs _ ih b' h'
    cases h' with
    | no => rfl
    | panic h1 => cases ih h1
    | yes h1 => cases ih h1
  case refine_7 =>
    intro t x xs _ ih b' h'
    cases h' with
    | no h1 => cases ih h1
    | panic => rfl
    | yes h1 => cases ih h1
  case refine_8 =>
    intro t x xs b _ _ ih1 ih2 b' h'
    cases h' with
    | no h1 => cases ih1 h1
    | panic h1 => cases ih1 h1
    | yes _ h2 => exact ih2 h2

theorem omitsM_one {U : Univ} {o : Options} {a : Bool} {c : Cand} {v : GV} {b : Option Bool} (h : OmitsM U o a c v b) :
    ∀ {b'}, OmitsM U o a c v b' → b = b' := by
  refine OmitsM.rec (motive_1 := fun a c v b _ => ∀ {b'}, OmitsM U o a c v b' → b = b')
    (motive_2 := fun a cs v b _ => ∀ {b'}, OmitsAllM U o a cs v b' → b = b') ?_ ?_ ?_ ?_ ?_ ?_ ?_ ?_ ?_ h
  case refine_1 => intro a c x h b' h'; cases h' <;> simp_all
  case refine_2 =>
    intro a c x b h h1 h2 b' h'
    cases h' with
    | keep h' => rw [h] at h'; cases h'
    | value _ _ h3 => exact omitVal_one h2 h3
    | custom _ hb hm =>
      rcases h1 with h1 | h1
      · exact absurd hb (h1 _)
      · exact absurd hm h1
    | struct _ hb hm =>
      rcases h1 with h1 | h1
      · exact absurd hb (h1 _)
      · exact absurd hm h1
  case refine_3 =>
    intro a c x j b h hb hm h1 b' h'
    cases h' with
    | keep h' => rw [h] at h'; cases h'
    | value _ h2 _ =>
      rcases h2 with h2 | h2
      · exact absurd hb (h2 _)
      · exact absurd hm h2
    | custom _ _ _ h2 => exact omitCustom_one h1 h2
    | struct _ _ _ hn => exact absurd hn h1.no
  case refine_4 =>
    intro a c x j cs b h hb hm hn hc _ ih b' h'
    cases h' with
    | keep h' => rw [h] at h'; cases h'
    | value _ h2 _ =>
      rcases h2 with h2 | h2
      · exact absurd hb (h2 _)
      · exact absurd hm h2
    | custom _ _ _ h2 => exact absurd hn h2.no
    | struct _ hb' _ _ hc' h2 =>
      rw [hb] at hb'; cases hb'
      cases cands_det hc hc'
      exact ih h2
  case refine_5 => intro a v b' h'; cases h'; rfl
  case refine_6 =>
    intro a c cs v b h _ ih b' h'
    cases h' with
    | absent _ h2 => exact ih h2
    | no h1 => rw [h] at h1; cases h1
    | panic h1 => rw [h] at h1; cases h1
    | yes h1 => rw [h] at h1; cases h1
  case refine_7 =>
    intro a c cs v x h _ ih b' h'
    cases h' with
    | absent h1 => rw [h] at h1; cases h1
    | no => rfl
    | panic h1 h2 => rw [h] at h1; cases h1; cases ih h2
    | yes h1 h2 => rw [h] at h1; cases h1; cases ih h2
  case refine_8 =>
    intro a c cs v x h _ ih b' h'
    cases h' with
    | absent h1 => rw [h] at h1; cases h1
    | no h1 h2 => rw [h] at h1; cases h1; cases ih h2
    | panic => rfl
    | yes h1 h2 => rw [h] at h1; cases h1; cases ih h2
  case refine_9 =>
    intro a c cs v x b h _ _ ih1 ih2 b' h'
    cases h' with
    | absent h1 => rw [h] at h1; cases h1
    | no h1 h2 => rw [h] at h1; cases h1; cases ih1 h2
    | panic h1 h2 => rw [h] at h1; cases h1; cases ih1 h2
    | yes _ _ h3 => exact ih2 h3

/-- An outcome is the only one of an argument. -/
theorem wArg_one {U : Univ} {o : Options} {t : Ty} {v : GV} {w : Except Fail Bytes} (h : WArg U o t v w) : ∀ {w'}, WArg U o t v w' → w = w' := by
  refine WArg.rec
    (motive_1 := fun c a o h t v w _ => ∀ {w'}, Writes U c a o h t v w' → w = w')
    (motive_2 := fun c a o h t xs w _ => ∀ {w'}, WElems U c a o h t xs w' → w = w')
    (motive_3 := fun c o k t es w _ => ∀ {w'}, WEntries U c o k t es w' → w = w')
    (motive_4 := fun a o v cs w _ => ∀ {w'}, WFields U a o v cs w' → w = w')
    (motive_5 := fun o t v w _ => ∀ {w'}, WArg U o t v w' → w = w')
    ?_ ?_ ?_ ?_ ?_ ?_ ?_ ?_ ?_ ?_ ?_ ?_ ?_ ?_ ?_ ?_ ?_ ?_ ?_ ?_ ?_ ?_ ?_ ?_ ?_ ?_ ?_ ?_ ?_ ?_ ?_ ?_ ?_ ?_ ?_ ?_ h
  case refine_1 => intro c a o h t v m h1 w' h'; cases h' <;> simp_all
  case refine_2 => intro c a o h t b h1 hb w' h'; cases h' <;> simp_all
  case refine_3 => intro c a o h t k b h1 hb w' h'; cases h' <;> simp_all
  case refine_4 => intro c a o h t k b h1 hb w' h'; cases h' <;> simp_all
  case refine_5 => intro c a o h t k b h1 hb w' h'; cases h' <;> simp_all
  case refine_6 => intro c a o h t b h1 hb w' h'; cases h' <;> simp_all
  case refine_7 => intro c a o h t e h1 hb w' h'; cases h' <;> simp_all
  case refine_8 =>
    intro c a o h t e v w h1 hb _ ih w' h'
    cases h' with
    | meth h2 => rw [h1] at h2; cases h2
    | ptr _ hb' h2 => rw [hb] at hb'; cases hb'; exact ih h2
  case refine_9 => intro c a o h t e h1 hb w' h'; cases h' <;> simp_all
  case refine_10 =>
    intro c a o h t e arr len w h1 hb _ ih w' h'
    cases h' with
    | meth h2 => rw [h1] at h2; cases h2
    | slice _ hb' h2 => rw [hb] at hb'; cases hb'; rw [ih h2]
  case refine_11 =>
    intro c a o h t n e xs w h1 hb _ ih w' h'
    cases h' with
    | meth h2 => rw [h1] at h2; cases h2
    | array _ hb' h2 => rw [hb] at hb'; cases hb'; rw [ih h2]
  case refine_12 => intro c a o h t k e h1 hb w' h'; cases h' <;> simp_all
  case refine_13 =>
    intro c a o h t k e es w h1 hb _ ih w' h'
    cases h' with
    | meth h2 => rw [h1] at h2; cases h2
    | map _ hb' h2 => rw [hb] at hb'; cases hb'; rw [ih h2]
  case refine_14 => intro c a o h t i h1 hb w' h'; cases h' <;> simp_all
  case refine_15 =>
    intro c a o h t i t' v w h1 hb _ ih w' h'
    cases h' with
    | meth h2 => rw [h1] at h2; cases h2
    | iface _ hb' h2 => exact ih h2
  case refine_16 =>
    intro c a o h t j cs fs w h1 hb hc _ ih w' h'
    cases h' with
    | meth h2 => rw [h1] at h2; cases h2
    | struct _ hb' hc' h2 =>
      rw [hb] at hb'; cases hb'
      cases cands_det hc hc'
      rw [ih h2]
  case refine_17 => intro c a o h t w' h'; cases h'; rfl
  case refine_18 =>
    intro c a o h t x xs f _ ih w' h'
    cases h' with
    | stop h1 => cases ih h1; rfl
    | cons h1 => cases ih h1
  case refine_19 =>
    intro c a o h t x xs s w _ _ ih1 ih2 w' h'
    cases h' with
    | stop h1 => cases ih1 h1
    | cons h1 h2 => cases ih1 h1; rw [ih2 h2]
  case refine_20 => intro c o k t w' h'; cases h'; rfl
  case refine_21 =>
    intro c o k t x y es f h1 w' h'
    cases h' with
    | key h2 => rw [h1] at h2; cases h2; rfl
    | stop h2 => rw [h1] at h2; cases h2
    | cons h2 => rw [h1] at h2; cases h2
  case refine_22 =>
    intro c o k t x y es s f h1 _ ih w' h'
    cases h' with
    | key h2 => rw [h1] at h2; cases h2
    | stop _ h2 => cases ih h2; rfl
    | cons _ h2 => cases ih h2
  case refine_23 =>
    intro c o k t x y es s s' w h1 _ _ ih1 ih2 w' h'
    cases h' with
    | key h2 => rw [h1] at h2; cases h2
    | stop _ h2 => cases ih1 h2
    | cons h0 h2 h3 => rw [h1] at h0; cases h0; cases ih1 h2; rw [ih2 h3]
  case refine_24 => intro a o v w' h'; cases h'; rfl
  case refine_25 =>
    intro a o v c cs w h1 _ ih w' h'
    cases h' with
    | absent _ h2 => exact ih h2
    | omitPanic h2 => rw [h1] at h2; cases h2
    | omitted h2 => rw [h1] at h2; cases h2
    | stop h2 => rw [h1] at h2; cases h2
    | present h2 => rw [h1] at h2; cases h2
  case refine_26 =>
    intro a o v c cs x h1 ho w' h'
    cases h' with
    | absent h2 => rw [h1] at h2; cases h2
    | omitPanic => rfl
    | omitted h2 ho' => rw [h1] at h2; cases h2; cases omitsM_one ho ho'
    | stop h2 ho' => rw [h1] at h2; cases h2; cases omitsM_one ho ho'
    | present h2 ho' => rw [h1] at h2; cases h2; cases omitsM_one ho ho'
  case refine_27 =>
    intro a o v c cs w x h1 ho _ ih w' h'
    cases h' with
    | absent h2 => rw [h1] at h2; cases h2
    | omitPanic h2 ho' => rw [h1] at h2; cases h2; cases omitsM_one ho ho'
    | omitted _ _ h2 => exact ih h2
    | stop h2 ho' => rw [h1] at h2; cases h2; cases omitsM_one ho ho'
    | present h2 ho' => rw [h1] at h2; cases h2; cases omitsM_one ho ho'
  case refine_28 =>
    intro a o v c cs x f h1 ho _ ih w' h'
    cases h' with
    | absent h2 => rw [h1] at h2; cases h2
    | omitPanic h2 ho' => rw [h1] at h2; cases h2; cases omitsM_one ho ho'
    | omitted h2 ho' => rw [h1] at h2; cases h2; cases omitsM_one ho ho'
    | stop h2 _ h3 => rw [h1] at h2; cases h2; cases ih h3; rfl
    | present h2 _ h3 => rw [h1] at h2; cases h2; cases ih h3
  case refine_29 =>
    intro a o v c cs x s w h1 ho _ _ ih1 ih2 w' h'
    cases h' with
    | absent h2 => rw [h1] at h2; cases h2
    | omitPanic h2 ho' => rw [h1] at h2; cases h2; cases omitsM_one ho ho'
    | omitted h2 ho' => rw [h1] at h2; cases h2; cases omitsM_one ho ho'
    | stop h2 _ h3 => rw [h1] at h2; cases h2; cases ih1 h3
    | present h2 _ h3 h4 => rw [h1] at h2; cases h2; cases ih1 h3; rw [ih2 h4]
  case refine_30 => intro o t v h1 h2 h3 w' h'; cases h' <;> simp_all
  case refine_31 => intro o t e v h1 h2 h3 w' h'; cases h' <;> simp_all
  case refine_32 => intro o t e h1 h2 w' h'; cases h' <;> simp_all
  case refine_33 => intro o t e v m h1 h2 w' h'; cases h' <;> simp_all
  case refine_34 =>
    intro o t e v w h1 h2 h3 _ ih w' h'
    cases h' with
    | invalid h4 => exact absurd h1 (h4 _)
    | ptrInvalid h4 _ h5 => rw [h1] at h4; cases h4; exact absurd h5 h3
    | ptrMeth _ h4 => rw [h2] at h4; cases h4
    | ptr h4 _ _ h5 => rw [h1] at h4; cases h4; exact ih h5
    | meth h4 => exact absurd h1 (h4 _)
    | value h4 => exact absurd h1 (h4 _)
  case refine_35 => intro o t v m h1 h2 w' h'; cases h' <;> simp_all
  case refine_36 =>
    intro o t v w h1 h2 h3 _ ih w' h'
    cases h' with
    | invalid _ _ h4 => exact absurd h4 h3
    | ptrInvalid h4 => exact absurd h4 (h1 _)
    | nilPtr h4 => exact absurd h4 (h1 _)
    | ptrMeth h4 => exact absurd h4 (h1 _)
    | ptr h4 => exact absurd h4 (h1 _)
    | meth _ h4 => rw [h2] at h4; cases h4
    | value _ _ _ h4 => exact ih h4

end Verif.Unjson
