import Verif.Proofs.GenDecFun

/-! # Generated `UnmarshalNodeJSON` methods either return or panic -/

namespace Verif.Gen
open Verif Verif.Float Verif.Spec Verif.Njson Verif.Unjson

/-- Closes the cases of two rules that do not apply at once. -/
local macro "apart" : tactic => `(tactic| first
  | (exfalso; simp_all [Unmarshals, NoUnmarshal, jtyp, Univ.base]; done)
  | (exfalso; simp_all [Unmarshals, NoUnmarshal, jtyp, Univ.base]; omega))

theorem elems_len {E : Env} {o : GenOptions} {t : Ty} {arr : List GV} {js : List JVal} (h : UPanicsElems E o t arr js) : js ≠ [] := by
  cases h <;> simp

set_option maxHeartbeats 1000000 in
theorem panics_not_gdec {E : Env} {o : GenOptions} {t : Ty} {v : GV} {j : JVal} (h : UPanics E o t v j) : ∀ y err, ¬ GDec E o t v j y err := by
  refine UPanics.rec (motive_1 := fun t v j _ => ∀ y err, ¬ GDec E o t v j y err)
    (motive_2 := fun t arr js _ => ∀ arr' err, ¬ GDecElems E o t arr js arr' err)
    (motive_3 := fun t ms _ => ∀ k es es' err, ¬ GDecEntries E o k t es ms es' err)
    (motive_4 := fun i v ms _ => ∀ v' err, ¬ GDecMembers E o i v ms v' err)
    ?_ ?_ ?_ ?_ ?_ ?_ ?_ ?_ ?_ ?_ ?_ ?_ ?_ ?_ ?_ ?_ ?_ h
  · intros; intro h2; cases h2 <;> apart
  · intros; intro h2; cases h2 <;> apart
  · intro t e v j hm hb hn _ ih y err h2
    cases h2 with
    | ptr _ hb2 _ h3 => rw [hb] at hb2; cases hb2; exact ih _ _ h3
    | _ => apart
  · intro t e j hm hb hn _ ih y err h2
    cases h2 with
    | ptrNew _ hb2 _ h3 => rw [hb] at hb2; cases hb2; exact ih _ _ h3
    | _ => apart
  · intro t e js hm hb hp ih y err h2
    cases h2 with
    | sliceNew _ hb2 _ h3 => rw [hb] at hb2; cases hb2; exact ih _ _ h3
    | sliceNil => exact elems_len hp rfl
    | _ => apart
  · intro t e arr len js hm hb hl _ ih y err h2
    cases h2 with
    | sliceFit _ hb2 _ h3 => rw [hb] at hb2; cases hb2; exact ih _ _ h3
    | sliceGrow _ _ h3 => omega
    | _ => apart
  · intro t e arr len js hm hb hl _ ih y err h2
    cases h2 with
    | sliceGrow _ hb2 _ h3 => rw [hb] at hb2; cases hb2; exact ih _ _ h3
    | sliceFit _ _ h3 => omega
    | _ => apart
  · intro t k e v ms hm hb _ ih y err h2
    cases h2 with
    | map _ hb2 h3 => rw [hb] at hb2; cases hb2; exact ih _ _ _ _ h3
    | mapNew _ hb2 h3 => rw [hb] at hb2; cases hb2; exact ih _ _ _ _ h3
    | _ => apart
  · intro j v ms hm _ ih y err h2
    cases h2 with
    | struct _ h3 => exact ih _ _ h3
    | _ => apart
  · intro t x arr j js _ ih arr' err h2
    cases h2 with
    | cons h3 => exact ih _ _ h3
    | fail h3 => exact ih _ _ h3
  · intro t x arr j js y hd _ ih arr' err h2
    cases h2 with
    | cons _ h3 => exact ih _ _ h3
    | fail h3 => have := (gdec_fun hd h3).2; cases this
  · intro t key j ms _ ih k es es' err h2
    cases h2 with
    | cons h3 => exact ih _ _ h3
    | fail h3 => exact ih _ _ h3
  · intro t key j ms y hd _ ih k es es' err h2
    cases h2 with
    | cons _ h3 => exact ih _ _ _ _ h3
    | fail h3 => have := (gdec_fun hd h3).2; cases this
  · intro i v key j ms hu _ ih v' err h2
    cases h2 with
    | unknown _ h3 => exact ih _ _ h3
    | raw hp => exact hu _ hp rfl
    | cons hp => exact hu _ hp rfl
    | fail hp => exact hu _ hp rfl
  · intro i v p j ms x mk hp hr hf _ ih v' err h2
    generalize hk : p.name = key at h2
    cases h2 with
    | unknown hu => exact hu _ hp hk
    | raw hq _ hf2 h3 => cases picks_unique hp hq hk; rw [hf] at hf2; cases hf2; exact ih _ _ h3
    | cons hq hr2 => cases picks_unique hp hq hk; exact hr2 hr
    | fail hq hr2 => cases picks_unique hp hq hk; exact hr2 hr
  · intro i v p j ms x mk hp hr hf _ ih v' err h2
    generalize hk : p.name = key at h2
    cases h2 with
    | unknown hu => exact hu _ hp hk
    | raw hq hr2 => cases picks_unique hp hq hk; exact hr hr2
    | cons hq _ hf2 h3 => cases picks_unique hp hq hk; rw [hf] at hf2; cases hf2; exact ih _ _ h3
    | fail hq _ hf2 h3 => cases picks_unique hp hq hk; rw [hf] at hf2; cases hf2; exact ih _ _ h3
  · intro i v p j ms x mk y hp hr hf hd _ ih v' err h2
    generalize hk : p.name = key at h2
    cases h2 with
    | unknown hu => exact hu _ hp hk
    | raw hq hr2 => cases picks_unique hp hq hk; exact hr hr2
    | cons hq _ hf2 h3 h4 =>
      cases picks_unique hp hq hk; rw [hf] at hf2; cases hf2
      cases (gdec_fun hd h3).1
      exact ih _ _ h4
    | fail hq _ hf2 h3 => cases picks_unique hp hq hk; rw [hf] at hf2; cases hf2; have := (gdec_fun hd h3).2; cases this

end Verif.Gen
