import Verif.Proofs.GenDecRun
import Verif.Proofs.GenSort

/-! # The specification of generated `UnmarshalNodeJSON` methods determines the result -/

namespace Verif.Gen
open Verif Verif.Float Verif.Spec Verif.Njson Verif.Unjson

theorem picks_unique {E : Env} {o : GenOptions} {j : Nat} {p q : Pick} (hp : p ∈ unmarshalPicks E o j) (hq : q ∈ unmarshalPicks E o j)
    (h : p.name = q.name) : p = q := by
  have := firsts_nodup (eligible E o ((E.fields j).flatten.filter fun f => @decide (Can E.U f.typ) (Classical.propDecidable _)))
  exact List.inj_on_of_nodup_map this hp hq h

theorem not_um_time {E : Env} {t : Ty} (h : ¬ Unmarshals E t) (h' : E.isTime t = true) : False := h (.inl h')
theorem not_um_json {E : Env} {t : Ty} (h : ¬ Unmarshals E t) (h' : E.U.impl (.ptr t) .jsonUnmarshaler = true) : False :=
  h (.inr (.inr fun hn => by rw [hn.2.1] at h'; cases h'))
theorem not_um_text {E : Env} {t : Ty} (h : ¬ Unmarshals E t) (h' : E.U.impl (.ptr t) .textUnmarshaler = true) : False :=
  h (.inr (.inr fun hn => by rw [hn.2.2] at h'; cases h'))

/-- Closes the cases of two rules that do not apply at once. -/
local macro "apart" : tactic => `(tactic| first
  | exact ⟨rfl, rfl⟩
  | (exfalso; simp_all [Unmarshals, NoUnmarshal, jtyp, Univ.base]; done)
  | (simp_all [Unmarshals, NoUnmarshal, jtyp, Univ.base]; done))

set_option maxHeartbeats 1000000 in
theorem gdec_fun {E : Env} {o : GenOptions} {t : Ty} {v : GV} {j : JVal} {v1 v2 : GV} {e1 e2 : Option UErr} (h1 : GDec E o t v j v1 e1)
    (h2 : GDec E o t v j v2 e2) : v1 = v2 ∧ e1 = e2 := by
  revert v2 e2
  suffices h : ∀ v2 e2, GDec E o t v j v2 e2 → v1 = v2 ∧ e1 = e2 from fun {v2 e2} => h v2 e2
  refine GDec.rec (motive_1 := fun t v j v1 e1 _ => ∀ v2 e2, GDec E o t v j v2 e2 → v1 = v2 ∧ e1 = e2)
    (motive_2 := fun t arr js arr1 e1 _ => ∀ arr2 e2, GDecElems E o t arr js arr2 e2 → arr1 = arr2 ∧ e1 = e2)
    (motive_3 := fun k t es ms es1 e1 _ => ∀ es2 e2, GDecEntries E o k t es ms es2 e2 → es1 = es2 ∧ e1 = e2)
    (motive_4 := fun i v ms v1 e1 _ => ∀ v2 e2, GDecMembers E o i v ms v2 e2 → v1 = v2 ∧ e1 = e2)
    ?_ ?_ ?_ ?_ ?_ ?_ ?_ ?_ ?_ ?_ ?_ ?_ ?_ ?_ ?_ ?_ ?_ ?_ ?_ ?_ ?_ ?_ ?_ ?_ ?_ ?_ ?_ ?_ ?_ ?_ ?_ ?_ ?_ ?_ ?_ ?_ ?_ ?_ ?_ ?_ ?_ h1
  · intros; rename_i h2; cases h2 <;> apart
  · intros; rename_i h2; cases h2 <;> apart
  · intros; rename_i h2; cases h2 <;> apart
  · intros; rename_i h2; cases h2 <;> apart
  · intros; rename_i h2; cases h2 <;> apart
  · intros; rename_i h2; cases h2 <;> apart
  · intros; rename_i h2; cases h2 <;> apart
  · intros; rename_i h2; cases h2 <;> apart
  · intros; rename_i h2; cases h2 <;> apart
  · intros; rename_i h2; cases h2 <;> apart
  · intros; rename_i h2; cases h2 <;> apart
  · intros; rename_i h2; cases h2 <;> apart
  · intros; rename_i h2; cases h2 <;> apart
  · intros; rename_i h2; cases h2 <;> apart
  · intros; rename_i h2; cases h2 <;> apart
  · intros; rename_i h2; cases h2 <;> apart
  · intro _ _ _ _ _ _ hm hb hn _ ih v2 e2 h2
    cases h2 with
    | ptr _ hb2 _ h3 => rw [hb] at hb2; cases hb2; obtain ⟨rfl, rfl⟩ := ih _ _ h3; exact ⟨rfl, rfl⟩
    | _ => apart
  · intro _ _ _ _ _ hm hb hn _ ih v2 e2 h2
    cases h2 with
    | ptrNew _ hb2 _ h3 => rw [hb] at hb2; cases hb2; obtain ⟨rfl, rfl⟩ := ih _ _ h3; exact ⟨rfl, rfl⟩
    | _ => apart
  · intros; rename_i h2; cases h2 <;> apart
  · intros; rename_i h2; cases h2 <;> apart
  · intro _ _ _ _ _ hm hb hn _ ih v2 e2 h2
    cases h2 with
    | sliceNew _ hb2 _ h3 => rw [hb] at hb2; cases hb2; obtain ⟨rfl, rfl⟩ := ih _ _ h3; exact ⟨rfl, rfl⟩
    | _ => apart
  · intro _ _ _ _ _ _ _ hm hb hn _ ih v2 e2 h2
    cases h2 with
    | sliceFit _ hb2 _ h3 => rw [hb] at hb2; cases hb2; obtain ⟨rfl, rfl⟩ := ih _ _ h3; exact ⟨rfl, rfl⟩
    | sliceGrow _ _ h => exact absurd hn (by omega)
    | _ => apart
  · intro _ _ _ _ _ _ _ hm hb hn _ ih v2 e2 h2
    cases h2 with
    | sliceGrow _ hb2 _ h3 => rw [hb] at hb2; cases hb2; obtain ⟨rfl, rfl⟩ := ih _ _ h3; exact ⟨rfl, rfl⟩
    | sliceFit _ _ h => exact absurd hn (by omega)
    | _ => apart
  · intros; rename_i h2; cases h2 <;> apart
  · intros; rename_i h2; cases h2 <;> apart
  · intro _ _ _ _ _ _ _ hm hb _ ih v2 e2 h2
    cases h2 with
    | map _ hb2 h3 => rw [hb] at hb2; cases hb2; obtain ⟨rfl, rfl⟩ := ih _ _ h3; exact ⟨rfl, rfl⟩
    | _ => apart
  · intro _ _ _ _ _ _ hm hb _ ih v2 e2 h2
    cases h2 with
    | mapNew _ hb2 h3 => rw [hb] at hb2; cases hb2; obtain ⟨rfl, rfl⟩ := ih _ _ h3; exact ⟨rfl, rfl⟩
    | _ => apart
  · intros; rename_i h2; cases h2 <;> apart
  · intro _ _ _ _ _ hm _ ih v2 e2 h2
    cases h2 with
    | struct _ h3 => exact ih _ _ h3
    | _ => apart
  · intros; rename_i h2; cases h2 <;> apart
  · intros; rename_i h2; cases h2; exact ⟨rfl, rfl⟩
  · intro _ _ _ _ _ _ _ _ _ _ ih1 ih2 _ _ h2
    cases h2 with
    | cons h3 h4 => obtain ⟨rfl, -⟩ := ih1 _ _ h3; obtain ⟨rfl, rfl⟩ := ih2 _ _ h4; exact ⟨rfl, rfl⟩
    | fail h3 => cases (ih1 _ _ h3).2
  · intro _ _ _ _ _ _ _ _ ih _ _ h2
    cases h2 with
    | cons h3 h4 => cases (ih _ _ h3).2
    | fail h3 => obtain ⟨rfl, h⟩ := ih _ _ h3; cases h; exact ⟨rfl, rfl⟩
  · intros; rename_i h2; cases h2; exact ⟨rfl, rfl⟩
  · intro _ _ _ _ _ _ _ _ _ _ _ ih1 ih2 _ _ h2
    cases h2 with
    | cons h3 h4 => obtain ⟨rfl, -⟩ := ih1 _ _ h3; obtain ⟨rfl, rfl⟩ := ih2 _ _ h4; exact ⟨rfl, rfl⟩
    | fail h3 => cases (ih1 _ _ h3).2
  · intro _ _ _ _ _ _ _ _ _ ih _ _ h2
    cases h2 with
    | cons h3 h4 => cases (ih _ _ h3).2
    | fail h3 => obtain ⟨rfl, h⟩ := ih _ _ h3; cases h; exact ⟨rfl, rfl⟩
  · intros; rename_i h2; cases h2; exact ⟨rfl, rfl⟩
  · intro _ _ _ _ _ _ _ hu _ ih v2 e2 h2
    cases h2 with
    | unknown _ h3 => exact ih _ _ h3
    | raw hp => exact absurd rfl (hu _ hp)
    | cons hp => exact absurd rfl (hu _ hp)
    | fail hp => exact absurd rfl (hu _ hp)
  · intro i v p j ms x mk v' err hp hr hf _ ih v2 e2 h2
    generalize hk : p.name = key at h2
    cases h2 with
    | unknown hu => exact absurd hk (hu _ hp)
    | raw hq _ hg h3 =>
      obtain rfl := picks_unique hp hq hk
      rw [hf] at hg; cases hg
      exact ih _ _ h3
    | cons hq hr' => obtain rfl := picks_unique hp hq hk; exact absurd hr hr'
    | fail hq hr' => obtain rfl := picks_unique hp hq hk; exact absurd hr hr'
  · intro i v p j ms x mk y v' err hp hr hf _ _ ih1 ih2 v2 e2 h2
    generalize hk : p.name = key at h2
    cases h2 with
    | unknown hu => exact absurd hk (hu _ hp)
    | raw hq hr' => obtain rfl := picks_unique hp hq hk; exact absurd hr' hr
    | cons hq _ hg h3 h4 =>
      obtain rfl := picks_unique hp hq hk
      rw [hf] at hg; cases hg
      obtain ⟨rfl, -⟩ := ih1 _ _ h3
      exact ih2 _ _ h4
    | fail hq _ hg h3 =>
      obtain rfl := picks_unique hp hq hk
      rw [hf] at hg; cases hg
      cases (ih1 _ _ h3).2
  · intro i v p j ms x mk y err hp hr hf _ ih v2 e2 h2
    generalize hk : p.name = key at h2
    cases h2 with
    | unknown hu => exact absurd hk (hu _ hp)
    | raw hq hr' => obtain rfl := picks_unique hp hq hk; exact absurd hr' hr
    | cons hq _ hg h3 h4 =>
      obtain rfl := picks_unique hp hq hk
      rw [hf] at hg; cases hg
      cases (ih _ _ h3).2
    | fail hq _ hg h3 =>
      obtain rfl := picks_unique hp hq hk
      rw [hf] at hg; cases hg
      obtain ⟨rfl, h⟩ := ih _ _ h3
      cases h
      exact ⟨rfl, rfl⟩

end Verif.Gen
