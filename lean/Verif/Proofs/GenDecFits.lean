import Verif.Proofs.GenDecFun
import Verif.Proofs.GenDecRun

/-! # Which trees are accepted by generated UnmarshalNodeJSON methods -/

namespace Verif.Gen
open Verif Verif.Float Verif.Spec Verif.Njson Verif.Unjson

section
variable {E : Env} {o : GenOptions} {A : Ty → JVal → Prop} {t : Ty} {j : JVal} (hu : ¬ Unmarshals E t)
include hu

theorem fits_bool (hb : E.U.base t = .bool) : GFits E o A t j ↔ jtyp j = tBoolean := by
  constructor
  · intro h
    cases h with
    | special h => exact absurd h hu
    | bool => rfl
    | struct => cases hb
    | _ _ h => rw [hb] at h; cases h
  · intro h; obtain ⟨b, rfl⟩ := jtyp_bool h; exact .bool hu hb
theorem fits_int {k} (hb : E.U.base t = .int k) : GFits E o A t j ↔ (NumJson.parseInt (jraw j)).2 = true := by
  refine ⟨fun h => ?_, .int hu hb⟩
  cases h with
  | special h => exact absurd h hu
  | int _ _ h => exact h
  | struct => cases hb
  | _ _ h => rw [hb] at h; cases h
theorem fits_uint {k} (hb : E.U.base t = .uint k) : GFits E o A t j ↔ (NumJson.parseUint (jraw j)).2 = true := by
  refine ⟨fun h => ?_, .uint hu hb⟩
  cases h with
  | special h => exact absurd h hu
  | uint _ _ h => exact h
  | struct => cases hb
  | _ _ h => rw [hb] at h; cases h
theorem fits_float {k} (hb : E.U.base t = .float k) : GFits E o A t j ↔ NumJson.parseFloat (jraw j) ≠ .nan := by
  refine ⟨fun h => ?_, .float hu hb⟩
  cases h with
  | special h => exact absurd h hu
  | float _ _ h => exact h
  | struct => cases hb
  | _ _ h => rw [hb] at h; cases h
theorem fits_ptr {e} (hb : E.U.base t = .ptr e) : GFits E o A t j ↔ j = .null ∨ j ≠ .null ∧ GFits E o A e j := by
  constructor
  · intro h
    cases h with
    | special h => exact absurd h hu
    | ptrNull => exact .inl rfl
    | ptr _ hb2 h1 h2 => rw [hb] at hb2; cases hb2; exact .inr ⟨h1, h2⟩
    | struct => cases hb
    | _ _ h => rw [hb] at h; cases h
  · rintro (rfl | ⟨h1, h2⟩)
    · exact .ptrNull hu hb
    · exact .ptr hu hb h1 h2
theorem fits_slice {e} (hb : E.U.base t = .slice e) : GFits E o A t j ↔ j = .null ∨ ∃ js, j = .arr js ∧ ∀ j ∈ js, GFits E o A e j := by
  constructor
  · intro h
    cases h with
    | special h => exact absurd h hu
    | sliceNull => exact .inl rfl
    | slice _ hb2 h2 => rw [hb] at hb2; cases hb2; exact .inr ⟨_, rfl, h2⟩
    | struct => cases hb
    | _ _ h => rw [hb] at h; cases h
  · rintro (rfl | ⟨js, rfl, h2⟩)
    · exact .sliceNull hu hb
    · exact .slice hu hb h2
theorem fits_map {k e} (hb : E.U.base t = .map k e) : GFits E o A t j ↔ j = .null ∨ ∃ ms, j = .obj ms ∧ ∀ m ∈ ms, GFits E o A e m.2 := by
  constructor
  · intro h
    cases h with
    | special h => exact absurd h hu
    | mapNull => exact .inl rfl
    | map _ hb2 h2 => rw [hb] at hb2; cases hb2; exact .inr ⟨_, rfl, h2⟩
    | struct => cases hb
    | _ _ h => rw [hb] at h; cases h
  · rintro (rfl | ⟨js, rfl, h2⟩)
    · exact .mapNull hu hb
    · exact .map hu hb h2
omit hu in
theorem fits_struct {i : Nat} (hu : ¬ Unmarshals E (.struct i)) : GFits E o A (.struct i) j ↔ ∃ ms, j = .obj ms ∧
    ∀ m ∈ ms, ∀ p ∈ unmarshalPicks E o i, p.name = m.1 → ¬ RawString E.U p → GFits E o A p.field.typ m.2 := by
  constructor
  · intro h
    cases h with
    | special h => exact absurd h hu
    | struct _ h2 => exact ⟨_, rfl, h2⟩
    | _ _ h => cases h
  · rintro ⟨js, rfl, h2⟩
    exact .struct hu h2
end

theorem gdec_fits {E : Env} {o : GenOptions} {A : Ty → JVal → Prop}
    (hA : ∀ t v j y err, Unmarshals E t → GDec E o t v j y err → (err = none ↔ A t j))
    {t : Ty} {v : GV} {j : JVal} {y : GV} {err : Option UErr} (h : GDec E o t v j y err) : err = none ↔ GFits E o A t j := by
  have hS : ∀ {t v j y err}, Unmarshals E t → GDec E o t v j y err → (err = none ↔ GFits E o A t j) := by
    intro t v j y err hu hd
    rw [hA t v j y err hu hd]
    constructor
    · exact .special hu
    · intro h
      cases h <;> first | assumption | contradiction
  refine GDec.rec
    (motive_1 := fun t v j y err _ => err = none ↔ GFits E o A t j)
    (motive_2 := fun t arr js arr' err _ => err = none ↔ ∀ j ∈ js, GFits E o A t j)
    (motive_3 := fun k t es ms es' err _ => err = none ↔ ∀ m ∈ ms, GFits E o A t m.2)
    (motive_4 := fun i v ms v' err _ => err = none ↔ ∀ m ∈ ms, ∀ p ∈ unmarshalPicks E o i, p.name = m.1 → ¬ RawString E.U p → GFits E o A p.field.typ m.2)
    ?_ ?_ ?_ ?_ ?_ ?_ ?_ ?_ ?_ ?_ ?_ ?_ ?_ ?_ ?_ ?_ ?_ ?_ ?_ ?_ ?_ ?_ ?_ ?_ ?_ ?_ ?_ ?_ ?_ ?_ ?_ ?_ ?_ ?_ ?_ ?_ ?_ ?_ ?_ ?_ ?_ h
  · intro t v j y h1 h2; exact hS (.inl h1) (.time (v := v) h1 h2)
  · intro t v j h1 h2; exact hS (.inl h1) (.timeErr (v := v) h1 h2)
  · intro t v j r h1 h2 h3 h4 h5 h6; exact hS (.inr (.inr fun h => by rw [h.2.1] at h4; cases h4)) (.json (v := v) h1 h2 h3 h4 h5 h6)
  · intro t v s r h1 h2 h3 h4 h5 h6 h7; exact hS (.inr (.inr fun h => by rw [h.2.2] at h5; cases h5)) (.text (v := v) h1 h2 h3 h4 h5 h6 h7)
  · intro t v j h1 h2 h3 h4 h5 h6; exact hS (.inr (.inr fun h => by rw [h.2.2] at h5; cases h5)) (.textErr (v := v) h1 h2 h3 h4 h5 h6)
  · intro t v b h1 h2; simp only [true_iff]; exact .bool h1 h2
  · intro t v j h1 h2 h3; rw [fits_bool h1 h2]; simpa using h3
  · intro t v s h1 h2; simp only [true_iff]; exact .string h1 h2
  · intro t v j h1 h2 h3; simp only [true_iff]; exact .string h1 h2
  · intro t k v j h1 h2 h3; rw [fits_int h1 h2]; simpa using h3
  · intro t k v j h1 h2 h3; rw [fits_int h1 h2]; simpa using h3
  · intro t k v j h1 h2 h3; rw [fits_uint h1 h2]; simpa using h3
  · intro t k v j h1 h2 h3; rw [fits_uint h1 h2]; simpa using h3
  · intro t k v j h1 h2 h3; rw [fits_float h1 h2]; simpa using h3
  · intro t k v j h1 h2 h3; rw [fits_float h1 h2]; simpa using h3
  · intro t e v h1 h2; rw [fits_ptr h1 h2]; simp
  · intro t e v j y err h1 h2 h3 _ ih; rw [fits_ptr h1 h2, ih]; simp [h3]
  · intro t e j y err h1 h2 h3 _ ih; rw [fits_ptr h1 h2, ih]; simp [h3]
  · intro t e v h1 h2; rw [fits_slice h1 h2]; simp
  · intro t e h1 h2; rw [fits_slice h1 h2]; simp
  · intro t e js arr err h1 h2 _ _ ih; rw [fits_slice h1 h2, ih]; simp
  · intro t e arr len js arr' err h1 h2 _ _ ih; rw [fits_slice h1 h2, ih]; simp
  · intro t e arr len js arr' err h1 h2 _ _ ih; rw [fits_slice h1 h2, ih]; simp
  · intro t e v j h1 h2 h3 h4; rw [fits_slice h1 h2]
    simp only [reduceCtorEq, false_iff]
    rintro (rfl | ⟨js, rfl, -⟩)
    · exact h4 rfl
    · exact h3 rfl
  · intro t k e v h1 h2; rw [fits_map h1 h2]; simp
  · intro t k e es ms es' err h1 h2 _ ih; rw [fits_map h1 h2, ih]; simp
  · intro t k e ms es' err h1 h2 _ ih; rw [fits_map h1 h2, ih]; simp
  · intro t k e v j h1 h2 h3 h4; rw [fits_map h1 h2]
    simp only [reduceCtorEq, false_iff]
    rintro (rfl | ⟨js, rfl, -⟩)
    · exact h4 rfl
    · exact h3 rfl
  · intro j v ms v' err h1 _ ih; rw [fits_struct h1, ih]; simp
  · intro j v jv h1 h2; rw [fits_struct h1]
    simp only [reduceCtorEq, false_iff]
    rintro ⟨ms, rfl, -⟩
    exact h2 rfl
  · simp
  · intro t x arr j js y arr' err _ _ ih1 ih2; rw [ih2, List.forall_mem_cons]; simp [ih1.1 rfl]
  · intro t x arr j js y err _ ih; rw [List.forall_mem_cons, ← ih]; simp
  · simp
  · intro k t es key j ms y es' err _ _ ih1 ih2; rw [ih2, List.forall_mem_cons]; simp [ih1.1 rfl]
  · intro k t es key j ms y err _ ih; rw [List.forall_mem_cons, ← ih]; simp
  · simp
  · intro i v key j ms v' err h1 _ ih; rw [ih, List.forall_mem_cons]
    exact ⟨fun h => ⟨fun p hp hn => absurd hn (h1 p hp), h⟩, fun h => h.2⟩
  · intro i v p j ms x mk v' err h1 h2 _ _ ih; rw [ih, List.forall_mem_cons]
    exact ⟨fun h => ⟨fun q hq hn hr => absurd (picks_unique hq h1 hn ▸ h2) hr, h⟩, fun h => h.2⟩
  · intro i v p j ms x mk y v' err h1 h2 _ _ _ ih1 ih2; rw [ih2, List.forall_mem_cons]
    exact ⟨fun h => ⟨fun q hq hn hr => picks_unique hq h1 hn ▸ ih1.1 rfl, h⟩, fun h => h.2⟩
  · intro i v p j ms x mk y err h1 h2 _ _ ih; rw [List.forall_mem_cons]
    simp only [reduceCtorEq, false_iff]
    rintro ⟨h, -⟩
    exact absurd (ih.2 (h p h1 rfl h2)) (by simp)

end Verif.Gen
