import Verif.Spec.GenIgnore
import Verif.Proofs.GenDecFun

namespace Verif.Gen
open Verif Verif.Float Verif.Spec Verif.Njson Verif.Unjson

/-- The rule `same`, or the type is not one that is taken care of otherwise. -/
theorem GSameRead.special {E : Env} {o : GenOptions} {t : Ty} {j j' : JVal} (h : GSameRead E o t j j') (hu : Unmarshals E t) : j' = j := by
  cases h with
  | same => rfl
  | ptr h | slice h | map h | struct h => exact absurd hu h

theorem GSameRead.shape {E : Env} {o : GenOptions} : ∀ {t : Ty} {j j' : JVal}, GSameRead E o t j j' →
    jtyp j' = jtyp j ∧ jraw j' = jraw j ∧ (j' = .null ↔ j = .null)
  | _, _, _, .same => ⟨rfl, rfl, Iff.rfl⟩
  | _, _, _, .ptr _ _ h => h.shape
  | _, _, _, .slice .. => by simp [jtyp, jraw]
  | _, _, _, .map .. => by simp [jtyp, jraw]
  | _, _, _, .struct .. => by simp [jtyp, jraw]

theorem GSameRead.bool {E : Env} {o : GenOptions} {b : Bool} : ∀ {t : Ty} {j j' : JVal}, GSameRead E o t j j' → j = .bool b → j' = .bool b
  | _, _, _, .same, h => h
  | _, _, _, .ptr _ _ h, hj => h.bool hj
theorem GSameRead.str {E : Env} {o : GenOptions} {b : Bytes} : ∀ {t : Ty} {j j' : JVal}, GSameRead E o t j j' → j = .str b → j' = .str b
  | _, _, _, .same, h => h
  | _, _, _, .ptr _ _ h, hj => h.str hj

theorem GSameElems.length {E : Env} {o : GenOptions} : ∀ {t : Ty} {xs ys : List JVal}, GSameElems E o t xs ys → ys.length = xs.length
  | _, _, _, .nil => rfl
  | _, _, _, .cons _ h => by simp [h.length]

theorem gmembers_step {E : Env} {o : GenOptions} {i : Nat} {k : Bytes} {x : JVal} {ms : List (Bytes × JVal)} {v v' : GV} {err : Option UErr}
    (hl : (∀ p ∈ unmarshalPicks E o i, p.name ≠ k) → ∀ ns, GSameMembers E o i ms ns → GDecMembers E o i v ns v' err)
    (hb : ∀ y ns, (∀ p ∈ unmarshalPicks E o i, p.name = k → GSameRead E o p.field.typ x y) → GSameMembers E o i ms ns → GDecMembers E o i v ((k, y) :: ns) v' err) :
    ∀ {ns}, GSameMembers E o i ((k, x) :: ms) ns → GDecMembers E o i v ns v' err
  | [], h => by
    generalize hz : (k, x) :: ms = zs at h
    generalize hw : ([] : List (Bytes × JVal)) = ws at h
    cases h with
    | nil => cases hz
    | left hk h => cases hz; cases hw; exact hl hk _ h
    | right => cases hw
    | both => cases hw
  | (k', y) :: ns, h => by
    cases h with
    | left hk h => exact hl hk _ h
    | right hk h => exact .unknown hk (gmembers_step hl hb h)
    | both hk h => exact hb _ _ hk h

theorem gmembers_nil {E : Env} {o : GenOptions} {i : Nat} {v : GV} : ∀ {ns}, GSameMembers E o i [] ns → GDecMembers E o i v ns v none
  | [], _ => .nil
  | (k', y) :: ns, h => by
    cases h with
    | right hk h => exact .unknown hk (gmembers_nil h)

theorem gdec_ignore {E : Env} {o : GenOptions} {t : Ty} {v : GV} {j : JVal} {y : GV} {err : Option UErr} (h : GDec E o t v j y err) :
    ∀ j', GSameRead E o t j j' → GDec E o t v j' y err := by
  have hU : ∀ {t j j'}, GSameRead E o t j j' → Unmarshals E t → ∀ {v y err}, GDec E o t v j y err → GDec E o t v j' y err := by
    intro t j j' hs hu v y err h
    rw [hs.special hu]; exact h
  have hm : ∀ {t}, E.U.impl (.ptr t) .jsonUnmarshaler = true → Unmarshals E t := fun h => by_contra fun hn => not_um_json hn h
  have hx : ∀ {t}, E.U.impl (.ptr t) .textUnmarshaler = true → Unmarshals E t := fun h => by_contra fun hn => not_um_text hn h
  refine GDec.rec (motive_1 := fun t v j y err _ => ∀ j', GSameRead E o t j j' → GDec E o t v j' y err)
    (motive_2 := fun t arr js arr' err _ => ∀ js', GSameElems E o t js js' → GDecElems E o t arr js' arr' err)
    (motive_3 := fun k t es ms es' err _ => ∀ ns, GSameEntries E o t ms ns → GDecEntries E o k t es ns es' err)
    (motive_4 := fun i v ms v' err _ => ∀ ns, GSameMembers E o i ms ns → GDecMembers E o i v ns v' err)
    ?time ?timeErr ?json ?text ?textErr ?bool ?boolErr ?str ?strOther ?int ?intErr ?uint ?uintErr ?float ?floatErr ?ptrNull ?ptr ?ptrNew
    ?sliceNull ?sliceNil ?sliceNew ?sliceFit ?sliceGrow ?sliceErr ?mapNull ?map ?mapNew ?mapErr ?struct ?structErr ?enil ?econs ?efail
    ?mnil ?mcons ?mfail ?snil ?sunknown ?sraw ?scons ?sfail h
  case time => intro t v j y h1 h2 j' hs; exact hU hs (.inl h1) (.time h1 h2)
  case timeErr => intro t v j h1 h2 j' hs; exact hU hs (.inl h1) (.timeErr h1 h2)
  case json => intro t v j r h1 h2 h3 h4 h5 h6 j' hs; exact hU hs (hm h4) (.json h1 h2 h3 h4 h5 h6)
  case text => intro t v s r h1 h2 h3 h4 h5 h6 h7 j' hs; exact hU hs (hx h5) (.text h1 h2 h3 h4 h5 h6 h7)
  case textErr => intro t v j h1 h2 h3 h4 h5 h6 j' hs; exact hU hs (hx h5) (.textErr h1 h2 h3 h4 h5 h6)
  case bool => intro t v b h1 h2 j' hs; rw [hs.bool rfl]; exact .bool h1 h2
  case boolErr =>
    intro t v j h1 h2 h3 j' hs
    rw [← hs.shape.1] at h3 ⊢; exact .boolErr h1 h2 h3
  case str => intro t v s h1 h2 j' hs; rw [hs.str rfl]; exact .str h1 h2
  case strOther => intro t v j h1 h2 h3 j' hs; rw [← hs.shape.1] at h3; exact .strOther h1 h2 h3
  case int => intro t k v j h1 h2 h3 j' hs; rw [← hs.shape.2.1] at h3 ⊢; exact .int h1 h2 h3
  case intErr => intro t k v j h1 h2 h3 j' hs; rw [← hs.shape.2.1] at h3; rw [← hs.shape.1]; exact .intErr h1 h2 h3
  case uint => intro t k v j h1 h2 h3 j' hs; rw [← hs.shape.2.1] at h3 ⊢; exact .uint h1 h2 h3
  case uintErr => intro t k v j h1 h2 h3 j' hs; rw [← hs.shape.2.1] at h3; rw [← hs.shape.1]; exact .uintErr h1 h2 h3
  case float => intro t k v j h1 h2 h3 j' hs; rw [← hs.shape.2.1] at h3 ⊢; exact .float h1 h2 h3
  case floatErr => intro t k v j h1 h2 h3 j' hs; rw [← hs.shape.2.1] at h3; rw [← hs.shape.1]; exact .floatErr h1 h2 h3
  case ptrNull => intro t e v h1 h2 j' hs; rw [hs.shape.2.2.2 rfl]; exact .ptrNull h1 h2
  case ptr =>
    intro t e v j y err h1 hb hj _ ih j' hs
    refine .ptr h1 hb (fun h => hj (hs.shape.2.2.1 h)) (ih j' ?_)
    cases hs with
    | same => exact .same
    | ptr _ h h' => rw [hb] at h; cases h; exact h'
    | slice _ h | map _ h => rw [hb] at h; cases h
    | struct => cases hb
  case ptrNew =>
    intro t e j y err h1 hb hj _ ih j' hs
    refine .ptrNew h1 hb (fun h => hj (hs.shape.2.2.1 h)) (ih j' ?_)
    cases hs with
    | same => exact .same
    | ptr _ h h' => rw [hb] at h; cases h; exact h'
    | slice _ h | map _ h => rw [hb] at h; cases h
    | struct => cases hb
  case sliceNull => intro t e v h1 h2 j' hs; rw [hs.shape.2.2.2 rfl]; exact .sliceNull h1 h2
  case sliceNil =>
    intro t e h1 hb j' hs
    cases hs with
    | same => exact .sliceNil h1 hb
    | slice _ h h' => cases h'; exact .sliceNil h1 hb
    | ptr _ h => rw [hb] at h; cases h
  case sliceNew =>
    intro t e js arr err h1 hb hj hd ih j' hs
    cases hs with
    | same => exact .sliceNew h1 hb hj hd
    | slice _ h h' =>
      rw [hb] at h; cases h
      have hl := h'.length
      rw [← hl]
      exact .sliceNew h1 hb (fun h => hj (by subst h; exact List.eq_nil_of_length_eq_zero hl.symm)) (by rw [hl]; exact ih _ h')
    | ptr _ h => rw [hb] at h; cases h
  case sliceFit =>
    intro t e arr len js arr' err h1 hb hj hd ih j' hs
    cases hs with
    | same => exact .sliceFit h1 hb hj hd
    | slice _ h h' =>
      rw [hb] at h; cases h
      rw [← h'.length]
      exact .sliceFit h1 hb (by rw [h'.length]; exact hj) (ih _ h')
    | ptr _ h => rw [hb] at h; cases h
  case sliceGrow =>
    intro t e arr len js arr' err h1 hb hj hd ih j' hs
    cases hs with
    | same => exact .sliceGrow h1 hb hj hd
    | slice _ h h' =>
      rw [hb] at h; cases h
      have hl := h'.length
      rw [← hl]
      exact .sliceGrow h1 hb (by rw [hl]; exact hj) (by rw [hl]; exact ih _ h')
    | ptr _ h => rw [hb] at h; cases h
  case sliceErr =>
    intro t e v j h1 hb h3 h4 j' hs
    rw [← hs.shape.1] at h3 h4 ⊢; exact .sliceErr h1 hb h3 h4
  case mapNull => intro t k e v h1 h2 j' hs; rw [hs.shape.2.2.2 rfl]; exact .mapNull h1 h2
  case map =>
    intro t k e es ms es' err h1 hb hd ih j' hs
    cases hs with
    | same => exact .map h1 hb hd
    | map _ h h' => rw [hb] at h; cases h; exact .map h1 hb (ih _ h')
    | ptr _ h => rw [hb] at h; cases h
    | struct => cases hb
  case mapNew =>
    intro t k e ms es' err h1 hb hd ih j' hs
    cases hs with
    | same => exact .mapNew h1 hb hd
    | map _ h h' => rw [hb] at h; cases h; exact .mapNew h1 hb (ih _ h')
    | ptr _ h => rw [hb] at h; cases h
    | struct => cases hb
  case mapErr =>
    intro t k e v j h1 hb h3 h4 j' hs
    rw [← hs.shape.1] at h3 h4 ⊢; exact .mapErr h1 hb h3 h4
  case struct =>
    intro j v ms v' err h1 hd ih j' hs
    cases hs with
    | same => exact .struct h1 hd
    | struct _ h' => exact .struct h1 (ih _ h')
    | ptr _ h => cases h
    | map _ h => cases h
  case structErr =>
    intro j v jv h1 h2 j' hs
    rw [← hs.shape.1] at h2 ⊢; exact .structErr h1 h2
  case enil => intro t arr js' hs; cases hs; exact .nil
  case econs =>
    intro t x arr j js y arr' err _ _ ih ih' js' hs
    cases hs with | cons h h' => exact .cons (ih _ h) (ih' _ h')
  case efail =>
    intro t x arr j js y err _ ih js' hs
    cases hs with | cons h h' => exact .fail (ih _ h)
  case mnil => intro k t es ns hs; cases hs; exact .nil
  case mcons =>
    intro k t es key j ms y es' err _ _ ih ih' ns hs
    cases hs with | cons h h' => exact .cons (ih _ h) (ih' _ h')
  case mfail =>
    intro k t es key j ms y err _ ih ns hs
    cases hs with | cons h h' => exact .fail (ih _ h)
  case snil => intro i v ns hs; exact gmembers_nil hs
  case sunknown =>
    intro i v key j ms v' err hk _ ih ns hs
    exact gmembers_step (fun _ ns h => ih ns h) (fun y ns _ h => .unknown hk (ih ns h)) hs
  case sraw =>
    intro i v p j ms x mk v' err hp hr hf _ ih ns hs
    exact gmembers_step (fun hk => absurd rfl (hk _ hp)) (fun y ns hy h => .raw hp hr hf (by rw [(hy p hp rfl).shape.2.1]; exact ih ns h)) hs
  case scons =>
    intro i v p j ms x mk y v' err hp hr hf _ _ ih ih' ns hs
    exact gmembers_step (fun hk => absurd rfl (hk _ hp)) (fun y ns hy h => .cons hp hr hf (ih _ (hy p hp rfl)) (ih' ns h)) hs
  case sfail =>
    intro i v p j ms x mk y err hp hr hf _ ih ns hs
    exact gmembers_step (fun hk => absurd rfl (hk _ hp)) (fun y ns hy h => .fail hp hr hf (ih _ (hy p hp rfl))) hs

/-- The relation is symmetric. -/
theorem GSameRead.symm {E : Env} {o : GenOptions} {t : Ty} {j j' : JVal} (h : GSameRead E o t j j') : GSameRead E o t j' j := by
  refine GSameRead.rec (motive_1 := fun t j j' _ => GSameRead E o t j' j) (motive_2 := fun t xs ys _ => GSameElems E o t ys xs)
    (motive_3 := fun t ms ns _ => GSameEntries E o t ns ms) (motive_4 := fun i ms ns _ => GSameMembers E o i ns ms)
    ?_ ?_ ?_ ?_ ?_ ?_ ?_ ?_ ?_ ?_ ?_ ?_ ?_ h
  · intro t j; exact .same
  · intro t e j j' h1 h2 _ ih; exact .ptr h1 h2 ih
  · intro t e xs ys h1 h2 _ ih; exact .slice h1 h2 ih
  · intro t k e ms ns h1 h2 _ ih; exact .map h1 h2 ih
  · intro j ms ns h1 _ ih; exact .struct h1 ih
  · intro t; exact .nil
  · intro t x y xs ys _ _ ih1 ih2; exact .cons ih1 ih2
  · intro t; exact .nil
  · intro t k x y ms ns _ _ ih1 ih2; exact .cons ih1 ih2
  · intro i; exact .nil
  · intro i k x ms ns h1 _ ih; exact .right h1 ih
  · intro i k y ms ns h1 _ ih; exact .left h1 ih
  · intro i k x y ms ns _ _ ih1 ih2; exact .both ih1 ih2

end Verif.Gen
