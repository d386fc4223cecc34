import Verif.Proofs.GenDecKeep
import Verif.Proofs.GenDecRun

/-! # Generated UnmarshalNodeJSON methods keep types, and fields that are not in the object -/

namespace Verif.Gen
open Verif Verif.Float Verif.Spec Verif.Njson Verif.Unjson

theorem hook_typed {E : Env} (hH : UHooks E) {m : Meth} {t : Ty} {v : GV} {s : Bytes} {r : GV × Bool} (hi : E.U.impl (.ptr t) m = true)
    (hr : E.U.unmarshal m (.ptr t) (.ptr v) s = r) (hv : HasTy E.U t v) : HasTy E.U t (pointee v r.1) := by
  obtain ⟨y, b, h1, h2⟩ := hH.method m t v s hi hv
  rw [h1] at hr; subst hr
  exact h2

theorem gdec_typed {E : Env} (hE : E.Ok) (hH : UHooks E) {o : GenOptions} {t : Ty} {v : GV} {j : JVal} {y : GV} {err : Option UErr}
    (h : GDec E o t v j y err) : ∀ lit, UCompiles E o lit t → HasTy E.U t v → HasTy E.U t y ∧
      ∀ i ms, t = .struct i → ¬ Unmarshals E t → j = .obj ms → ∀ q z, (∀ p ∈ unmarshalPicks E o i, p.name ∈ ms.map Prod.fst → Apart p.field.path q) →
        getPath v q = some z → getPath y q = some z := by
  have hU := hE.univ
  refine GDec.rec
    (motive_1 := fun t v j y err _ => ∀ lit, UCompiles E o lit t → HasTy E.U t v → HasTy E.U t y ∧
      ∀ i ms, t = .struct i → ¬ Unmarshals E t → j = .obj ms → ∀ q z, (∀ p ∈ unmarshalPicks E o i, p.name ∈ ms.map Prod.fst → Apart p.field.path q) →
        getPath v q = some z → getPath y q = some z)
    (motive_2 := fun t arr js arr' err _ => UCompiles E o true t → (∀ x ∈ arr, HasTy E.U t x) → arr'.length = arr.length ∧ ∀ x ∈ arr', HasTy E.U t x)
    (motive_3 := fun k t es ms es' err _ => UCompiles E o true t → (k = .string ∨ ∃ i, E.U.base k = .iface 0 i) → (∀ p ∈ es, HasTy E.U k p.1) →
      (∀ p ∈ es, HasTy E.U t p.2) → (∀ p ∈ es', HasTy E.U k p.1) ∧ ∀ p ∈ es', HasTy E.U t p.2)
    (motive_4 := fun i v ms v' err _ => (∀ p ∈ unmarshalPicks E o i, ¬ RawString E.U p → UCompiles E o true p.field.typ) → HasTy E.U (.struct i) v →
      HasTy E.U (.struct i) v' ∧ ∀ q z, (∀ p ∈ unmarshalPicks E o i, p.name ∈ ms.map Prod.fst → Apart p.field.path q) →
        getPath v q = some z → getPath v' q = some z)
    ?_ ?_ ?_ ?_ ?_ ?_ ?_ ?_ ?_ ?_ ?_ ?_ ?_ ?_ ?_ ?_ ?_ ?_ ?_ ?_ ?_ ?_ ?_ ?_ ?_ ?_ ?_ ?_ ?_ ?_ ?_ ?_ ?_ ?_ ?_ ?_ ?_ ?_ ?_ ?_ ?_ h
  · intro t v j y h1 h2 lit hc hv; exact ⟨hH.time _ _ _ h1 h2, fun i ms _ hn => absurd (.inl h1) hn⟩
  · intro t v j h1 h2 lit hc hv; exact ⟨hv, fun i ms _ hn => absurd (.inl h1) hn⟩
  · intro t v j r h1 h2 h3 h4 _ h5 lit hc hv
    exact ⟨hook_typed hH h4 h5 hv, fun i ms _ hn => absurd (.inr (.inr fun h => by rw [h.2.1] at h4; cases h4)) hn⟩
  · intro t v s r h1 h2 h3 h4 h5 _ h6 lit hc hv
    exact ⟨hook_typed hH h5 h6 hv, fun i ms _ hn => absurd (.inr (.inr fun h => by rw [h.2.2] at h5; cases h5)) hn⟩
  · intro t v j h1 h2 h3 h4 h5 h6 lit hc hv
    exact ⟨hv, fun i ms _ hn => absurd (.inr (.inr fun h => by rw [h.2.2] at h5; cases h5)) hn⟩
  · intro t v b h1 h2 lit hc hv; exact ⟨.bool h2, fun i ms h => by subst h; cases h2⟩
  · intro t v j h1 h2 _ lit hc hv; exact ⟨hv, fun i ms h => by subst h; cases h2⟩
  · intro t v s h1 h2 lit hc hv; exact ⟨.str h2, fun i ms h => by subst h; cases h2⟩
  · intro t v j h1 h2 _ lit hc hv; exact ⟨.str h2, fun i ms h => by subst h; cases h2⟩
  · intro t k v j h1 h2 _ lit hc hv; exact ⟨.int h2 (wrapInt_range _ _).1 (wrapInt_range _ _).2, fun i ms h => by subst h; cases h2⟩
  · intro t k v j h1 h2 _ lit hc hv; exact ⟨hv, fun i ms h => by subst h; cases h2⟩
  · intro t k v j h1 h2 _ lit hc hv; exact ⟨.uint h2 (wrapUint_range _ _), fun i ms h => by subst h; cases h2⟩
  · intro t k v j h1 h2 _ lit hc hv; exact ⟨hv, fun i ms h => by subst h; cases h2⟩
  · intro t k v j h1 h2 _ lit hc hv; exact ⟨.float h2, fun i ms h => by subst h; cases h2⟩
  · intro t k v j h1 h2 _ lit hc hv; exact ⟨hv, fun i ms h => by subst h; cases h2⟩
  · intro t e v h1 h2 lit hc hv; exact ⟨.nilPtr h2, fun i ms h => by subst h; cases h2⟩
  · intro t e v j y err h1 h2 _ _ ih lit hc hv
    refine ⟨?_, fun i ms h => by subst h; cases h2⟩
    rcases hv.inv_ptr h2 with h | ⟨w, h, hw⟩ <;> cases h
    exact .ptr h2 (ih _ (hc.inv_ptr h1 h2).1 hw).1
  · intro t e j y err h1 h2 _ _ ih lit hc hv
    exact ⟨.ptr h2 (ih _ (hc.inv_ptr h1 h2).1 (hasTy_zero hU e)).1, fun i ms h => by subst h; cases h2⟩
  · intro t e v h1 h2 lit hc hv; exact ⟨.nilSlice h2, fun i ms h => by subst h; cases h2⟩
  · intro t e h1 h2 lit hc hv; exact ⟨.nilSlice h2, fun i ms h => by subst h; cases h2⟩
  · intro t e js arr err h1 h2 _ _ ih lit hc hv
    obtain ⟨g1, g2⟩ := ih (hc.inv_slice h1 h2).1 (fun x hx => by rw [(List.mem_replicate.1 hx).2]; exact hasTy_zero hU e)
    exact ⟨.slice h2 (by rw [g1]; simp) g2, fun i ms h => by subst h; cases h2⟩
  · intro t e arr len js arr' err h1 h2 h3 _ ih lit hc hv
    rcases hv.inv_slice h2 with h | ⟨_, _, h, _, hh⟩ <;> cases h
    obtain ⟨g1, g2⟩ := ih (hc.inv_slice h1 h2).1 hh
    exact ⟨.slice h2 (by rw [g1]; exact h3) g2, fun i ms h => by subst h; cases h2⟩
  · intro t e arr len js arr' err h1 h2 _ _ ih lit hc hv
    obtain ⟨g1, g2⟩ := ih (hc.inv_slice h1 h2).1 (fun x hx => by rw [(List.mem_replicate.1 hx).2]; exact hasTy_zero hU e)
    exact ⟨.slice h2 (by rw [g1]; simp) g2, fun i ms h => by subst h; cases h2⟩
  · intro t e v j h1 h2 _ _ lit hc hv; exact ⟨hv, fun i ms h => by subst h; cases h2⟩
  · intro t k e v h1 h2 lit hc hv; exact ⟨.nilMap h2, fun i ms h => by subst h; cases h2⟩
  · intro t k e es ms es' err h1 h2 _ ih lit hc hv
    obtain ⟨c1, -, c2⟩ := hc.inv_map h1 h2
    rcases hv.inv_map h2 with h | ⟨_, h, g1, g2⟩ <;> cases h
    obtain ⟨g1, g2⟩ := ih c1 c2 g1 g2
    exact ⟨.map h2 g1 g2, fun i ms h => by subst h; cases h2⟩
  · intro t k e ms es' err h1 h2 _ ih lit hc hv
    obtain ⟨c1, -, c2⟩ := hc.inv_map h1 h2
    obtain ⟨g1, g2⟩ := ih c1 c2 (by simp) (by simp)
    exact ⟨.map h2 g1 g2, fun i ms h => by subst h; cases h2⟩
  · intro t k e v j h1 h2 _ _ lit hc hv; exact ⟨hv, fun i ms h => by subst h; cases h2⟩
  · intro j v ms v' err h1 _ ih lit hc hv
    obtain ⟨g1, g2⟩ := ih (fun p hp => (hc.inv_struct h1 p hp).1) hv
    refine ⟨g1, fun i ms' h _ hm => ?_⟩
    cases h; cases hm
    exact g2
  · intro j v jv h1 h2 lit hc hv
    refine ⟨hv, fun i ms _ _ h => ?_⟩
    subst h
    exact absurd rfl h2
  · intro t arr _ h; exact ⟨rfl, h⟩
  · intro t x arr j js y arr' err _ _ ih1 ih2 hc h
    rw [List.forall_mem_cons] at h
    obtain ⟨g1, g2⟩ := ih2 hc h.2
    exact ⟨by simp [g1], List.forall_mem_cons.2 ⟨(ih1 _ hc h.1).1, g2⟩⟩
  · intro t x arr j js y err _ ih1 hc h
    rw [List.forall_mem_cons] at h
    exact ⟨by simp, List.forall_mem_cons.2 ⟨(ih1 _ hc h.1).1, h.2⟩⟩
  · intro k t es _ _ h1 h2; exact ⟨h1, h2⟩
  · intro k t es key j ms y es' err _ _ ih1 ih2 hc hk h1 h2
    refine ih2 hc hk (fun p hp => ?_) (fun p hp => ?_)
    · rcases putEntry_mem hp with ⟨h, -⟩ | h
      · rw [h]; exact entryKey_hasTy hk key
      · exact h1 p h
    · rcases putEntry_mem hp with ⟨-, h⟩ | h
      · rw [h]; exact (ih1 _ hc (hasTy_zero hU t)).1
      · exact h2 p h
  · intro k t es key j ms y err _ _ _ _ h1 h2; exact ⟨h1, h2⟩
  · intro i v _ hv; exact ⟨hv, fun _ _ _ h => h⟩
  · intro i v key j ms v' err h1 _ ih hc hv
    obtain ⟨g1, g2⟩ := ih hc hv
    exact ⟨g1, fun q z ha hz => g2 q z (fun p hp hn => ha p hp (List.mem_cons_of_mem _ hn)) hz⟩
  · intro i v p j ms x mk v' err h1 h2 h3 _ ih hc hv
    obtain ⟨x', mk', hs⟩ := focus_spec hU (hE.path i _ (mem_unmarshalPicks h1).1) hv
    rw [hs.found] at h3; cases h3
    obtain ⟨g1, g2⟩ := ih hc (hs.keeps _ (.str h2.2))
    exact ⟨g1, fun q z ha hz => g2 q z (fun p hp hn => ha p hp (List.mem_cons_of_mem _ hn)) (hs.other _ _ _ (ha p h1 List.mem_cons_self) hz)⟩
  · intro i v p j ms x mk y v' err h1 h2 h3 _ _ ih1 ih2 hc hv
    obtain ⟨x', mk', hs⟩ := focus_spec hU (hE.path i _ (mem_unmarshalPicks h1).1) hv
    rw [hs.found] at h3; cases h3
    obtain ⟨g1, g2⟩ := ih2 hc (hs.keeps _ (ih1 _ (hc p h1 h2) hs.typed).1)
    exact ⟨g1, fun q z ha hz => g2 q z (fun p hp hn => ha p hp (List.mem_cons_of_mem _ hn)) (hs.other _ _ _ (ha p h1 List.mem_cons_self) hz)⟩
  · intro i v p j ms x mk y err h1 h2 h3 _ ih1 hc hv
    obtain ⟨x', mk', hs⟩ := focus_spec hU (hE.path i _ (mem_unmarshalPicks h1).1) hv
    rw [hs.found] at h3; cases h3
    exact ⟨hs.keeps _ (ih1 _ (hc p h1 h2) hs.typed).1, fun q z ha hz => hs.other _ _ _ (ha p h1 List.mem_cons_self) hz⟩

end Verif.Gen
