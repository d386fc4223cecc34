import Verif.Spec.GenUAgain
import Verif.Proofs.GenDecTyped
import Verif.Proofs.GenDecFun
import Verif.Proofs.UnOrder
import Verif.Proofs.GenRun

/-! # Generated UnmarshalNodeJSON applied again -/

namespace Verif.Gen
open Verif Verif.Float Verif.Spec Verif.Njson Verif.Unjson

/-! ## Zero values have no slices with elements -/

theorem filled_zero {U : Univ} (hU : U.Ok) {v : GV} (h : Filled v) : ∀ t, v ≠ U.zero t := by
  induction h with
  | here _ => intro t e; rw [zero_base hU] at e; cases hb : U.base t <;> rw [hb] at e <;> simp [Univ.zero, hU.zero_struct] at e; exact absurd hb (base_not_named hU _ _)
  | elem _ _ _ => intro t e; rw [zero_base hU] at e; cases hb : U.base t <;> rw [hb] at e <;> simp [Univ.zero, hU.zero_struct] at e; exact absurd hb (base_not_named hU _ _)
  | ptr _ _ => intro t e; rw [zero_base hU] at e; cases hb : U.base t <;> rw [hb] at e <;> simp [Univ.zero, hU.zero_struct] at e; exact absurd hb (base_not_named hU _ _)
  | struct hx _ ih =>
    intro t e
    rw [zero_base hU] at e
    cases hb : U.base t <;> rw [hb] at e <;> simp [Univ.zero, hU.zero_struct] at e
    · subst e
      obtain ⟨f, _, rfl⟩ := List.mem_map.1 hx
      exact ih _ rfl
    · exact absurd hb (base_not_named hU _ _)

theorem not_filled_zero {U : Univ} (hU : U.Ok) (t : Ty) : ¬ Filled (U.zero t) := fun h => filled_zero hU h t rfl

/-! ## Fields -/

/-- What is seen in a value without such slices is without such slices. -/
theorem seen_not_filled {U : Univ} (hU : U.Ok) : ∀ {p : List Nat} {t tt : Ty} {v x : GV}, pathTy U t p = some tt → HasTy U t v → ¬ Filled v →
    seenAt U t v p = some x → ¬ Filled x := by
  intro p
  induction p with
  | nil => intro t tt v x _ _ hn h; cases h; exact hn
  | cons i is ih =>
    intro t tt v x hp hv hn h
    rw [pathTy] at hp
    obtain ⟨t', hf, hp⟩ := Option.bind_eq_some_iff.1 hp
    obtain ⟨j, f, p, fs, z, h1, rfl, h3, h4, h5, h6, h7, h8⟩ := open_struct hU hf hv
    rw [seenAt_step h5, h1, h3] at h
    refine ih hp h4 (fun hz => ?_) h
    have hm := List.mem_of_getElem? h3
    have hw : Filled (wrapS p fs) := by
      unfold wrapS
      split
      · exact .ptr (.struct hm hz)
      · exact .struct hm hz
    rcases h8 with rfl | ⟨e, _, rfl, he⟩
    · exact hn hw
    · rw [he] at hw
      cases hw with
      | ptr h => exact not_filled_zero hU e h

/-- What can be read at a path can be put there again, and nothing changes. -/
theorem focus_get {U : Univ} (hU : U.Ok) : ∀ {p : List Nat} {t tt : Ty} {v x : GV}, pathTy U t p = some tt → HasTy U t v → getPath v p = some x →
    ∃ mk, focus U t v p = some (x, mk) ∧ mk x = v := by
  intro p
  induction p with
  | nil => intro t tt v x _ _ h; cases h; exact ⟨id, rfl, rfl⟩
  | cons i is ih =>
    intro t tt v x hp hv h
    rw [pathTy] at hp
    obtain ⟨t', hf, hp⟩ := Option.bind_eq_some_iff.1 hp
    obtain ⟨j, f, p, fs, z, h1, rfl, h3, h4, h5, h6, h7, h8⟩ := open_struct hU hf hv
    rcases h8 with rfl | ⟨e, hb, rfl, -⟩
    · rw [getPath_wrap, h3] at h
      obtain ⟨mk, g1, g2⟩ := ih hp h4 h
      refine ⟨fun y => wrapS p (fs.set i (mk y)), by rw [focus_step h5 h1 h3, g1]; rfl, ?_⟩
      simp only [g2]
      obtain ⟨hlt, rfl⟩ := List.getElem?_eq_some_iff.1 h3
      rw [List.set_getElem_self]
    · cases h

/-! ## Entries -/

theorem putEntry_same {k y : GV} : ∀ {es : List (GV × GV)}, EntryAt es k y → putEntry k y es = es
  | (k', x) :: es, h => by
    cases h with
    | head => simp [putEntry]
    | tail hk h => rw [putEntry, if_neg hk, putEntry_same h]

theorem putEntry_at {k y : GV} : ∀ {es : List (GV × GV)}, EntryAt (putEntry k y es) k y
  | [] => .head
  | (k', x) :: es => by
    rw [putEntry]
    split
    · exact .head
    · rename_i h; exact .tail h putEntry_at

theorem putEntry_other {k y k2 x : GV} (hk : k ≠ k2) : ∀ {es : List (GV × GV)}, EntryAt es k2 x → EntryAt (putEntry k y es) k2 x
  | (k', x') :: es, h => by
    rw [putEntry]
    split
    · rename_i h'; subst h'
      cases h with
      | head => exact absurd rfl hk
      | tail _ h => exact .tail hk h
    · cases h with
      | head => exact .head
      | tail hn h => exact .tail hn (putEntry_other hk h)

theorem entryKey_inj {U : Univ} {k : Ty} {a b : Bytes} (h : entryKey U k a = entryKey U k b) : a = b := by
  unfold entryKey at h
  split at h <;> cases h <;> rfl

theorem gentries_keep {E : Env} {o : GenOptions} {k t : Ty} {key : Bytes} {x : GV} : ∀ {ms : List (Bytes × JVal)} {es es' : List (GV × GV)} {err : Option UErr},
    GDecEntries E o k t es ms es' err → key ∉ ms.map Prod.fst → EntryAt es (entryKey E.U k key) x → EntryAt es' (entryKey E.U k key) x
  | [], _, _, _, h, _, hx => by cases h; exact hx
  | (k', j) :: ms, _, _, _, h, hn, hx => by
    rw [List.map_cons, List.mem_cons, not_or] at hn
    cases h with
    | cons _ h => exact gentries_keep h hn.2 (putEntry_other (fun h => hn.1 (entryKey_inj h).symm) hx)
    | fail _ => exact hx

theorem gentries_again {E : Env} {o : GenOptions} {k t : Ty} : ∀ {ms : List (Bytes × JVal)} {es es' : List (GV × GV)} {err : Option UErr},
    GDecEntries E o k t es ms es' err → (ms.map Prod.fst).Nodup → GDecEntries E o k t es' ms es' err
  | [], _, _, _, h, _ => by cases h; exact .nil
  | (k', j) :: ms, _, _, _, h, hn => by
    rw [List.map_cons, List.nodup_cons] at hn
    cases h with
    | cons h1 h =>
      refine .cons h1 ?_
      rw [putEntry_same (gentries_keep h hn.1 putEntry_at)]
      exact gentries_again h hn.2
    | fail h => exact .fail h

/-! ## All -/

theorem NamesOnce.elems {xs : List JVal} (h : NamesOnce (.arr xs)) : ∀ x ∈ xs, NamesOnce x := by cases h with | arr h => exact h
theorem NamesOnce.members {ms : List (Bytes × JVal)} (h : NamesOnce (.obj ms)) : (ms.map Prod.fst).Nodup ∧ ∀ m ∈ ms, NamesOnce m.2 := by
  cases h with | obj h1 h2 => exact ⟨h1, h2⟩

/-- What is decoded once more leaves everything as it is. -/
theorem gdec_again {E : Env} (hE : E.Ok) (hH : UHooks E) (hA : UMethodsAgain E) {o : GenOptions} (hF : FieldsApart E o) {t : Ty} {v : GV} {j : JVal} {y : GV}
    {err : Option UErr} (h : GDec E o t v j y err) : ∀ lit, UCompiles E o lit t → HasTy E.U t v → ¬ Filled v → NamesOnce j → GDec E o t y j y err := by
  have hU := hE.univ
  refine GDec.rec
    (motive_1 := fun t v j y err _ => ∀ lit, UCompiles E o lit t → HasTy E.U t v → ¬ Filled v → NamesOnce j → GDec E o t y j y err)
    (motive_2 := fun t arr js arr' err _ => UCompiles E o true t → (∀ x ∈ arr, HasTy E.U t x) → (∀ x ∈ arr, ¬ Filled x) → (∀ j ∈ js, NamesOnce j) →
      arr'.length = arr.length ∧ GDecElems E o t arr' js arr' err)
    (motive_3 := fun k t es ms es' err _ => (ms.map Prod.fst).Nodup → GDecEntries E o k t es' ms es' err)
    (motive_4 := fun i v ms v' err _ => (∀ p ∈ unmarshalPicks E o i, ¬ RawString E.U p → UCompiles E o true p.field.typ) → HasTy E.U (.struct i) v →
      (∀ p ∈ unmarshalPicks E o i, p.name ∈ ms.map Prod.fst → ∀ x, seenAt E.U (.struct i) v p.field.path = some x → ¬ Filled x) →
      (ms.map Prod.fst).Nodup → (∀ m ∈ ms, NamesOnce m.2) →
      HasTy E.U (.struct i) v' ∧ (∀ q z, (∀ p ∈ unmarshalPicks E o i, p.name ∈ ms.map Prod.fst → Apart p.field.path q) →
        getPath v q = some z → getPath v' q = some z) ∧ GDecMembers E o i v' ms v' err)
    ?_ ?_ ?_ ?_ ?_ ?_ ?_ ?_ ?_ ?_ ?_ ?_ ?_ ?_ ?_ ?_ ?_ ?_ ?_ ?_ ?_ ?_ ?_ ?_ ?_ ?_ ?_ ?_ ?_ ?_ ?_ ?_ ?_ ?_ ?_ ?_ ?_ ?_ ?_ ?_ ?_ h
  · intro t v j y h1 h2 lit hc hv _ _; exact .time h1 h2
  · intro t v j h1 h2 lit hc hv _ _; exact .timeErr h1 h2
  · intro t v j r h1 h2 h3 h4 h5 h6 lit hc hv _ _
    obtain ⟨y, b, e1, _⟩ := hH.method _ t v j.ser h4 hv
    rw [e1] at h6; subst h6
    obtain ⟨g1, g2⟩ := hA _ _ _ _ _ _ h5 e1
    exact .json h1 h2 h3 h4 g1 g2
  · intro t v s r h1 h2 h3 h4 h5 h6 h7 lit hc hv _ _
    obtain ⟨y, b, e1, _⟩ := hH.method _ t v s h5 hv
    rw [e1] at h7; subst h7
    obtain ⟨g1, g2⟩ := hA _ _ _ _ _ _ h6 e1
    exact .text h1 h2 h3 h4 h5 g1 g2
  · intro t v j h1 h2 h3 h4 h5 h6 lit hc hv _ _; exact .textErr h1 h2 h3 h4 h5 h6
  · intro t v b h1 h2 lit hc hv _ _; exact .bool h1 h2
  · intro t v j h1 h2 h3 lit hc hv _ _; exact .boolErr h1 h2 h3
  · intro t v s h1 h2 lit hc hv _ _; exact .str h1 h2
  · intro t v j h1 h2 h3 lit hc hv _ _; exact .strOther h1 h2 h3
  · intro t k v j h1 h2 h3 lit hc hv _ _; exact .int h1 h2 h3
  · intro t k v j h1 h2 h3 lit hc hv _ _; exact .intErr h1 h2 h3
  · intro t k v j h1 h2 h3 lit hc hv _ _; exact .uint h1 h2 h3
  · intro t k v j h1 h2 h3 lit hc hv _ _; exact .uintErr h1 h2 h3
  · intro t k v j h1 h2 h3 lit hc hv _ _; exact .float h1 h2 h3
  · intro t k v j h1 h2 h3 lit hc hv _ _; exact .floatErr h1 h2 h3
  · intro t e v h1 h2 lit hc hv _ _; exact .ptrNull h1 h2
  · intro t e v j y err h1 h2 h3 _ ih lit hc hv hn hj
    refine .ptr h1 h2 h3 ?_
    rcases hv.inv_ptr h2 with h | ⟨w, h, hw⟩ <;> cases h
    exact ih _ (hc.inv_ptr h1 h2).1 hw (fun h => hn (.ptr h)) hj
  · intro t e j y err h1 h2 h3 _ ih lit hc hv hn hj
    exact .ptr h1 h2 h3 (ih _ (hc.inv_ptr h1 h2).1 (hasTy_zero hU e) (not_filled_zero hU e) hj)
  · intro t e v h1 h2 lit hc hv _ _; exact .sliceNull h1 h2
  · intro t e h1 h2 lit hc hv _ _; exact .sliceNil h1 h2
  · intro t e js arr err h1 h2 _ _ ih lit hc hv _ hj
    obtain ⟨g1, g2⟩ := ih (hc.inv_slice h1 h2).1 (fun x hx => by rw [(List.mem_replicate.1 hx).2]; exact hasTy_zero hU e)
      (fun x hx => by rw [(List.mem_replicate.1 hx).2]; exact not_filled_zero hU e) (NamesOnce.elems hj)
    exact .sliceFit h1 h2 (by rw [g1]; simp) g2
  · intro t e arr len js arr' err h1 h2 h3 _ ih lit hc hv hn hj
    rcases hv.inv_slice h2 with h | ⟨_, _, h, _, hh⟩ <;> cases h
    obtain ⟨g1, g2⟩ := ih (hc.inv_slice h1 h2).1 hh (fun x hx hf => hn (.elem hx hf)) (NamesOnce.elems hj)
    exact .sliceFit h1 h2 (by rw [g1]; exact h3) g2
  · intro t e arr len js arr' err h1 h2 h3 _ ih lit hc hv hn hj
    obtain ⟨g1, g2⟩ := ih (hc.inv_slice h1 h2).1 (fun x hx => by rw [(List.mem_replicate.1 hx).2]; exact hasTy_zero hU e)
      (fun x hx => by rw [(List.mem_replicate.1 hx).2]; exact not_filled_zero hU e) (NamesOnce.elems hj)
    have hl : len = 0 := by
      rcases Nat.eq_zero_or_pos len with h | h
      · exact h
      · exact absurd (.here h) hn
    subst hl
    have hz : 0 + js.length = js.length := Nat.zero_add _
    rw [hz]
    exact .sliceFit h1 h2 (by rw [g1]; simp) g2
  · intro t e v j h1 h2 h3 h4 lit hc hv _ _; exact .sliceErr h1 h2 h3 h4
  · intro t k e v h1 h2 lit hc hv _ _; exact .mapNull h1 h2
  · intro t k e es ms es' err h1 h2 _ ih lit hc hv _ hj; exact .map h1 h2 (ih (NamesOnce.members hj).1)
  · intro t k e ms es' err h1 h2 _ ih lit hc hv _ hj; exact .map h1 h2 (ih (NamesOnce.members hj).1)
  · intro t k e v j h1 h2 h3 h4 lit hc hv _ _; exact .mapErr h1 h2 h3 h4
  · intro i v ms v' err h1 _ ih lit hc hv hn hj
    exact .struct h1 (ih (fun p hp => (hc.inv_struct h1 p hp).1) hv
      (fun p hp _ x hx => seen_not_filled hU (hE.path i _ (mem_unmarshalPicks hp).1) hv hn hx) (NamesOnce.members hj).1 (NamesOnce.members hj).2).2.2
  · intro i v jv h1 h2 lit hc hv _ _; exact .structErr h1 h2
  · intro t arr _ _ _ _; exact ⟨rfl, .nil⟩
  · intro t x arr j js y arr' err _ _ ih1 ih2 hc h hn hj
    rw [List.forall_mem_cons] at h hn hj
    obtain ⟨g1, g2⟩ := ih2 hc h.2 hn.2 hj.2
    exact ⟨by simp [g1], .cons (ih1 _ hc h.1 hn.1 hj.1) g2⟩
  · intro t x arr j js y err _ ih1 hc h hn hj
    rw [List.forall_mem_cons] at h hn hj
    exact ⟨by simp, .fail (ih1 _ hc h.1 hn.1 hj.1)⟩
  · intro k t es _; exact .nil
  · intro k t es key j ms y es' err h1 h2 _ _ hn; exact gentries_again (.cons h1 h2) hn
  · intro k t es key j ms y err h1 _ hn; exact .fail h1
  · intro i v _ hv _ _ _; exact ⟨hv, fun _ _ _ h => h, .nil⟩
  · intro i v key j ms v' err h1 _ ih hc hv hs hn hj
    rw [List.map_cons, List.nodup_cons] at hn
    rw [List.forall_mem_cons] at hj
    obtain ⟨g1, g2, g3⟩ := ih hc hv (fun p hp hm => hs p hp (List.mem_cons_of_mem _ hm)) hn.2 hj.2
    exact ⟨g1, fun q z ha hz => g2 q z (fun p hp hn => ha p hp (List.mem_cons_of_mem _ hn)) hz, .unknown h1 g3⟩
  · intro i v p j ms x mk v' err h1 h2 h3 _ ih hc hv hs hn hj
    rw [List.map_cons, List.nodup_cons] at hn
    rw [List.forall_mem_cons] at hj
    have hap : ∀ q ∈ unmarshalPicks E o i, q.name ∈ ms.map Prod.fst → Apart p.field.path q.field.path := fun q hq hm =>
      hF i p h1 q hq (fun e => hn.1 (by rw [← e] at hm; exact hm))
    have hpt := hE.path i _ (mem_unmarshalPicks h1).1
    obtain ⟨x', mk', hsp⟩ := focus_spec hU hpt hv
    rw [hsp.found] at h3; cases h3
    have hty := hsp.keeps (.str (jraw j)) (.str h2.2)
    obtain ⟨g1, g2, g3⟩ := ih hc hty (fun q hq hm z hz => hs q hq (List.mem_cons_of_mem _ hm) z (by rw [← hsp.seen _ _ (hap q hq hm)]; exact hz)) hn.2 hj.2
    have hget := g2 _ _ (fun q hq hm => (hap q hq hm).symm) (hsp.get _)
    obtain ⟨mk2, k1, k2⟩ := focus_get hU hpt g1 hget
    refine ⟨g1, fun q z ha hz => g2 q z (fun p hp hn => ha p hp (List.mem_cons_of_mem _ hn)) (hsp.other _ _ _ (ha p h1 List.mem_cons_self) hz), ?_⟩
    exact .raw h1 h2 k1 (by rw [k2]; exact g3)
  · intro i v p j ms x mk y v' err h1 h2 h3 hd _ ih1 ih2 hc hv hs hn hj
    rw [List.map_cons, List.nodup_cons] at hn
    rw [List.forall_mem_cons] at hj
    have hap : ∀ q ∈ unmarshalPicks E o i, q.name ∈ ms.map Prod.fst → Apart p.field.path q.field.path := fun q hq hm =>
      hF i p h1 q hq (fun e => hn.1 (by rw [← e] at hm; exact hm))
    have hpt := hE.path i _ (mem_unmarshalPicks h1).1
    obtain ⟨x', mk', hsp⟩ := focus_spec hU hpt hv
    rw [hsp.found] at h3; cases h3
    have hx : ¬ Filled x := hs p h1 List.mem_cons_self x (by rw [seenAt, hsp.found]; rfl)
    have hty := hsp.keeps _ (gdec_typed hE hH hd _ (hc p h1 h2) hsp.typed).1
    obtain ⟨g1, g2, g3⟩ := ih2 hc hty (fun q hq hm z hz => hs q hq (List.mem_cons_of_mem _ hm) z (by rw [← hsp.seen _ _ (hap q hq hm)]; exact hz)) hn.2 hj.2
    have hget := g2 _ _ (fun q hq hm => (hap q hq hm).symm) (hsp.get _)
    obtain ⟨mk2, k1, k2⟩ := focus_get hU hpt g1 hget
    refine ⟨g1, fun q z ha hz => g2 q z (fun p hp hn => ha p hp (List.mem_cons_of_mem _ hn)) (hsp.other _ _ _ (ha p h1 List.mem_cons_self) hz), ?_⟩
    exact .cons h1 h2 k1 (ih1 _ (hc p h1 h2) hsp.typed hx hj.1) (by rw [k2]; exact g3)
  · intro i v p j ms x mk y err h1 h2 h3 hd ih1 hc hv hs hn hj
    rw [List.forall_mem_cons] at hj
    have hpt := hE.path i _ (mem_unmarshalPicks h1).1
    obtain ⟨x', mk', hsp⟩ := focus_spec hU hpt hv
    rw [hsp.found] at h3; cases h3
    have hx : ¬ Filled x := hs p h1 List.mem_cons_self x (by rw [seenAt, hsp.found]; rfl)
    have hty := hsp.keeps _ (gdec_typed hE hH hd _ (hc p h1 h2) hsp.typed).1
    obtain ⟨mk2, k1, k2⟩ := focus_get hU hpt hty (hsp.get y)
    refine ⟨hty, fun q z ha hz => hsp.other _ _ _ (ha p h1 List.mem_cons_self) hz, ?_⟩
    have := GDecMembers.fail (ms := ms) h1 h2 k1 (ih1 _ (hc p h1 h2) hsp.typed hx hj.1)
    rw [k2] at this
    exact this

end Verif.Gen
