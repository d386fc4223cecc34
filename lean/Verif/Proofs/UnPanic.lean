import Verif.Spec.UnPanic
import Verif.Proofs.UnFits
import Verif.Proofs.UnReject
import Verif.Props.UnStruct

/-! # Lemmas about panics of Unmarshal -/

namespace Verif.Unjson
open Verif Verif.Float Verif.Spec Verif.Njson Verif.Props

variable {U : Univ} {o : Options}

/-- All keys can occur in a text. -/
def KeysOk (j : JVal) : Prop := AllRaw LenientStr EscBody LenientNum j
def KeysOkE (js : List JVal) : Prop := AllRawElems LenientStr EscBody LenientNum js
def KeysOkM (ms : List (Bytes × JVal)) : Prop := AllRawMembers LenientStr EscBody LenientNum ms

/-- A part where decoding panics can be reached. -/
def Hit (U : Univ) (o : Options) (t : Ty) : Prop := ∃ t', Reach U o t t' ∧ Touchy U t'

theorem panic_hit (hU : U.Ok) (hE : U.EmbedsStructs) {t : Ty} {v : GV} {j : JVal} {r : Out GV} (h : Decodes U o t v j r) :
    HasTy U t v → KeysOk j → r = .panic → Hit U o t := by
  refine Decodes.rec
    (motive_1 := fun t v j r _ => HasTy U t v → KeysOk j → r = .panic → Hit U o t)
    (motive_2 := fun t js arr r _ => (∀ x ∈ arr, HasTy U t x) → KeysOkE js → r = none → Hit U o t)
    (motive_3 := fun t js xs r _ => (∀ x ∈ xs, HasTy U t x) → KeysOkE js → r = none → xs ≠ [] ∧ Hit U o t)
    (motive_4 := fun k t ms m r _ => True)
    (motive_5 := fun cs ms v r _ => ∀ t0, HasTy U t0 v → (∀ c ∈ cs, PathTy U t0 c.index c.typ) → KeysOkM ms → r = .panic →
      ∃ key c, cs.find? (fun c => c.key = key) = some c ∧ EscBody key ∧ Hit U o c.typ)
    ?null ?mismatch ?bool ?int ?intErr ?uint ?uintErr ?float ?floatErr ?str ?ptr ?ptrNew ?sliceNull ?nilSliceNull ?slice ?sliceGrow
    ?nilSlice ?array ?mapNull ?map ?struct ?any ?anyErr ?anyPanic ?enil ?estop ?epanic ?econs ?afull ?arest ?apanic ?acons
    ?mnil ?mfail ?mpanic ?mnilMap ?mbadKey ?mcons ?snil ?sunknown ?sfail ?spanic ?scons ?slostFail ?slostPanic ?slost h
  case ptr =>
    intro t e v j r hb _ _ ih hv hj hr
    rcases hv.inv_ptr hb with h | ⟨x, h, hx⟩
    · cases h
    · cases h
      obtain ⟨t', h1, h2⟩ := ih hx hj (by cases r <;> simp_all [Out.map])
      exact ⟨t', .ptr hb h1, h2⟩
  case ptrNew =>
    intro t e j r hb _ _ ih hv hj hr
    obtain ⟨t', h1, h2⟩ := ih (hasTy_zero hU e) hj (by cases r <;> simp_all [Out.map])
    exact ⟨t', .ptr hb h1, h2⟩
  case slice =>
    intro t e arr len js r hb _ _ ih hv hj hr
    obtain ⟨t', h1, h2⟩ := ih (by
      cases hv with
      | slice q1 q2 q3 => rw [hb] at q1; cases q1; exact q3) hj (by cases r <;> simp_all [sliceOut])
    exact ⟨t', .slice hb h1, h2⟩
  case sliceGrow =>
    intro t e arr len js r hb _ _ ih hv hj hr
    obtain ⟨t', h1, h2⟩ := ih (by intro x hx; rw [List.eq_of_mem_replicate hx]; exact hasTy_zero hU e) hj (by cases r <;> simp_all [sliceOut])
    exact ⟨t', .slice hb h1, h2⟩
  case nilSlice =>
    intro t e js r hb _ ih hv hj hr
    obtain ⟨t', h1, h2⟩ := ih (by intro x hx; rw [List.eq_of_mem_replicate hx]; exact hasTy_zero hU e) hj (by cases r <;> simp_all [sliceOut])
    exact ⟨t', .slice hb h1, h2⟩
  case array =>
    intro t n e xs js r hb _ ih hv hj hr
    cases hv with
    | array q1 q2 q3 =>
      rw [hb] at q1; cases q1
      obtain ⟨hne, t', h1, h2⟩ := ih q3 hj (by cases r <;> simp_all [arrayOut])
      exact ⟨t', .array hb (by rintro rfl; exact hne (List.length_eq_zero_iff.1 q2)) h1, h2⟩
  case map => intro t k e v ms r hb _ _ _ _ _; exact ⟨t, .refl, .inl ⟨k, e, hb⟩⟩
  case struct =>
    intro t i cs v ms r hb hc _ ih hv hj hr
    obtain ⟨key, c, h1, h2, t', h3, h4⟩ := ih t hv (cands_path0 hE hb hc) hj hr
    rw [C54_decoding_field] at h1
    exact ⟨t', .field hb hc h1 h2 h3, h4⟩
  case anyPanic => intro t i v j x hb hn _ _ _ _; exact ⟨t, .refl, .inr ⟨i, hb, hn⟩⟩
  case epanic => intro t j js x arr _ ih hv hj _; exact ih (hv x List.mem_cons_self) hj.1 rfl
  case econs =>
    intro t j js x arr y r _ _ ih ih2 hv hj hr
    exact ih2 (fun x hx => hv x (List.mem_cons_of_mem _ hx)) hj.2 (by cases r <;> simp_all)
  case apanic => intro t j js x arr _ ih hv hj _; exact ⟨by simp, ih (hv x List.mem_cons_self) hj.1 rfl⟩
  case acons =>
    intro t j js x arr y e r _ _ ih ih2 hv hj hr
    exact ⟨by simp, (ih2 (fun x hx => hv x (List.mem_cons_of_mem _ hx)) hj.2 (by cases r <;> simp_all)).2⟩
  case sunknown => intro cs key j ms v r _ _ ih t0 hv hp hj hr; exact ih t0 hv hp hj.2.2 hr
  case spanic =>
    intro cs key j ms v c x hf hs _ ih t0 hv hp hj _
    exact ⟨key, c, hf, hj.1, ih (sub_hasTy (hp c (List.mem_of_find?_eq_some hf)) hv hs) hj.2.1 rfl⟩
  case scons =>
    intro cs key j ms v c x y r hf hs hd _ ih ih2 t0 hv hp hj hr
    have hc := hp c (List.mem_of_find?_eq_some hf)
    exact ih2 t0 (put_hasTy hc hv (decodes_hasTy hU hE hd (sub_hasTy hc hv hs) _ _ rfl)) hp hj.2.2 hr
  case slostPanic =>
    intro cs key j ms v c hf _ _ ih t0 hv hp hj _
    exact ⟨key, c, hf, hj.1, ih (hasTy_zero hU _) hj.2.1 rfl⟩
  case slost => intro cs key j ms v c y r _ _ _ _ ih ih2 t0 hv hp hj hr; exact ih2 t0 hv hp hj.2.2 hr
  all_goals (intros; trivial)

theorem base_of_null (hU : U.Ok) {t : Ty} (hs : Supported U t) : (∃ y, Decodes U o t (U.zero t) .null (.done y none)) ∨ Decodes U o t (U.zero t) .null .panic := by
  have hq := hs t .refl
  cases hb : U.base t with
  | bool | int _ | uint _ | float _ | string | ptr _ | array _ _ | struct _ => exact .inl ⟨_, .null (by rw [hb]; trivial)⟩
  | slice e =>
    refine .inl ?_
    rcases (hasTy_zero hU t).inv_slice hb with h | ⟨arr, len, h, _⟩ <;> rw [h]
    · exact ⟨_, .nilSliceNull hb⟩
    · exact ⟨_, .sliceNull hb⟩
  | map k e => exact .inl ⟨_, .mapNull hb⟩
  | iface m i =>
    have := hq.2.1 m i hb
    subst this
    by_cases ht : t = .any
    · subst ht; exact .inl ⟨_, .any (x := .nilIface) rfl⟩
    · exact .inr (.anyPanic hb ht (x := .nilIface) rfl)
  | other => exact absurd hb hq.1
  | named i => exact absurd hb (base_not_named hU t i)

/-- Where such a part can be reached, some tree makes decoding into a zero variable panic. -/
theorem hit_panic (hU : U.Ok) (hE : U.EmbedsStructs) {t t' : Ty} (h : Reach U o t t') (ht : Touchy U t') :
    Supported U t → ∃ j, j ≠ .null ∧ KeysOk j ∧ (∀ raw, j ≠ .num raw) ∧ Decodes U o t (U.zero t) j .panic := by
  induction h with
  | @refl t =>
    intro hs
    rcases ht with ⟨k, e, hb⟩ | ⟨i, hb, hn⟩
    · refine ⟨.obj [([], .null)], by simp, ⟨.nil, trivial, trivial⟩, by simp, .map hb ?_⟩
      have hz : U.zero t = .nilMap := by rw [zero_base hU, hb]; rfl
      rw [hz]
      rcases base_of_null (o := o) hU (t := e) (fun t' h => hs t' (.map hb h)) with ⟨y, h⟩ | h
      · exact .nilMap h
      · exact .panic h
    · exact ⟨.bool true, by simp, trivial, by simp, .anyPanic hb hn (x := .iface .bool (.bool true)) rfl⟩
  | @ptr t e t' hb _ ih =>
    intro hs
    obtain ⟨j, h1, h2, h3, h4⟩ := ih ht fun t' h => hs t' (.ptr hb h)
    have hz : U.zero t = .nilPtr := by rw [zero_base hU, hb]; rfl
    refine ⟨j, h1, h2, h3, ?_⟩
    rw [hz]
    exact .ptrNew hb h1 h4
  | @slice t e t' hb _ ih =>
    intro hs
    obtain ⟨j, h1, h2, h3, h4⟩ := ih ht fun t' h => hs t' (.slice hb h)
    have hz : U.zero t = .nilSlice := by rw [zero_base hU, hb]; rfl
    refine ⟨.arr [j], by simp, ⟨h2, trivial⟩, by simp, ?_⟩
    rw [hz]
    exact .nilSlice (r := none) hb (.panic h4)
  | @array t n e t' hb hn _ ih =>
    intro hs
    obtain ⟨j, h1, h2, h3, h4⟩ := ih ht fun t' h => hs t' (.array hb h)
    have hz : U.zero t = .array (List.replicate n (U.zero e)) := by rw [zero_base hU, hb]; rfl
    refine ⟨.arr [j], by simp, ⟨h2, trivial⟩, by simp, ?_⟩
    rw [hz]
    obtain ⟨m, rfl⟩ := Nat.exists_eq_succ_of_ne_zero hn
    rw [List.replicate_succ]
    exact .array (r := none) hb (.panic h4)
  | @field t i cs key c t' hb hc hf hk _ ih =>
    intro hs
    have hf' : (resolve [] cs).find? (fun c => c.key = key) = some c := by rw [C54_decoding_field]; exact hf
    have hp := cands_path0 hE hb hc c (List.mem_of_find?_eq_some hf')
    obtain ⟨j, h1, h2, h3, h4⟩ := ih ht fun t' h => hs t' ((path_comp hp).trans h)
    refine ⟨.obj [(key, j)], by simp, ⟨hk, h2, trivial⟩, by simp, .struct hb hc ?_⟩
    cases hsub : sub (U.zero t) c.index with
    | none => exact .lostPanic hf' hsub h4
    | some x =>
      have := sub_zero hU hp hsub
      subst this
      exact .panic hf' hsub h4

end Verif.Unjson
