import Verif.Spec.UnIgnore
import Verif.Proofs.UnDecM
import Verif.Proofs.UnResolve

namespace Verif.Unjson
open Verif Verif.Float Verif.Spec Verif.Njson

theorem SameRead.jtyp {U : Univ} {o : Options} : ∀ {t : Ty} {j j' : JVal}, SameRead U o t j j' → jtyp j' = jtyp j
  | _, _, _, .same => rfl
  | _, _, _, .ptr _ _ h => h.jtyp
  | _, _, _, .slice .. => rfl
  | _, _, _, .array .. => rfl
  | _, _, _, .map .. => rfl
  | _, _, _, .struct .. => rfl

theorem SameRead.null {U : Univ} {o : Options} : ∀ {t : Ty} {j j' : JVal}, SameRead U o t j j' → (j' = .null ↔ j = .null)
  | _, _, _, .same => Iff.rfl
  | _, _, _, .ptr _ _ h => h.null
  | _, _, _, .slice .. => by simp
  | _, _, _, .array .. => by simp
  | _, _, _, .map .. => by simp
  | _, _, _, .struct .. => by simp

/-- Leaves. -/
def Leaf : JVal → Prop
  | .arr _ => False
  | .obj _ => False
  | _ => True

theorem SameRead.leaf {U : Univ} {o : Options} : ∀ {t : Ty} {j j' : JVal}, SameRead U o t j j' → Leaf j → j' = j
  | _, _, _, .same, _ => rfl
  | _, _, _, .ptr _ _ h, hl => h.leaf hl
  | _, _, _, .slice .., hl => hl.elim
  | _, _, _, .array .., hl => hl.elim
  | _, _, _, .map .., hl => hl.elim
  | _, _, _, .struct .., hl => hl.elim

theorem SameElems.length {U : Univ} {o : Options} : ∀ {t : Ty} {xs ys : List JVal}, SameElems U o t xs ys → ys.length = xs.length
  | _, _, _, .nil => rfl
  | _, _, _, .cons _ h => by simp [h.length]

theorem find_none {rs : List Cand} {k : Bytes} (h : ∀ c ∈ rs, c.key ≠ k) : rs.find? (fun c => c.key = k) = none := by
  rw [List.find?_eq_none]; intro c hc; simp [h c hc]

theorem find_some {rs : List Cand} {k : Bytes} {c : Cand} (h : rs.find? (fun c => c.key = k) = some c) : c ∈ rs ∧ c.key = k :=
  ⟨List.mem_of_find?_eq_some h, by simpa using List.find?_some h⟩

/-- The inner induction: unknown members on the right are passed over. -/
theorem members_step {U : Univ} {nm : NodeMeth} {o : Options} {rs : List Cand} {k : Bytes} {x : JVal} {ms : List (Bytes × JVal)} {v : GV} {r : Out GV}
    (hl : (∀ c ∈ rs, c.key ≠ k) → ∀ ns, SameMembers U o rs ms ns → ReadMembers U nm o rs ns v r)
    (hb : ∀ y ns, (∀ c ∈ rs, c.key = k → SameRead U o c.typ x y) → SameMembers U o rs ms ns → ReadMembers U nm o rs ((k, y) :: ns) v r) :
    ∀ {ns}, SameMembers U o rs ((k, x) :: ms) ns → ReadMembers U nm o rs ns v r
  | [], h => by
    generalize hz : (k, x) :: ms = zs at h
    generalize hw : ([] : List (Bytes × JVal)) = ws at h
    cases h with
    | nil => cases hz
    | left hk h => cases hz; cases hw; exact hl hk _ h
    | right => cases hw
    | both => cases hw
  | (k', y) :: ns, h => by
    cases h with
    | left hk h => exact hl hk _ h
    | right hk h => exact .unknown (find_none hk) (members_step hl hb h)
    | both hk h => exact hb _ _ hk h

theorem members_nil {U : Univ} {nm : NodeMeth} {o : Options} {rs : List Cand} {v : GV} : ∀ {ns}, SameMembers U o rs [] ns →
    ReadMembers U nm o rs ns v (.done v none)
  | [], _ => .nil
  | (k', y) :: ns, h => by
    cases h with
    | right hk h => exact .unknown (find_none hk) (members_nil h)

theorem outTy_some {U : Univ} {t : Ty} {r : Out GV} (h : OutTy U t r) {y : GV} {e : Option UErr} (hr : r = .done y e) : HasTy U t y := h y e hr

/-- What has no place makes no difference. -/
theorem reads_ignore {U : Univ} {nm : NodeMeth} (hM : U.Unmarshals nm) {o : Options} (hU : U.Ok) (hE : U.EmbedsStructs) {t : Ty} {v : GV} {j : JVal} {r : Out GV}
    (h : Reads U nm o t v j r) : HasTy U t v → ∀ j', SameRead U o t j j' → Reads U nm o t v j' r := by
  refine Reads.rec
    (motive_1 := fun t v j r _ => HasTy U t v → ∀ j', SameRead U o t j j' → Reads U nm o t v j' r)
    (motive_2 := fun t v j r _ => unmarshalMeth U t = none → HasTy U t v → ∀ j', SameRead U o t j j' → ReadsPlain U nm o t v j' r)
    (motive_3 := fun t js arr r _ => (∀ x ∈ arr, HasTy U t x) → ∀ js', SameElems U o t js js' → ReadElems U nm o t js' arr r)
    (motive_4 := fun t js xs r _ => (∀ x ∈ xs, HasTy U t x) → ∀ n js', xs.length ≤ n → SameFirst U o t n js js' → ReadArr U nm o t js' xs r)
    (motive_5 := fun k t ms m r _ => ∀ ns, SameValues U o t ms ns → ReadEntries U nm o k t ns m r)
    (motive_6 := fun cs ms v r _ => ∀ t0, HasTy U t0 v → (∀ c ∈ cs, PathTy U t0 c.index c.typ) → ∀ ns, SameMembers U o cs ms ns → ReadMembers U nm o cs ns v r)
    ?meth ?plain ?null ?mismatch ?bool ?int ?intErr ?uint ?uintErr ?float ?floatErr ?str ?ptr ?ptrNew ?sliceNull ?nilSliceNull ?slice ?sliceGrow
    ?nilSlice ?array ?mapNull ?map ?struct ?any ?anyErr ?anyPanic ?enil ?estop ?epanic ?econs ?afull ?arest ?apanic ?acons
    ?mnil ?mfail ?mpanic ?mnilMap ?mbadKey ?mcons ?snil ?sunknown ?sfail ?spanic ?scons ?slostFail ?slostPanic ?slost h
  case meth =>
    intro t v j m hm hv j' hs
    cases hs with
    | same => exact .meth hm
    | ptr _ h | slice _ h | array _ h | map _ h | struct _ h => rw [hm] at h; cases h
  case plain => intro t v j r hm _ ih hv j' hs; exact .plain hm (ih hm hv j' hs)
  case null => intro t v hz _ _ j' hs; rw [hs.leaf trivial]; exact .null hz
  case mismatch =>
    intro t v j w h1 h2 h3 _ _ j' hs
    rw [← hs.jtyp]
    exact .mismatch h1 (fun h => h2 (hs.null.1 h)) (by rw [hs.jtyp]; exact h3)
  case bool => intro t x b hb _ _ j' hs; rw [hs.leaf trivial]; exact .bool hb
  case int => intro t k x raw i hb hr _ _ j' hs; rw [hs.leaf trivial]; exact .int hb hr
  case intErr => intro t k x raw hb hr _ _ j' hs; rw [hs.leaf trivial]; exact .intErr hb hr
  case uint => intro t k x raw i hb hr _ _ j' hs; rw [hs.leaf trivial]; exact .uint hb hr
  case uintErr => intro t k x raw hb hr _ _ j' hs; rw [hs.leaf trivial]; exact .uintErr hb hr
  case float => intro t k x raw i hb hr _ _ j' hs; rw [hs.leaf trivial]; exact .float hb hr
  case floatErr => intro t k x raw hb hr _ _ j' hs; rw [hs.leaf trivial]; exact .floatErr hb hr
  case str => intro t x raw hb _ _ j' hs; rw [hs.leaf trivial]; exact .str hb
  case ptr =>
    intro t e v j r hb hj hr ih _ hv j' hs
    have hv' : HasTy U e v := by
      rcases hv.inv_ptr hb with h | ⟨x, h, hx⟩
      · cases h
      · cases h; exact hx
    refine .ptr hb (fun h => hj (hs.null.1 h)) (ih hv' j' ?_)
    cases hs with
    | same => exact .same
    | ptr h _ h' => rw [hb] at h; cases h; exact h'
    | slice h | array h | map h | struct h => rw [hb] at h; cases h
  case ptrNew =>
    intro t e j r hb hj hr ih _ hv j' hs
    refine .ptrNew hb (fun h => hj (hs.null.1 h)) (ih (hasTy_zero hU e) j' ?_)
    cases hs with
    | same => exact .same
    | ptr h _ h' => rw [hb] at h; cases h; exact h'
    | slice h | array h | map h | struct h => rw [hb] at h; cases h
  case sliceNull => intro t e arr len hb _ _ j' hs; rw [hs.leaf trivial]; exact .sliceNull hb
  case nilSliceNull => intro t e hb _ _ j' hs; rw [hs.leaf trivial]; exact .nilSliceNull hb
  case slice =>
    intro t e arr len js r hb hl hr ih _ hv j' hs
    cases hs with
    | same => exact .slice hb hl hr
    | slice h _ h' =>
      rw [hb] at h; cases h
      refine .slice hb (by rw [h'.length]; exact hl) (ih ?_ _ h')
      rcases hv.inv_slice hb with h | ⟨arr', len', h, h1, h2⟩
      · cases h
      · cases h; exact h2
    | ptr h | array h => rw [hb] at h; cases h
  case sliceGrow =>
    intro t e arr len js r hb hl hr ih _ hv j' hs
    cases hs with
    | same => exact .sliceGrow hb hl hr
    | slice h _ h' =>
      rw [hb] at h; cases h
      refine .sliceGrow hb (by rw [h'.length]; exact hl) ?_
      rw [h'.length]
      exact ih (fun x hx => by rw [List.eq_of_mem_replicate hx]; exact hasTy_zero hU e) _ h'
    | ptr h | array h => rw [hb] at h; cases h
  case nilSlice =>
    intro t e js r hb hr ih _ hv j' hs
    cases hs with
    | same => exact .nilSlice hb hr
    | slice h _ h' =>
      rw [hb] at h; cases h
      refine .nilSlice hb ?_
      rw [h'.length]
      exact ih (fun x hx => by rw [List.eq_of_mem_replicate hx]; exact hasTy_zero hU e) _ h'
    | ptr h | array h => rw [hb] at h; cases h
  case array =>
    intro t n e xs js r hb hr ih _ hv j' hs
    cases hs with
    | same => exact .array hb hr
    | array h _ h' =>
      rw [hb] at h; cases h
      obtain ⟨xs', h0, h1, h2⟩ := hv.inv_array hb
      cases h0
      exact .array hb (ih h2 n _ (by omega) h')
    | ptr h | slice h => rw [hb] at h; cases h
  case mapNull => intro t k e v hb _ _ j' hs; rw [hs.leaf trivial]; exact .mapNull hb
  case map =>
    intro t k e v ms r hb hr ih _ hv j' hs
    cases hs with
    | same => exact .map hb hr
    | map h _ h' => rw [hb] at h; cases h; exact .map hb (ih _ h')
    | ptr h | struct h => rw [hb] at h; cases h
  case struct =>
    intro t j cs v ms r hb hc hr ih _ hv j' hs
    cases hs with
    | same => exact .struct hb hc hr
    | struct h _ hc' h' =>
      rw [hb] at h; cases h
      cases cands_unique hc hc'
      exact .struct hb hc (ih t hv (cands_path0 hE hb hc) _ h')
    | ptr h | map h => rw [hb] at h; cases h
  case any =>
    intro v j x hx _ _ j' hs
    cases hs with
    | same => exact .any hx
    | ptr h | slice h | array h | map h | struct h => rw [base_any] at h; cases h
  case anyErr =>
    intro t i v j hb hx _ _ j' hs
    cases hs with
    | same => exact .anyErr hb hx
    | ptr h | slice h | array h | map h | struct h => rw [hb] at h; cases h
  case anyPanic =>
    intro t i v j x hb ht hx _ _ j' hs
    cases hs with
    | same => exact .anyPanic hb ht hx
    | ptr h | slice h | array h | map h | struct h => rw [hb] at h; cases h
  case enil => intro t arr _ js' hs; cases hs; exact .nil
  case estop =>
    intro t j js x arr y e _ ih hv js' hs
    cases hs with | cons h _ => exact .stop (ih (hv _ List.mem_cons_self) _ h)
  case epanic =>
    intro t j js x arr _ ih hv js' hs
    cases hs with | cons h _ => exact .panic (ih (hv _ List.mem_cons_self) _ h)
  case econs =>
    intro t j js x arr y r _ _ ih ih' hv js' hs
    cases hs with | cons h h' => exact .cons (ih (hv _ List.mem_cons_self) _ h) (ih' (fun x hx => hv x (List.mem_cons_of_mem _ hx)) _ h')
  case afull => intro t js _ n js' _ _; exact .full
  case arest =>
    intro t x xs _ n js' hn hs
    cases hs with
    | zero => simp at hn
    | nil => exact .rest
  case apanic =>
    intro t j js x xs _ ih hv n js' hn hs
    cases hs with
    | zero => simp at hn
    | cons h _ => exact .panic (ih (hv _ List.mem_cons_self) _ h)
  case acons =>
    intro t j js x xs y e r _ _ ih ih' hv n js' hn hs
    cases hs with
    | zero => simp at hn
    | cons h h' => exact .cons (ih (hv _ List.mem_cons_self) _ h) (ih' (fun x hx => hv x (List.mem_cons_of_mem _ hx)) _ _ (by simpa using hn) h')
  case mnil => intro k t m ns hs; cases hs; exact .nil
  case mfail =>
    intro k t key j ms m y e _ ih ns hs
    cases hs with | cons h _ => exact .fail (ih (hasTy_zero hU t) _ h)
  case mpanic =>
    intro k t key j ms m _ ih ns hs
    cases hs with | cons h _ => exact .panic (ih (hasTy_zero hU t) _ h)
  case mnilMap =>
    intro k t key j ms y _ ih ns hs
    cases hs with | cons h _ => exact .nilMap (ih (hasTy_zero hU t) _ h)
  case mbadKey =>
    intro k t key j ms m y hk _ ih ns hs
    cases hs with | cons h _ => exact .badKey hk (ih (hasTy_zero hU t) _ h)
  case mcons =>
    intro t key j ms es y r _ _ ih ih' ns hs
    cases hs with | cons h h' => exact .cons (ih (hasTy_zero hU t) _ h) (ih' _ h')
  case snil => intro cs v t0 _ _ ns hs; exact members_nil hs
  case sunknown =>
    intro cs key j ms v r hk _ ih t0 hv hp ns hs
    exact members_step (fun _ ns h => ih t0 hv hp ns h) (fun y ns _ h => .unknown hk (ih t0 hv hp ns h)) hs
  case sfail =>
    intro cs key j ms v c x y e hc hx _ ih t0 hv hp ns hs
    obtain ⟨m1, m2⟩ := find_some hc
    exact members_step (fun hk => absurd m2 (hk _ m1)) (fun y ns hr _ => .fail hc hx (ih (sub_hasTy (hp _ m1) hv hx) _ (hr c m1 m2))) hs
  case spanic =>
    intro cs key j ms v c x hc hx _ ih t0 hv hp ns hs
    obtain ⟨m1, m2⟩ := find_some hc
    exact members_step (fun hk => absurd m2 (hk _ m1)) (fun y ns hr _ => .panic hc hx (ih (sub_hasTy (hp _ m1) hv hx) _ (hr c m1 m2))) hs
  case scons =>
    intro cs key j ms v c x y r hc hx hd _ ih ih' t0 hv hp ns hs
    obtain ⟨m1, m2⟩ := find_some hc
    have hy : HasTy U c.typ y := reads_hasTy hM hU hE hd (sub_hasTy (hp _ m1) hv hx) _ _ rfl
    exact members_step (fun hk => absurd m2 (hk _ m1))
      (fun y' ns hr h => .cons hc hx (ih (sub_hasTy (hp _ m1) hv hx) _ (hr c m1 m2)) (ih' t0 (put_hasTy (hp _ m1) hv hy) hp ns h)) hs
  case slostFail =>
    intro cs key j ms v c y e hc hx _ ih t0 hv hp ns hs
    obtain ⟨m1, m2⟩ := find_some hc
    exact members_step (fun hk => absurd m2 (hk _ m1)) (fun y ns hr _ => .lostFail hc hx (ih (hasTy_zero hU _) _ (hr c m1 m2))) hs
  case slostPanic =>
    intro cs key j ms v c hc hx _ ih t0 hv hp ns hs
    obtain ⟨m1, m2⟩ := find_some hc
    exact members_step (fun hk => absurd m2 (hk _ m1)) (fun y ns hr _ => .lostPanic hc hx (ih (hasTy_zero hU _) _ (hr c m1 m2))) hs
  case slost =>
    intro cs key j ms v c y r hc hx _ _ ih ih' t0 hv hp ns hs
    obtain ⟨m1, m2⟩ := find_some hc
    exact members_step (fun hk => absurd m2 (hk _ m1)) (fun y ns hr h => .lost hc hx (ih (hasTy_zero hU _) _ (hr c m1 m2)) (ih' t0 hv hp ns h)) hs

end Verif.Unjson
