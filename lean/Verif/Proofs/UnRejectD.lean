import Verif.Proofs.UnReject
import Verif.Proofs.UnDecM

/-! # When NewTypeDecoder returns a decoder and when an error -/

namespace Verif.Unjson
open Verif Verif.Float Verif.Njson Verif.Spec

section
variable {U : Univ} {o : Options}

theorem store_noDecoder {objs : List Obj} (hs : StoreOk U o objs) {t : Ty} (h : NoDecoder U o t) : ∀ d, ¬ DecIs U objs d t := by
  refine NoDecoder.rec (U := U) (o := o) (motive_1 := fun t _ => ∀ e hh, ¬ EncIs U o objs e t hh) (motive_2 := fun t _ => ∀ d, ¬ DecIs U objs d t)
    (motive_3 := fun fs i idx acc _ => ∀ cs, Cands U o fs i idx cs → ∀ l, All2 (FieldOk U o objs) l (resolve acc cs) → False)
    ?_ ?_ ?_ ?_ ?_ ?_ ?_ ?_ ?_ ?_ ?_ ?_ ?_ ?_ ?_ ?_ ?_ ?_ ?_ ?_ ?_ ?_ h
  case refine_1 =>
    intro t hm hb e hh he
    cases e <;> simp [EncIs, hb] at he <;> exact absurd hm (marshalMeth_ne (by simp) he)
  case refine_2 =>
    intro t n i hm hb hn e hh he
    cases e <;> simp [EncIs, hb] at he
    case iface => exact hn he
    all_goals exact absurd hm (marshalMeth_ne (by simp) he)
  case refine_3 =>
    intro t k e hm hb hk1 hk2 e hh he
    cases e <;> simp [EncIs, hb] at he
    case map => obtain ⟨ke, hk, _⟩ := he; unfold keyEnc at hk; simp [hk1, hk2] at hk
    all_goals exact absurd hm (marshalMeth_ne (by simp) he)
  case refine_4 =>
    intro t el hm hb _ ih e hh he
    cases e <;> (try (simp [EncIs, hb] at he))
    case ptr r => obtain ⟨e', _, he'⟩ := store_ptr hs hb he; exact ih _ _ he'
    all_goals exact absurd hm (marshalMeth_ne (by simp) he)
  case refine_5 =>
    intro t el hm hb _ ih e hh he
    cases e <;> (try (simp [EncIs, hb] at he))
    case slice r => obtain ⟨e', _, he'⟩ := store_slice hs hb he; exact ih _ _ he'
    all_goals exact absurd hm (marshalMeth_ne (by simp) he)
  case refine_6 =>
    intro t n el hm hb _ ih e hh he
    cases e <;> (try (simp [EncIs, hb] at he))
    case array r => obtain ⟨e', _, he'⟩ := store_array hs hb he; exact ih _ _ he'
    all_goals exact absurd hm (marshalMeth_ne (by simp) he)
  case refine_7 =>
    intro t k el hm hb _ ih e hh he
    cases e <;> (try (simp [EncIs, hb] at he))
    case map r => obtain ⟨ke, _, he⟩ := he; obtain ⟨e', _, he'⟩ := store_map hs hb he; exact ih _ _ he'
    all_goals exact absurd hm (marshalMeth_ne (by simp) he)
  case refine_8 =>
    intro t j hm hb _ ih e hh he
    cases e <;> (try (simp [EncIs, hb] at he))
    case struct r => obtain ⟨fs, cs, _, hc, ha⟩ := store_struct hs hb he; exact ih _ hc _ ha
    all_goals exact absurd hm (marshalMeth_ne (by simp) he)
  case refine_9 =>
    intro t hm hb e he
    cases e <;> simp [DecIs, hb] at he <;> exact absurd hm (unmarshalMeth_ne (by simp) he)
  case refine_10 =>
    intro t n i hm hb hn e he
    cases e <;> simp [DecIs, hb] at he
    case iface => exact hn he
    all_goals exact absurd hm (unmarshalMeth_ne (by simp) he)
  case refine_11 =>
    intro t k e hm hb hk1 hk2 e he
    cases e <;> simp [DecIs, hb] at he
    case map => have hk := he.1; unfold keyOk at hk; simp [hk1, hk2] at hk
    all_goals exact absurd hm (unmarshalMeth_ne (by simp) he)
  case refine_12 =>
    intro t el hm hb _ ih e he
    cases e <;> (try (simp [DecIs, hb] at he))
    case ptr r =>
      obtain ⟨x, h1, h2⟩ := sh_some he
      cases x <;> simp [Obj.shape] at h2
      subst h2
      obtain ⟨d', rfl, q3⟩ := hs r _ h1
      exact ih _ q3
    all_goals exact absurd hm (unmarshalMeth_ne (by simp) he)
  case refine_13 =>
    intro t el hm hb _ ih e he
    cases e <;> (try (simp [DecIs, hb] at he))
    case slice r =>
      obtain ⟨x, h1, h2⟩ := sh_some he
      cases x <;> simp [Obj.shape] at h2
      subst h2
      obtain ⟨e', d', hb', rfl, q3⟩ := hs r _ h1
      rw [hb] at hb'; cases hb'
      exact ih _ q3
    all_goals exact absurd hm (unmarshalMeth_ne (by simp) he)
  case refine_14 =>
    intro t n el hm hb _ ih e he
    cases e <;> (try (simp [DecIs, hb] at he))
    case array r =>
      obtain ⟨x, h1, h2⟩ := sh_some he
      cases x <;> simp [Obj.shape] at h2
      obtain ⟨rfl, rfl⟩ := h2
      obtain ⟨d', rfl, q3⟩ := hs r _ h1
      exact ih _ q3
    all_goals exact absurd hm (unmarshalMeth_ne (by simp) he)
  case refine_15 =>
    intro t k el hm hb _ ih e he
    cases e <;> (try (simp [DecIs, hb] at he))
    case map r =>
      obtain ⟨x, h1, h2⟩ := sh_some he.2
      cases x <;> simp [Obj.shape] at h2
      subst h2
      obtain ⟨k', e', d', hb', rfl, q3⟩ := hs r _ h1
      rw [hb] at hb'; cases hb'
      exact ih _ q3
    all_goals exact absurd hm (unmarshalMeth_ne (by simp) he)
  case refine_16 =>
    intro t j hm hb _ ih e he
    cases e <;> (try (simp [DecIs, hb] at he))
    case struct r => obtain ⟨fs, cs, _, hc, ha⟩ := store_struct hs hb he; exact ih _ hc _ ha
    all_goals exact absurd hm (unmarshalMeth_ne (by simp) he)
  case refine_17 =>
    intro f fs i idx acc h1 _ ih cs hc l ha
    cases hc with
    | skip _ h2 => exact ih _ h2 _ ha
    | embed a b _ _ _ => rcases h1 with h1 | h1 <;> simp_all
    | field a b _ _ => rcases h1 with h1 | h1 <;> simp_all
  case refine_18 =>
    intro f fs i idx acc idx' j a b c _ ih cs hc l ha
    cases hc with
    | skip h1 _ => rcases h1 with h1 | h1 <;> simp_all
    | field _ _ c' _ => rw [c] at c'; cases c'
    | @embed _ _ _ _ cs1 ds _ _ _ _ c' d' e' =>
      rw [c] at c'; cases c'
      rw [resolve_append] at ha
      have : ∃ l', All2 (FieldOk U o objs) l' (resolve acc cs1) := by
        clear c d' e' ih
        generalize resolve acc cs1 = ks at ha
        induction ds generalizing ks l with
        | nil => exact ⟨l, ha⟩
        | cons k ds ihd =>
          rw [resolve_cons] at ha
          obtain ⟨l', hl'⟩ := ihd _ _ ha
          unfold addCand at hl'
          have split2 : ∀ l', All2 (FieldOk U o objs) l' (ks ++ [k]) → ∃ l'', All2 (FieldOk U o objs) l'' ks := by
            clear hl' ihd ha
            induction ks with
            | nil => intro _ _; exact ⟨[], .nil⟩
            | cons x ks ihk =>
              intro l' hl'
              cases hl' with
              | cons h1 h2 => obtain ⟨l'', h3⟩ := ihk _ h2; exact ⟨_, .cons h1 h3⟩
          split at hl'
          · split at hl'
            · exact ⟨_, hl'⟩
            · exact split2 _ hl'
          · exact split2 _ hl'
      obtain ⟨l', hl'⟩ := this
      exact ih _ d' _ hl'
  case refine_19 =>
    intro f fs i idx acc idx' j cs1 a b c hc1 _ ih cs hc l ha
    cases hc with
    | skip h1 _ => rcases h1 with h1 | h1 <;> simp_all
    | field _ _ c' _ => rw [c] at c'; cases c'
    | embed _ _ c' d' e' =>
      rw [c] at c'; cases c'
      rw [resolve_append, cands_det d' hc1] at ha
      exact ih _ e' _ ha
  case refine_20 =>
    intro f fs i idx acc idx' k a b c hk hadd _ ih cs hc l ha
    cases hc with
    | skip h1 _ => rcases h1 with h1 | h1 <;> simp_all
    | embed _ _ c' _ _ => rw [c] at c'; cases c'
    | field _ _ c' d' =>
      rw [c] at c'; cases c'
      rw [resolve_cons, ← hk, hadd] at ha
      obtain ⟨x, _, hx⟩ := ha.mem_rightM k (mem_resolve (by simp))
      have := hx.dec
      rw [hk] at this
      exact ih _ this
  case refine_21 =>
    intro f fs i idx acc idx' k a b c hk hadd _ ih cs hc l ha
    cases hc with
    | skip h1 _ => rcases h1 with h1 | h1 <;> simp_all
    | embed _ _ c' _ _ => rw [c] at c'; cases c'
    | field _ _ c' d' =>
      rw [c] at c'; cases c'
      rw [resolve_cons, ← hk, hadd] at ha
      obtain ⟨x, _, hx⟩ := ha.mem_rightM k (mem_resolve (by simp))
      have := hx.enc
      rw [hk] at this
      exact ih _ _ this
  case refine_22 =>
    intro f fs i idx acc idx' k a b c hk _ ih cs hc l ha
    cases hc with
    | skip h1 _ => rcases h1 with h1 | h1 <;> simp_all
    | embed _ _ c' _ _ => rw [c] at c'; cases c'
    | field _ _ c' d' =>
      rw [c] at c'; cases c'
      rw [resolve_cons, ← hk] at ha
      exact ih _ d' _ ha

end

theorem unmarshalMeth_impl {U : Univ} {t : Ty} {m : Meth} (h : unmarshalMeth U t = some m) : U.impl t m = true := by
  unfold unmarshalMeth at h
  split at h
  · cases h; assumption
  · split at h
    · cases h; assumption
    · split at h
      · cases h; assumption
      · cases h

theorem unmarshalMeth_cases {U : Univ} {t : Ty} {m : Meth} (h : unmarshalMeth U t = some m) :
    m = .unmarshaler ∨ m = .jsonUnmarshaler ∨ m = .textUnmarshaler := by
  unfold unmarshalMeth at h
  split at h
  · cases h; simp
  · split at h
    · cases h; simp
    · split at h
      · cases h; simp
      · cases h

theorem jtyp_eq_null {j : JVal} (h : jtyp j = tNull) : j = .null := by
  cases j <;> first | rfl | (exfalso; revert h; simp only [jtyp]; decide)

/-- The decoder for a pointer type with methods. -/
def methDecoder : Meth → TypeDecoder
  | .unmarshaler => .njson
  | .textUnmarshaler => .text
  | _ => .json

/-- `newTypeDecoder` for a pointer type. -/
theorem newTypeDecoder_ptr {U : Univ} {tag : Bytes} {fuel : Nat} {t e : Ty} (hb : U.base t = .ptr e) :
    newTypeDecoder U tag fuel t = match unmarshalMeth U t with
      | some m => .ok (methDecoder m)
      | none =>
        match newDecoder U { tag := if tag = [] then defaultTag else tag } fuel e Codecs.empty with
        | .ok (d, c) => .ok (.typ t d c.objs)
        | .err e => .err e
        | .diverge => .diverge := by
  unfold newTypeDecoder unmarshalMeth
  rw [hb]
  dsimp only
  split
  · rfl
  · split
    · rfl
    · split <;> rfl

/-- When `newTypeDecoder` returns a decoder and when an error, for types that are no interface types. -/
theorem newTypeDecoder_cases {U : Univ} (hU : U.Ok) {tag : Bytes} {fuel : Nat} {t : Ty} (hi : ∀ n i, U.base t ≠ .iface n i) :
    (∀ c, newTypeDecoder U tag fuel t = .ok c → ¬ RefusedArg U { tag := if tag = [] then defaultTag else tag } t) ∧
    (∀ e, newTypeDecoder U tag fuel t = .err e → e = .invalidType ∧ RefusedArg U { tag := if tag = [] then defaultTag else tag } t) := by
  by_cases hp : ∃ e, U.base t = .ptr e
  · obtain ⟨el, hb⟩ := hp
    rw [newTypeDecoder_ptr hb]
    constructor
    · rintro c hc (hv | ⟨hb', hm, hn⟩)
      · exact hv _ hb
      · rw [hb] at hb'; cases hb'
        rw [hm] at hc
        dsimp only at hc
        split at hc
        · rename_i d c' hq
          obtain ⟨hs, hd⟩ := newDecoder_store hq
          exact store_noDecoder hs hn _ hd
        · cases hc
        · cases hc
    · intro e hc
      cases hm : unmarshalMeth U t with
      | some m => rw [hm] at hc; cases hc
      | none =>
        rw [hm] at hc
        dsimp only at hc
        split at hc
        · cases hc
        · rename_i hq
          cases hc
          obtain ⟨h1, h2⟩ := (rejects U _ hU fuel).newDecoder _ _ _ _ (inv_empty U _) hq
          exact ⟨h1, .ptr hb hm h2⟩
        · cases hc
  · have hne : ∀ e, U.base t ≠ .ptr e := fun e h => hp ⟨e, h⟩
    have hq : newTypeDecoder U tag fuel t = .err .invalidType := by
      unfold newTypeDecoder
      split
      · rename_i hb; exact absurd hb (hi _ _)
      · rename_i hb; exact absurd hb (hne _)
      · rfl
    rw [hq]
    constructor
    · intro c hc; cases hc
    · intro e hc; cases hc; exact ⟨rfl, .value hne⟩

/-- What a decoder from `newTypeDecoder` does. -/
theorem typeDecoder_reads {U : Univ} (hU : U.Ok) (hE : U.EmbedsStructs) {nm : NodeMeth} (hM : U.Unmarshals nm) (hP : U.Paired) (hS : U.StructsPaired)
    {tag : Bytes} {fuel : Nat} {t : Ty} (hi : ∀ n i, U.base t ≠ .iface n i) {c : TypeDecoder} (hc : newTypeDecoder U tag fuel t = .ok c)
    {fuel' : Nat} {h : Heap} {n : Node} {j : JVal} (hn : Tree h n j) {v : GV} (hv : HasTy U t v) {r : Out GV}
    (hr : c.decode U fuel' h n t v = some r) : ReadsArg U nm { tag := if tag = [] then defaultTag else tag } t v j r := by
  have hnr := (newTypeDecoder_cases hU hi).1 _ hc
  by_cases hp : ∃ e, U.base t = .ptr e
  · obtain ⟨el, hb⟩ := hp
    rw [newTypeDecoder_ptr hb] at hc
    cases hm : unmarshalMeth U t with
    | some m =>
      rw [hm] at hc
      cases hc
      have himpl := unmarshalMeth_impl hm
      have : r = callUnmarshal U nm m t v j := by
        have hcall : ¬ (m = .textUnmarshaler ∧ jtyp j ≠ tString) →
            callUnmarshal U nm m t v j = methOut U nm m t v j := by
          intro hx
          unfold callUnmarshal
          rw [if_neg hx]
          split
          · exact absurd (by assumption) (hi _ _)
          · exact absurd (by assumption) (hi _ _)
          · rfl
        by_cases hx : m = .textUnmarshaler ∧ jtyp j ≠ tString
        · obtain ⟨rfl, hx⟩ := hx
          simp only [methDecoder, TypeDecoder.decode, himpl, if_true, decMethod, wrap_text hn, if_neg hx] at hr
          cases hr
          unfold callUnmarshal
          rw [if_pos ⟨rfl, hx⟩]
        · have hr' : decMethod U m fuel' h n t v = some r := by
            rcases unmarshalMeth_cases hm with rfl | rfl | rfl <;>
              (simp only [methDecoder, TypeDecoder.decode, himpl, if_true] at hr; exact hr)
          rw [hcall hx]
          exact decMethod_out hM hn (fun h1 => Classical.not_not.1 fun h2 => hx ⟨h1, h2⟩) hr'
      rw [this]
      exact .meth hb hm
    | none =>
      rw [hm] at hc
      dsimp only at hc
      have hnd : ¬ NoDecoder U { tag := if tag = [] then defaultTag else tag } el := fun hx => hnr (.ptr hb hm hx)
      split at hc
      · rename_i d c' hq
        cases hc
        obtain ⟨hs, hd⟩ := newDecoder_storeM hP hq
        simp only [TypeDecoder.decode, if_true, hb] at hr
        cases hv with
        | nilPtr hb' =>
          dsimp only at hr
          rw [tree_typ hn] at hr
          by_cases hj : j = .null
          · subst hj
            rw [if_pos (by rfl)] at hr
            cases hr
            exact .nilNull hb hm hnd
          · rw [if_neg (fun hx => hj (jtyp_eq_null hx))] at hr
            cases hr
            exact .nilPtr hb hm hnd hj
        | ptr hb' hv =>
          rw [hb] at hb'; cases hb'
          dsimp only at hr
          split at hr
          · rename_i hq'
            cases hr
            exact .ptr hb hm hnd (decode_reads hU hE hM hS hs _ _ _ _ _ _ _ _ hd hv hn hq')
          · cases r with
            | done y e => rename_i hx; exact absurd hr (hx _ _)
            | panic => exact .ptr (r := .panic) hb hm hnd (decode_reads hU hE hM hS hs _ _ _ _ _ _ _ _ hd hv hn hr)
        | _ => simp_all
      · cases hc
      · cases hc
  · exact absurd (.value fun e h => hp ⟨e, h⟩) hnr

end Verif.Unjson
