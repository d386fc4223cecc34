import Verif.Proofs.UnShown
import Verif.Props.UnMapOrder

/-! # Marshal sees only what it writes (C148) -/

namespace Verif.Props
open Verif Verif.Float Verif.Spec Verif.Njson Verif.Unjson

theorem agrees_end {out out' : Bytes} {w : Except Fail Bytes} {r r' : Out Bytes} (h : Agrees out w r) (h' : Agrees out' w r') : SameEnd out out' r r' := by
  cases w with
  | ok s => exact .inl ⟨s, h, h'⟩
  | error f =>
    cases f with
    | err e => obtain ⟨b, rfl⟩ := h; obtain ⟨b', rfl⟩ := h'; exact .inr (.inl ⟨b, b', e, rfl, rfl⟩)
    | panic => exact .inr (.inr ⟨h, h'⟩)

/-- **C148**, `AppendJSON` and `Marshal`: values that differ only in what is not written give the same text, the same error, or both panic. -/
theorem C148_marshal {U : Univ} (hU : U.Program) {t : Ty} {v v' : GV} (hv : HasTy U t v) (hv' : HasTy U t v') (hs : SameArg U defaultOptions t v v')
    {f f' : Nat} {out out' : Bytes} {r r' : Out Bytes} (h : Unjson.appendJSON U f out (some (t, v)) = some r)
    (h' : Unjson.appendJSON U f' out' (some (t, v')) = some r') : SameEnd out out' r r' := by
  obtain ⟨w, h1, h2⟩ := C87_exact hU hv f out r h
  obtain ⟨w', h1', h2'⟩ := C87_exact hU hv' f' out' r' h'
  cases C87_one (wArg_shown h1 _ hs) h1'
  exact agrees_end h2 h2'

/-- **C148**, an `Encoder` made with any options. -/
theorem C148_encoder {U : Univ} (hU : U.Program) {o o' : Options} (ho : InForce o o') {t : Ty} {v v' : GV} (hv : HasTy U t v) (hv' : HasTy U t v')
    (hs : SameArg U o' t v v') {fuel : Nat} {m : TypeEncoder} (hm : newTypeEncoder U o fuel t = .ok m) {f f' : Nat} {out out' : Bytes} {r r' : Out Bytes}
    (h : m.encodeArg U f out (some (t, v)) = some r) (h' : m.encodeArg U f' out' (some (t, v')) = some r') : SameEnd out out' r r' := by
  obtain ⟨w, h1, h2⟩ := C87_encoder hU ho hv fuel m hm f out r h
  obtain ⟨w', h1', h2'⟩ := C87_encoder hU ho hv' fuel m hm f' out' r' h'
  cases C87_one (wArg_shown h1 _ hs) h1'
  exact agrees_end h2 h2'

/-- **C148**: a field that is not exported, or whose tag is `-`, may hold anything. -/
theorem C148_field {U : Univ} {o : Options} {t : Ty} {j : Nat} (hb : U.base t = .struct j) (hm : marshalMeth U t = none) (hn : NoOmit U o.omitMethod t)
    {cs : List Cand} (hc : Cands U o (U.fields j) 0 [] cs) {i : Nat} {f : Field} (hf : (U.fields j)[i]? = some f)
    (hx : f.exported = false ∨ (o.parseField f).1 = b!"-") (fs : List GV) (x : GV) : SameShown U o t (.struct fs) (.struct (fs.set i x)) := by
  have key : ∀ c ∈ resolve [] cs, sub (.struct fs) c.index = sub (.struct (fs.set i x)) c.index := by
    intro c h
    have hcs : c ∈ cs := by rcases resolve_mem h with h | h <;> [cases h; exact h]
    obtain ⟨k, r, hi, _, g, hg, hg1, hg2⟩ := cands_skipped hc c hcs
    have hk : i ≠ k := by
      rintro rfl
      rw [Nat.sub_zero, hf] at hg; cases hg
      rcases hx with h | h
      · rw [hg1] at h; cases h
      · exact hg2 h
    rw [hi, List.nil_append, sub_cons, sub_cons, if_neg (by omega), if_neg (by omega)]
    simp [List.getElem?_set_ne hk]
  exact .struct hb hm hn hc (fun c h => by rw [key c h]) (fun c h a b ha hb => by rw [key c h, hb] at ha; cases ha; exact .same)

/-- **C148**: so may the elements behind the length of a slice. -/
theorem C148_spare {U : Univ} {o : Options} {t e : Ty} (hb : U.base t = .slice e) (hm : marshalMeth U t = none) (hn : NoOmit U o.omitMethod t)
    (xs rest rest' : List GV) : SameShown U o t (.slice (xs ++ rest) xs.length) (.slice (xs ++ rest') xs.length) := by
  refine .slice hb hm hn (by simp) ?_
  rw [List.take_left', List.take_left'] <;> try rfl
  exact elems_shown xs

/-! ### The example -/

/-- Struct type 0 is `struct { A int; s string; D bool "-" }`. -/
def exHFields : Nat → List Field
  | 0 => [fld b!"A" (.int .std), ⟨b!"s", [], false, false, .string⟩, fld b!"D" .bool b!"-"]
  | _ => []

def exH : Univ := { exU with fields := exHFields, zeroStruct := fun i => if i = 0 then .struct [.int 0, .str [], .bool false] else .struct [] }

theorem exH_program : exH.Program where
  ok :=
    { under_base := exU_ok.under_base
      under_struct := exU_ok.under_struct
      zero_struct := by
        intro i
        unfold exH exHFields
        dsimp only
        split <;> simp_all [fld, Univ.zero]
      zero_named := by
        intro i
        unfold exH exU exUnder
        dsimp only
        split <;> simp [Univ.zero] }
  embeds := by
    intro j f e hf ha hb
    unfold exH exHFields at hf
    dsimp only at hf
    split at hf <;> simp at hf
    rcases hf with rfl | rfl | rfl <;> cases ha
  ifaces := fun _ _ _ _ _ => rfl
  floats := ⟨exU_floats.plain, exU_floats.exp, exU_floats.over, exU_floats.single⟩
  appends := fun _ _ _ => ⟨rfl, rfl, fun h => by cases h⟩
  paired := by
    intro h t s hu
    refine absurd ?_ hu
    simp [unmarshalMeth, exH, exU]

theorem exH_cands : Cands exH defaultOptions (exH.fields 0) 0 [] [⟨b!"A", [0], .int .std, Hint.none⟩] :=
  .field (f := fld b!"A" (.int .std)) rfl (by decide) rfl (.skip (.inl rfl) (.skip (.inr (by decide)) .nil))

theorem exH_ty (s : Bytes) (d : Bool) : HasTy exH (.struct 0) (.struct [.int 7, .str s, .bool d]) := by
  refine .struct (j := 0) rfl rfl ?_
  intro i f v hf hv
  match i with
  | 0 => cases hf; cases hv; exact .int rfl (by decide) (by decide)
  | 1 => cases hf; cases hv; exact .str rfl
  | 2 => cases hf; cases hv; exact .bool rfl
  | i + 3 => cases hf

/-- The hypotheses hold, for a value and for a pointer to it. -/
example : exH.Program ∧ HasTy exH (.struct 0) (.struct [.int 7, .str b!"x", .bool true]) ∧ HasTy exH (.struct 0) (.struct [.int 7, .str b!"y", .bool true]) ∧
    SameArg exH defaultOptions (.struct 0) (.struct [.int 7, .str b!"x", .bool true]) (.struct [.int 7, .str b!"y", .bool true]) ∧
    SameArg exH defaultOptions (.ptr (.struct 0)) (.ptr (.struct [.int 7, .str b!"x", .bool true])) (.ptr (.struct [.int 7, .str b!"x", .bool false])) ∧
    marshal exH 30 (some (.struct 0, .struct [.int 7, .str b!"x", .bool true])) = some (.done b!"{\"A\":7}" none) ∧
    marshal exH 30 (some (.struct 0, .struct [.int 8, .str b!"x", .bool true])) = some (.done b!"{\"A\":8}" none) := by
  have hn : NoOmit exH defaultOptions.omitMethod (.struct 0) := ⟨rfl, fun _ _ => rfl, fun _ => rfl⟩
  have hb : exH.base (.struct 0) = .struct 0 := rfl
  refine ⟨exH_program, exH_ty _ _, exH_ty _ _, .value (by intro e h; cases h) (by decide) ?_, .ptr (e := .struct 0) rfl (by decide) ?_,
    eq_of_sameB (by decide +kernel), eq_of_sameB (by decide +kernel)⟩
  · exact C148_field hb (by decide) hn exH_cands (i := 1) rfl (.inl rfl) [.int 7, .str b!"x", .bool true] (.str b!"y")
  · exact C148_field hb (by decide) hn exH_cands (i := 2) rfl (.inr (by decide)) [.int 7, .str b!"x", .bool true] (.bool false)

/-- A field of an embedded struct that an outer field hides: type 10 of the example is `struct { X bool; E }` where `E` has a field `X`. -/
example : exU.Program ∧ SameShown exU defaultOptions (.struct 10) (.struct [.bool true, .struct [.bool true]]) (.struct [.bool true, .struct [.bool false]]) ∧
    marshal exU 30 (some (.struct 10, .struct [.bool true, .struct [.bool false]])) = some (.done b!"{\"X\":true}" none) := by
  refine ⟨exU_program, ?_, eq_of_sameB (by decide +kernel)⟩
  have h2 : Cands exU defaultOptions (exU.fields 2) 0 [1] [⟨b!"X", [1, 0], .bool, Hint.none⟩] := .field (f := fld b!"X" .bool) rfl (by decide) rfl .nil
  have h1 : Cands exU defaultOptions [fld b!"E" (.struct 2) [] true] 1 [] ([⟨b!"X", [1, 0], .bool, Hint.none⟩] ++ []) :=
    .embed (j := 2) rfl (by decide) rfl h2 .nil
  have h0 : Cands exU defaultOptions (exU.fields 10) 0 [] [⟨b!"X", [0], .bool, Hint.none⟩, ⟨b!"X", [1, 0], .bool, Hint.none⟩] :=
    .field (f := fld b!"X" .bool) rfl (by decide) rfl h1
  have hr : resolve [] [⟨b!"X", [0], .bool, Hint.none⟩, ⟨b!"X", [1, 0], .bool, Hint.none⟩] = [(⟨b!"X", [0], .bool, Hint.none⟩ : Cand)] := rfl
  refine .struct (j := 10) rfl (by decide) ⟨rfl, fun _ _ => rfl, fun _ => rfl⟩ h0 ?_ ?_
  · rw [hr]; intro c hc; simp at hc; subst hc; simp [sub]
  · rw [hr]; intro c hc x y hx hy
    simp at hc; subst hc
    simp [sub] at hx hy; subst hx; subst hy; exact .same

/-- Elements behind the length of a slice of an interface value. -/
example : SameArg exU defaultOptions .any (.iface (.slice .bool) (.slice [.bool true, .bool true] 1)) (.iface (.slice .bool) (.slice [.bool true, .bool false] 1)) ∧
    marshal exU 30 (some (.slice .bool, .slice [.bool true, .bool false] 1)) = some (.done b!"[true]" none) :=
  ⟨.value (by intro e h; cases h) (by decide) (.iface (i := 0) rfl (by decide) ⟨rfl, fun _ _ => rfl, fun _ => rfl⟩ (by intro e h; cases h) (by decide)
    (C148_spare rfl (by decide) ⟨rfl, fun _ _ => rfl, fun _ => rfl⟩ [.bool true] [.bool true] [.bool false])), eq_of_sameB (by decide +kernel)⟩

end Verif.Props
