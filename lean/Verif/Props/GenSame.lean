import Verif.Proofs.GenSame
import Verif.Props.GenAppend
import Verif.Props.UnTotal

/-! # C104: generated AppendJSON methods and `Marshal` -/

namespace Verif.Gen
open Verif Verif.Float Verif.Spec Verif.Njson Verif.Unjson Verif.Props

theorem look_alike {ord : Bool} {E : Env} (hU : E.U.Ok) (hE : E.U.EmbedsStructs) {o : GenOptions} {j : Nat} {fs : List GV} {cs : List Cand}
    (hty : HasTy E.U (.struct j) (.struct fs)) (hc : Cands E.U defaultOptions (E.U.fields j) 0 [] cs) (hss : SameStruct ord E o j cs)
    {p : Pick} (hp : p ∈ appendPicks E o j) {x : GV} (hx : look (.struct fs) p.field.path = some x) :
    ∃ c ∈ resolve [] cs, SameField c p ∧ sub (.struct fs) c.index = some x := by
  obtain ⟨ds, h1, _, h2⟩ := hss
  have : ∃ c ∈ ds, SameField c p := by
    clear h1
    generalize appendPicks E o j = ps at h2 hp
    clear * - h2 hp
    induction h2 with
    | nil => cases hp
    | cons hr _ ih =>
      rcases List.mem_cons.1 hp with rfl | hp
      · exact ⟨_, List.mem_cons_self, hr⟩
      · obtain ⟨c, hc, h⟩ := ih hp
        exact ⟨c, List.mem_cons_of_mem _ hc, h⟩
  obtain ⟨c, hcd, hcp⟩ := this
  have hcr := h1.mem_iff.2 hcd
  obtain ⟨l1, l2, l3⟩ := resolve_leads hU hE hc hty c hcr
  rw [hcp.path] at l1 l2 l3
  refine ⟨c, hcr, hcp, ?_⟩
  cases hs : sub (.struct fs) c.index with
  | none => rw [l1 hs] at hx; cases hx
  | some y =>
    by_cases hy : y = .nilPtr
    · subst hy; rw [l2 hs] at hx; cases hx
    · rw [l3 y hy hs] at hx; cases hx; rfl

theorem alike_numKeys {ord : Bool} {E : Env} (hU : E.U.Ok) (hE : E.U.EmbedsStructs) {o : GenOptions} {t : Ty} {v : GV} (h : Alike ord E o t v) :
    HasTy E.U t v → NumKeys E o t v := by
  induction h with
  | bool _ hb | int _ hb | uint _ hb | float _ hb | str _ hb =>
    intro _
    exact .leaf (by simp [hb]) (by simp [hb]) (by simp [hb]) (by simp [hb])
  | nilPtr => exact fun _ => .nilPtr
  | ptr _ hb _ _ ih =>
    intro hty
    rcases hty.inv_ptr hb with h | ⟨x, h, hx⟩
    · cases h
    · cases h; exact .ptr hb (ih hx)
  | nilSlice => exact fun _ => .nilSlice
  | slice _ hb _ ih =>
    intro hty
    rcases hty.inv_slice hb with h | ⟨_, _, h, _, hx⟩
    · cases h
    · cases h; exact .slice hb fun x hx' => ih x hx' (hx x (List.mem_of_mem_take hx'))
  | emptyMap _ hb => exact fun _ => .map hb (.inr rfl) (fun p hp => by cases hp) (fun p hp => by cases hp)
  | struct hm hc hss ha _ ih =>
    intro hty
    refine .struct fun p hp x hx => ?_
    obtain ⟨c, h1, h2, h3⟩ := look_alike hU hE hty hc hss hp hx
    rw [← h2.typ]
    exact ih c h1 x h3 (sub_hasTy (cands_path0 hE rfl hc c h1) hty h3)

theorem alike_noStops {ord : Bool} {E : Env} (hU : E.U.Ok) (hE : E.U.EmbedsStructs) (hO : E.U.NoOmitMethod) {o : GenOptions} {s : Stop} {t : Ty} {v : GV}
    (h : GStops E o s t v) :
    HasTy E.U t v → ¬ Alike ord E o t v := by
  have nm : ∀ {t v}, Alike ord E o t v → NoMarshal E.U t := by
    intro t v h
    cases h <;> assumption
  induction h with
  | appender h => intro _ ha; rw [(nm ha).1] at h; cases h
  | json _ h => intro _ ha; rw [(nm ha).2.1] at h; cases h
  | text _ _ h => intro _ ha; rw [(nm ha).2.2] at h; cases h
  | ptr _ hb _ _ ih =>
    intro hty ha
    rcases hty.inv_ptr hb with h | ⟨x, h, hx⟩
    · cases h
    · cases h
      cases ha with
      | ptr _ hb' _ ha => rw [hb] at hb'; cases hb'; exact ih hx ha
  | slice _ hb hx' _ ih =>
    intro hty ha
    rcases hty.inv_slice hb with h | ⟨_, _, h, _, hx⟩
    · cases h
    · cases h
      cases ha with
      | slice _ hb' ha => rw [hb] at hb'; cases hb'; exact ih (hx _ (List.mem_of_mem_take hx')) (ha _ hx')
  | map _ hb hp _ ih =>
    intro hty ha
    cases ha with
    | emptyMap => cases hp
  | struct _ hp hl _ _ ih =>
    intro hty ha
    cases ha with
    | struct hm hc hss ha _ =>
      obtain ⟨c, h1, h2, h3⟩ := look_alike hU hE hty hc hss hp hl
      refine ih ?_ ?_
      · rw [← h2.typ]; exact sub_hasTy (cands_path0 hE rfl hc c h1) hty h3
      · rw [← h2.typ]; exact ha c h1 _ h3
  | omits _ _ _ _ h => intro _ _; rw [hO] at h; cases h

end Verif.Gen

namespace Verif.Props
open Verif Verif.Float Verif.Spec Verif.Njson Verif.Unjson Verif.Gen

/-- **C104 (partial)**: for a struct value as in `Alike`, the text that the generated method appends and the text that `Marshal` returns, for the value or
a pointer to it, are texts of trees that are the same up to the order of members; the same text if the fields are declared in the order of
their tags.
Missing from the full claim: values with nil maps or maps with entries, fields that are nil pointers, floats beyond the precision of a float32, types with
marshal methods (`C104_false`). -/
theorem C104_same_partial {ord : Bool} {E : Env} (hE : E.Ok) (hS : E.U.EmbedsStructs) (hO : E.U.NoOmitMethod) (hH : Hooks E.U) (hF : Floats64 E.U)
    (hF' : E.U.GoFloats) {o : GenOptions} {fuel : Nat} {j : Nat} {b : ABlock} (h : typeAppender E o fuel (.struct j) [] = .ok b)
    (hc : appenderCompiles E b (.struct j) = true) {v : GV} (hv : HasTy E.U (.struct j) v) (ha : Alike ord E o (.struct j) v)
    {t : Ty} {w : GV} (hw : t = .struct j ∧ w = v ∨ t = .ptr (.struct j) ∧ w = .ptr v) (hm : MarshalArg E.U t w) {fuel' : Nat} {text : Bytes}
    (hr : marshal E.U fuel' (some (t, w)) = some (.done text none)) :
    ∃ j1 j2 : JVal, (∀ out, runAppender E.U o b (.struct j) (.ptr v) out = some (.done (out ++ j1.ser) none)) ∧ text = j2.ser ∧ SameTree j1 j2 ∧
      (ord = true → j1.ser = text) := by
  have hnm : NoMarshal E.U (.struct j) := by cases ha <;> assumption
  have hs : ASupported E o (.struct j) := (C77_append_supported E o (.struct j) []).1 ⟨fuel, b, h⟩
  rcases C78_writes_partial hE hH hF h hc hnm hv (alike_numKeys hE.univ hS ha hv) with ⟨j1, h1, -, h2⟩ | ⟨hx, _⟩ | ⟨hx, _⟩
  · rcases C47_encodes hS hO hF' hm fuel' [] _ hr with ⟨j2, h3, h4⟩ | ⟨_, _, h3⟩
    · cases h3
      have henc : Encodes E.U defaultOptions Hint.none (.struct j) v j2 := by
        rcases hw with ⟨rfl, rfl⟩ | ⟨rfl, rfl⟩
        · rcases h4 with ⟨_, h4⟩ | ⟨e, x, _, h4, _⟩
          · exact h4
          · cases h4
        · rcases h4 with ⟨h4, _⟩ | ⟨e, x, hx, h4, h5⟩
          · exact absurd rfl (h4 _)
          · cases hx; cases h4; exact h5
      obtain ⟨s1, s2⟩ := alike_same hE.univ hS hO ha hv hs [] Hint.none j1 j2 (by simp) rfl rfl h1 henc
      exact ⟨j1, j2, h2, by simp, s1, fun h => by rw [s2 h]; simp⟩
    · cases h3
  · exact absurd ha (alike_noStops hE.univ hS hO hx hv)
  · exact absurd ha (alike_noStops hE.univ hS hO hx hv)

/-- **C104 (partial)**: and both do return, for the types that `Marshal` supports. -/
theorem C104_returns_partial {ord : Bool} {E : Env} (hE : E.Ok) (hS : E.U.EmbedsStructs) (hO : E.U.NoOmitMethod) (hH : Hooks E.U) (hF : Floats64 E.U)
    (hF' : E.U.GoFloats) {o : GenOptions} {fuel : Nat} {j : Nat} {b : ABlock} (h : typeAppender E o fuel (.struct j) [] = .ok b)
    (hc : appenderCompiles E b (.struct j) = true) {v : GV} (hv : HasTy E.U (.struct j) v) (ha : Alike ord E o (.struct j) v)
    (hm : MarshalArg E.U (.struct j) v) (hf : Unjson.Finite E.U defaultOptions (.struct j)) (hd : FiniteDyn E.U defaultOptions (.struct j) v)
    (hs : Supported E.U (.struct j)) (hq : Marshalable E.U defaultOptions (.struct j) v) :
    ∃ (j1 j2 : JVal) (N : Nat), (∀ out, runAppender E.U o b (.struct j) (.ptr v) out = some (.done (out ++ j1.ser) none)) ∧
      (∀ fuel', N ≤ fuel' → marshal E.U fuel' (some (.struct j, v)) = some (.done j2.ser none)) ∧ SameTree j1 j2 ∧ (ord = true → j1.ser = j2.ser) := by
  obtain ⟨N, j3, _, h3⟩ := C73_success hE.univ hS hO hF' hm hf hd hs hq []
  have h4 := h3 N (Nat.le_refl _)
  obtain ⟨j1, j2, h5, h6, h7, h8⟩ := C104_same_partial hE hS hO hH hF hF' h hc hv ha (.inl ⟨rfl, rfl⟩) hm (fuel' := N) (text := j3.ser) h4
  refine ⟨j1, j2, N, h5, fun fuel' hn => ?_, h7, fun ho => by rw [h8 ho, h6]⟩
  rw [← h6]
  exact h3 fuel' hn

/-- The example: `T21{A: 3, V: T1{X: true}}` -/
def sameV : GV := .struct [.int 3, .struct [.bool true]]

def cand (key : Bytes) (i : Int) (t : Ty) : Cand := ⟨key, [i], t, Hint.none⟩

theorem same_cands1 : Cands genE.U defaultOptions (genE.U.fields 1) 0 [] [cand b!"X" 0 .bool] :=
  .field (idx' := [0]) rfl (by decide +kernel) rfl .nil

theorem same_cands21 : Cands genE.U defaultOptions (genE.U.fields 21) 0 [] [cand b!"a" 0 (.int .b8), cand b!"v" 1 (.struct 1)] :=
  .field (idx' := [0]) rfl (by decide +kernel) rfl (.field (idx' := [1]) rfl (by decide +kernel) rfl .nil)

theorem same_alike : Alike true genE {} (.struct 21) sameV := by
  have h1 : resolve [] [cand b!"X" 0 .bool] = [cand b!"X" 0 .bool] := rfl
  have h2 : resolve [] [cand b!"a" 0 (.int .b8), cand b!"v" 1 (.struct 1)] = [cand b!"a" 0 (.int .b8), cand b!"v" 1 (.struct 1)] := by rfl
  have p1 : appendPicks genE {} 1 = [⟨b!"X", [], gfld b!"X" .bool 0⟩] := by rfl
  have p2 : appendPicks genE {} 21 = [⟨b!"a", [], gfld b!"A" (.int .b8) 0 b!"a"⟩, ⟨b!"v", [], gfld b!"V" (.struct 1) 1 b!"v"⟩] := by rfl
  refine .struct (noM (by simp)) same_cands21 ⟨_, List.Perm.refl _, fun _ => rfl, ?_⟩ ?_ ?_
  · rw [h2, p2]
    exact .cons ⟨rfl, rfl, rfl, by simp [cand, Hint.none], rfl, rfl, by simp⟩ (.cons ⟨rfl, rfl, rfl, by simp [cand, Hint.none], rfl, rfl, by simp⟩ .nil)
  · rw [h2]
    intro c hc x hx
    simp only [List.mem_cons, List.not_mem_nil, or_false] at hc
    rcases hc with rfl | rfl <;> cases hx
    · exact .int (k := .b8) (noM (by simp [cand])) rfl
    · refine .struct (noM (by simp)) same_cands1 ⟨_, List.Perm.refl _, fun _ => rfl, ?_⟩ ?_ ?_
      · rw [h1, p1]
        exact .cons ⟨rfl, rfl, rfl, by simp [cand, Hint.none], rfl, rfl, by simp⟩ .nil
      · rw [h1]
        intro c hc x hx
        simp only [List.mem_cons, List.not_mem_nil, or_false] at hc
        subst hc; cases hx
        exact .bool (noM (by simp [cand])) rfl
      · rw [h1]
        intro c hc hx
        simp only [List.mem_cons, List.not_mem_nil, or_false] at hc
        subst hc; cases hx
  · rw [h2]
    intro c hc hx
    simp only [List.mem_cons, List.not_mem_nil, or_false] at hc
    rcases hc with rfl | rfl <;> cases hx

/-- The hypotheses of C104 are met by it, and this is what both write. -/
example : genE.Ok ∧ genE.U.EmbedsStructs ∧ genE.U.NoOmitMethod ∧ Hooks genE.U ∧ Floats64 genE.U ∧ genE.U.GoFloats ∧ HasTy genE.U (.struct 21) sameV ∧
    Alike true genE {} (.struct 21) sameV ∧ MarshalArg genE.U (.struct 21) sameV ∧
    (∃ b, typeAppender genE {} 10 (.struct 21) [] = .ok b ∧ appenderCompiles genE b (.struct 21) = true ∧
      runAppender genE.U {} b (.struct 21) (.ptr sameV) [] = some (.done b!"{\"a\":3,\"v\":{\"X\":true}}" none)) ∧
    marshal genE.U 30 (some (.struct 21, sameV)) = some (.done b!"{\"a\":3,\"v\":{\"X\":true}}" none) := by
  refine ⟨genE_ok, genU_embeds, genU_omit, genU_hooks, genU_floats, genU_goFloats, ?_, same_alike, ?_, appendText (by decide +kernel), eq_of_sameB (by decide +kernel)⟩
  · refine .struct rfl rfl ?_
    intro i f v hf hv
    match i with
    | 0 => cases hf; cases hv; exact .int (k := .b8) rfl (by decide) (by decide)
    | 1 =>
      cases hf; cases hv
      refine .struct rfl rfl ?_
      intro i f v hf hv
      match i with
      | 0 => cases hf; cases hv; exact .bool rfl
      | i + 1 => cases hf
    | i + 2 => cases hf
  · refine .inl ⟨by intro e; nofun, noM (by simp), .struct (noM (by simp)) rfl rfl ?_⟩
    intro i f v hf hv _
    match i with
    | 0 => cases hf; cases hv; exact .int (k := .b8) (noM (by simp [fld])) rfl
    | 1 =>
      cases hf; cases hv
      refine .struct (noM (by simp [fld])) rfl rfl ?_
      intro i f v hf hv _
      match i with
      | 0 => cases hf; cases hv; exact .bool (noM (by simp [fld])) rfl
      | i + 1 => cases hf
    | i + 2 => cases hf

theorem same_comp {t' : Ty} (h : Comp genE.U (.struct 21) t') : t' = .struct 21 ∨ t' = .struct 1 ∨ t' = .int .b8 ∨ t' = .bool := by
  have key : ∀ {t t'}, Comp genE.U t t' → (t = .struct 21 ∨ t = .struct 1 ∨ t = .int .b8 ∨ t = .bool) →
      (t' = .struct 21 ∨ t' = .struct 1 ∨ t' = .int .b8 ∨ t' = .bool) := by
    intro t t' h
    induction h with
    | refl => exact id
    | ptr hb _ ih => rintro (rfl | rfl | rfl | rfl) <;> cases hb
    | slice hb _ ih => rintro (rfl | rfl | rfl | rfl) <;> cases hb
    | array hb _ ih => rintro (rfl | rfl | rfl | rfl) <;> cases hb
    | map hb _ ih => rintro (rfl | rfl | rfl | rfl) <;> cases hb
    | @field t j f t' hb hf _ _ ih =>
      rintro (rfl | rfl | rfl | rfl) <;> cases hb <;> simp [genE, genU, genFields] at hf
      · rcases hf with rfl | rfl <;> exact ih (by simp [fld])
      · subst hf; exact ih (by simp [fld])
  exact key h (.inl rfl)

/-- And so are those of the second theorem. -/
example : Unjson.Finite genE.U defaultOptions (.struct 21) ∧ Supported genE.U (.struct 21) ∧ FiniteDyn genE.U defaultOptions (.struct 21) sameV ∧
    Marshalable genE.U defaultOptions (.struct 21) sameV := by
  have key : ∀ {F : Options → Flt → Prop} {D : Ty → Prop}, Parts genE.U F D defaultOptions (.struct 21) sameV := by
    intro F D
    refine .struct rfl ?_
    intro i f v hf hv _
    match i with
    | 0 => cases hf; cases hv; exact .leaf (by simp [fld, Univ.base]) (by simp [fld, Univ.base]) (by simp [fld, Univ.base]) (by simp [fld, Univ.base]) (by simp [fld, Univ.base]) (by simp [fld, Univ.base]) (by simp [fld, Univ.base])
    | 1 =>
      cases hf; cases hv
      refine .struct rfl ?_
      intro i f v hf hv _
      match i with
      | 0 => cases hf; cases hv; exact .leaf (by simp [fld, Univ.base]) (by simp [fld, Univ.base]) (by simp [fld, Univ.base]) (by simp [fld, Univ.base]) (by simp [fld, Univ.base]) (by simp [fld, Univ.base]) (by simp [fld, Univ.base])
      | i + 1 => cases hf
    | i + 2 => cases hf
  refine ⟨⟨⟨[.struct 21, .struct 1, .int .b8, .bool], fun t' hc => by simpa using same_comp hc⟩, fun t' hc => ?_, fun t' j hc hb => ?_⟩, fun t' hc => ?_, key, key⟩
  · rcases same_comp hc with rfl | rfl | rfl | rfl <;> exact .leaf (by simp [Univ.base])
  · rcases same_comp hc with rfl | rfl | rfl | rfl <;> cases hb
    · exact ⟨_, same_cands21⟩
    · exact ⟨_, same_cands1⟩
  · rcases same_comp hc with rfl | rfl | rfl | rfl <;> simp [Univ.base]

/-- `struct { B bool "z"; A bool "a" }` -/
def orderE : Env :=
  { genE with
    U := { genU with fields := fun _ => [fld b!"B" .bool b!"z", fld b!"A" .bool b!"a"], zeroStruct := fun _ => .struct [.bool false, .bool false] }
    fields := fun _ => [[gfld b!"B" .bool 0 b!"z"], [gfld b!"A" .bool 1 b!"a"]] }

/-- The full claim is false: a nil map is `{}` for the generated code and `null` for `Marshal`; -/
theorem C104_false_map : (∃ b, typeAppender genE {} 10 (.struct 9) [] = .ok b ∧ appenderCompiles genE b (.struct 9) = true ∧
      runAppender genE.U {} b (.struct 9) (.ptr (.struct [.nilMap])) [] = some (.done b!"{\"m\":{}}" none)) ∧
    marshal genE.U 30 (some (.struct 9, .struct [.nilMap])) = some (.done b!"{\"m\":null}" none) :=
  ⟨appendText (by decide +kernel), eq_of_sameB (by decide +kernel)⟩

/-- a field that is a nil pointer is left out by the generated code; -/
theorem C104_false_pointer : (∃ b, typeAppender genE {} 10 (.struct 19) [] = .ok b ∧ appenderCompiles genE b (.struct 19) = true ∧
      runAppender genE.U {} b (.struct 19) (.ptr (.struct [.map [], .nilPtr, .str []])) [] = some (.done b!"{\"m\":{},\"s\":\"\"}" none)) ∧
    marshal genE.U 30 (some (.struct 19, .struct [.map [], .nilPtr, .str []])) = some (.done b!"{\"m\":{},\"p\":null,\"s\":\"\"}" none) :=
  ⟨appendText (by decide +kernel), eq_of_sameB (by decide +kernel)⟩

/-- the generated code has the keys of maps in two pairs of quotes; -/
theorem C104_false_keys : (∃ b, typeAppender genE {} 10 (.struct 9) [] = .ok b ∧ appenderCompiles genE b (.struct 9) = true ∧
      runAppender genE.U {} b (.struct 9) (.ptr (.struct [.map [(.str b!"k", .int 1)]])) [] = some (.done b!"{\"m\":{\"\"k\"\":1}}" none)) ∧
    marshal genE.U 30 (some (.struct 9, .struct [.map [(.str b!"k", .int 1)]])) = some (.done b!"{\"m\":{\"k\":1}}" none) :=
  ⟨appendText (by decide +kernel), eq_of_sameB (by decide +kernel)⟩

/-- and it writes the fields in the order of their tags, `Marshal` in the order in which they are declared. -/
theorem C104_false_order : (∃ b, typeAppender orderE {} 10 (.struct 0) [] = .ok b ∧ appenderCompiles orderE b (.struct 0) = true ∧
      runAppender orderE.U {} b (.struct 0) (.ptr (.struct [.bool true, .bool false])) [] = some (.done b!"{\"a\":false,\"z\":true}" none)) ∧
    marshal orderE.U 30 (some (.struct 0, .struct [.bool true, .bool false])) = some (.done b!"{\"z\":true,\"a\":false}" none) :=
  ⟨appendText (by decide +kernel), eq_of_sameB (by decide +kernel)⟩

end Verif.Props
