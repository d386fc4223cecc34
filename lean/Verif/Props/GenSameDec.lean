import Verif.Proofs.GenSameDec
import Verif.Props.GenDec
import Verif.Props.GenSame
import Verif.Props.UnTotal

/-! # C106: generated UnmarshalNodeJSON methods and `Unmarshal` -/

namespace Verif.Props
open Verif Verif.Float Verif.Spec Verif.Njson Verif.Unjson Verif.Gen

/-- **C106 (partial)**: a text whose first value is read alike, as `ReadAlike` says, into a struct: the generated method, after `Parse`, and `Unmarshal` store
the same and return no error.
Missing from the full claim: the texts and variables that `ReadAlike` leaves out (`C106_false_array` and so on). -/
theorem C106_same_partial {E : Env} (hE : E.Ok) (hS : E.U.EmbedsStructs) (hH : UHooks E) {o : GenOptions} {gf : Nat} {i : Nat} {b : UBlock}
    (hb : typeUnmarshaler E o gf (.struct i) = .ok b) (hc : unmarshalerCompiles E b (.struct i) = true) {v : GV}
    (hv : UnmarshalArg E.U (.ptr (.struct i)) (.struct i) v) (hF : Unjson.Finite E.U decodeOptions (.struct i))
    (hP : ∀ t', Comp E.U (.struct i) t' → PtrEnds E.U t') (hs : Supported E.U (.struct i)) {d : Doc} (hd : d.Wf) {s : Bytes} {d' : Doc} {id : Nat} {j : JVal}
    {tail : Bytes} (hp : Parses d s d' id j tail) (ha : ReadAlike E o (.struct i) v j) :
    ∃ y N, ∀ fuel, N ≤ fuel → parseInto E fuel d b (.struct i) v s = some (.done y none) ∧
      unmarshal E.U fuel d s (some (.ptr (.struct i), .ptr v)) = some (.done (some (.ptr (.struct i), .ptr y)) none) := by
  obtain ⟨y, h1, h2⟩ := alike_both hE.univ hS ha hv.typed
  obtain ⟨N1, r, h3⟩ := C74_returns (t := .ptr (.struct i)) hS (.ptr v) (by intro e he; cases he; exact ⟨hF, hP⟩) hd s
  obtain ⟨N2, c, h4⟩ := newTypeDecoder_total (tag := []) hE.univ (t := .ptr (.struct i)) (e := .struct i) rfl hF hs
  refine ⟨y, max N1 (max N2 j.size), fun fuel hf => ⟨?_, ?_⟩⟩
  · rcases C79_text hE hH hb hc hd hv.typed s with ⟨hn, -⟩ | ⟨d2, id2, j2, tail2, hp2, hrun⟩
    · exact absurd ⟨_, _, _, _, hp⟩ hn
    · obtain ⟨rfl, rfl⟩ := parses_unique hd hp hp2
      rcases hrun fuel (by omega) with ⟨hj, -⟩ | ⟨-, hp, -⟩ | ⟨-, -, y', err, k1, k2, -⟩
      · subst hj
        cases ha with
        | ptrNull _ h => cases h
        | sliceNull _ h => cases h
        | mapNull _ h => cases h
        | ptrNew _ _ h => exact absurd rfl h
        | ptr _ _ h => exact absurd rfl h
      · exact absurd h1 (panics_not_gdec hp _ _)
      · obtain ⟨rfl, rfl⟩ := gdec_fun h1 k2
        exact k1
  · have h5 := h3 fuel (by omega)
    rcases unmarshal_tree hE.univ hS hv fuel hd s r h5 hp with ⟨err, he, -⟩ | ⟨r', k1, k2⟩
    · rw [h4 fuel (by omega)] at he; cases he
    · obtain rfl := decodes_unique h2 _ k1
      rw [h5, k2]
      rfl

theorem genU_noUnmarshal (t : Ty) : NoUnmarshal genE.U t := by
  have : ∀ m, m ≠ .appender → genE.U.impl t m = false := by
    intro m hm
    show decide (_ ∧ m = .appender) = false
    simp [hm]
  exact ⟨this _ (by simp), this _ (by simp), this _ (by simp)⟩

theorem genE_unmarshals {t : Ty} (h : t ≠ .named 1) : ¬ Unmarshals genE t := by
  rintro (h' | h' | h')
  · cases h'
  · simp [genE, h] at h'
  · exact h' (genU_noUnmarshal _)

/-- The example: `T19{M: map[string]bool{}, P: nil, S: "old"}` -/
def readV : GV := .struct [.map [], .nilPtr, .str b!"old"]

def readJ : JVal := .obj [(b!"p", .obj [(b!"X", .bool true)]), (b!"u", .arr []), (b!"m", .obj [(b!"k", .bool true)])]

theorem read_cands1 : Cands genE.U decodeOptions (genE.U.fields 1) 0 [] [cand b!"X" 0 .bool] :=
  .field (idx' := [0]) rfl (by decide +kernel) rfl .nil

def cands19 : List Cand := [cand b!"m" 0 (.map .string .bool), cand b!"p" 1 (.ptr (.struct 1)), cand b!"s" 2 .string]

theorem read_cands19 : Cands genE.U decodeOptions (genE.U.fields 19) 0 [] cands19 :=
  .field (idx' := [0]) rfl (by decide +kernel) rfl (.field (idx' := [1]) rfl (by decide +kernel) rfl
    (.field (idx' := [2]) rfl (by decide +kernel) rfl .nil))

theorem picks_all {E : Env} {o : GenOptions} {j : Nat} (h : ∀ f ∈ (E.fields j).flatten, Can E.U f.typ) :
    unmarshalPicks E o j = firsts (eligible E o (E.fields j).flatten) := by
  unfold unmarshalPicks
  rw [List.filter_eq_self.2 (by simpa using h)]

theorem read_alike : ReadAlike genE {} (.struct 19) readV readJ := by
  have p1 : unmarshalPicks genE {} 1 = [⟨b!"X", [], gfld b!"X" .bool 0⟩] := by
    rw [picks_all (by
      intro f hf
      have hf : f ∈ [gfld b!"X" .bool 0] := hf
      simp only [List.mem_cons, List.not_mem_nil, or_false] at hf
      subst hf
      exact .bool rfl)]
    rfl
  have p2 : unmarshalPicks genE {} 19 = [⟨b!"m", [], gfld b!"M" (.map .string .bool) 0 b!"m"⟩, ⟨b!"p", [], gfld b!"P" (.ptr (.struct 1)) 1 b!"p"⟩,
    ⟨b!"s", [], gfld b!"S" .string 2 b!"s"⟩] := by
    rw [picks_all (by
      intro f hf
      have hf : f ∈ [gfld b!"M" (.map .string .bool) 0 b!"m", gfld b!"P" (.ptr (.struct 1)) 1 b!"p", gfld b!"S" .string 2 b!"s"] := hf
      simp only [List.mem_cons, List.not_mem_nil, or_false] at hf
      rcases hf with rfl | rfl | rfl
      · exact .map (k := .string) (e := .bool) rfl
      · exact .ptr (e := .struct 1) rfl (.struct (j := 1) rfl (by simp [genE, genU, genFields]))
      · exact .string rfl)]
    rfl
  have f1 : fieldFor cands19 b!"p" = some (cand b!"p" 1 (.ptr (.struct 1))) := by rfl
  have f2 : fieldFor cands19 b!"u" = none := by rfl
  have f3 : fieldFor cands19 b!"m" = some (cand b!"m" 0 (.map .string .bool)) := by rfl
  have f4 : fieldFor [cand b!"X" 0 .bool] b!"X" = some (cand b!"X" 0 .bool) := by rfl
  refine .struct (genE_unmarshals (by simp)) read_cands19 (by decide) ?_ ?_ ?_
  · intro m hm
    simp only [List.mem_cons, List.not_mem_nil, or_false] at hm
    rcases hm with rfl | rfl | rfl
    · exact .inr ⟨_, ⟨b!"p", [], gfld b!"P" (.ptr (.struct 1)) 1 b!"p"⟩, by rw [p2]; simp, f1, rfl, rfl, rfl, by simp [RawString, gfld]⟩
    · refine .inl ⟨f2, ?_⟩
      rw [p2]
      simp +decide
    · exact .inr ⟨_, ⟨b!"m", [], gfld b!"M" (.map .string .bool) 0 b!"m"⟩, by rw [p2]; simp, f3, rfl, rfl, rfl, by simp [RawString, gfld]⟩
  · intro m hm c hc
    simp only [List.mem_cons, List.not_mem_nil, or_false] at hm
    rcases hm with rfl | rfl | rfl
    · rw [f1] at hc; cases hc; simp [cand, readV, sub]
    · rw [f2] at hc; cases hc
    · rw [f3] at hc; cases hc; simp [cand, readV, sub]
  · intro m hm c x hc hx
    simp only [List.mem_cons, List.not_mem_nil, or_false] at hm
    rcases hm with rfl | rfl | rfl
    · rw [f1] at hc; cases hc; cases hx
      refine .ptrNew (e := .struct 1) (genE_unmarshals (by simp [cand])) rfl (by simp) ?_
      refine .struct (genE_unmarshals (by simp)) read_cands1 (by decide) ?_ ?_ ?_
      · intro m hm
        simp only [List.mem_cons, List.not_mem_nil, or_false] at hm
        subst hm
        exact .inr ⟨_, ⟨b!"X", [], gfld b!"X" .bool 0⟩, by rw [p1]; simp, f4, rfl, rfl, rfl, by simp [RawString, gfld]⟩
      · intro m hm c hc
        simp only [List.mem_cons, List.not_mem_nil, or_false] at hm
        subst hm
        rw [f4] at hc; cases hc; simp [cand, sub, genE, genU, genZero, Univ.zero]
      · intro m hm c x hc hx
        simp only [List.mem_cons, List.not_mem_nil, or_false] at hm
        subst hm
        rw [f4] at hc; cases hc
        exact .bool (genE_unmarshals (by simp [cand])) rfl
    · rw [f2] at hc; cases hc
    · rw [f3] at hc; cases hc; cases hx
      refine .map (e := .bool) (genE_unmarshals (by simp [cand])) rfl ?_
      intro m hm
      simp only [List.mem_cons, List.not_mem_nil, or_false] at hm
      subst hm
      exact .bool (genE_unmarshals (by simp)) rfl

theorem read_comp {t' : Ty} (h : Comp genE.U (.struct 19) t') :
    t' = .struct 19 ∨ t' = .map .string .bool ∨ t' = .ptr (.struct 1) ∨ t' = .struct 1 ∨ t' = .bool ∨ t' = .string := by
  have key : ∀ {t t'}, Comp genE.U t t' → (t = .struct 19 ∨ t = .map .string .bool ∨ t = .ptr (.struct 1) ∨ t = .struct 1 ∨ t = .bool ∨ t = .string) →
      (t' = .struct 19 ∨ t' = .map .string .bool ∨ t' = .ptr (.struct 1) ∨ t' = .struct 1 ∨ t' = .bool ∨ t' = .string) := by
    intro t t' h
    induction h with
    | refl => exact id
    | ptr hb _ ih => rintro (rfl | rfl | rfl | rfl | rfl | rfl) <;> cases hb; exact ih (by simp)
    | slice hb _ ih => rintro (rfl | rfl | rfl | rfl | rfl | rfl) <;> cases hb
    | array hb _ ih => rintro (rfl | rfl | rfl | rfl | rfl | rfl) <;> cases hb
    | map hb _ ih => rintro (rfl | rfl | rfl | rfl | rfl | rfl) <;> cases hb; exact ih (by simp)
    | @field t j f t' hb hf _ _ ih =>
      rintro (rfl | rfl | rfl | rfl | rfl | rfl) <;> cases hb <;> simp [genE, genU, genFields] at hf
      · rcases hf with rfl | rfl | rfl <;> exact ih (by simp [fld])
      · subst hf; exact ih (by simp [fld])
  exact key h (.inl rfl)

/-- The hypotheses of C106 are met by it, and this is what both store. -/
example : genE.Ok ∧ genE.U.EmbedsStructs ∧ UHooks genE ∧ UnmarshalArg genE.U (.ptr (.struct 19)) (.struct 19) readV ∧
    Unjson.Finite genE.U decodeOptions (.struct 19) ∧ (∀ t', Comp genE.U (.struct 19) t' → PtrEnds genE.U t') ∧ Supported genE.U (.struct 19) ∧
    (∃ d' id, Parses Doc.empty b!"{\"p\":{\"X\":true},\"u\":[],\"m\":{\"k\":true}}" d' id readJ []) ∧ ReadAlike genE {} (.struct 19) readV readJ ∧
    (∃ b, typeUnmarshaler genE {} 10 (.struct 19) = .ok b ∧ unmarshalerCompiles genE b (.struct 19) = true ∧
      parseInto genE 100 Doc.empty b (.struct 19) readV b!"{\"p\":{\"X\":true},\"u\":[],\"m\":{\"k\":true}}" =
        some (.done (.struct [.map [(.str b!"k", .bool true)], .ptr (.struct [.bool true]), .str b!"old"]) none)) ∧
    unmarshal genE.U 30 Doc.empty b!"{\"p\":{\"X\":true},\"u\":[],\"m\":{\"k\":true}}" (some (.ptr (.struct 19), .ptr readV)) =
      some (.done (some (.ptr (.struct 19), .ptr (.struct [.map [(.str b!"k", .bool true)], .ptr (.struct [.bool true]), .str b!"old"]))) none) := by
  refine ⟨genE_ok, genU_embeds, genE_uhooks, ⟨rfl, genU_noUnmarshal _, fun t' _ => genU_noUnmarshal _, ?_⟩, ⟨⟨[.struct 19, .map .string .bool, .ptr (.struct 1), .struct 1, .bool, .string], fun t' hc => ?_⟩,
      fun t' hc => ?_, fun t' j hc hb => ?_⟩, fun t' hc => ?_,
    fun t' hc => ?_, (parses_iff empty_wf).2 ⟨_, by rfl⟩, read_alike, intoText (by decide +kernel), eq_of_sameX (by decide +kernel)⟩
  · refine .struct rfl rfl ?_
    intro i f v hf hv
    match i with
    | 0 => cases hf; cases hv; exact .map (k := .string) (e := .bool) rfl (fun p hp => by cases hp) (fun p hp => by cases hp)
    | 1 => cases hf; cases hv; exact .nilPtr (e := .struct 1) rfl
    | 2 => cases hf; cases hv; exact .str rfl
    | i + 3 => cases hf
  · simpa using read_comp hc
  · rcases read_comp hc with rfl | rfl | rfl | rfl | rfl | rfl <;> exact .leaf (by simp [Univ.base])
  · rcases read_comp hc with rfl | rfl | rfl | rfl | rfl | rfl <;> cases hb
    · exact ⟨_, read_cands19⟩
    · exact ⟨_, read_cands1⟩
  · rcases read_comp hc with rfl | rfl | rfl | rfl | rfl | rfl <;>
      first | exact .elem (e := .struct 1) rfl (.leaf (by simp [Univ.base])) | exact .leaf (by simp [Univ.base])
  · rcases read_comp hc with rfl | rfl | rfl | rfl | rfl | rfl <;> simp [Univ.base]

/-- Compare what the generated method and `Unmarshal` do with a text and a variable. -/
def differ (t : Ty) (v : GV) (s : Bytes) (y z : GV) (e f : Option UErr) : Prop :=
  (∃ b, typeUnmarshaler genE {} 10 t = .ok b ∧ unmarshalerCompiles genE b t = true ∧ parseInto genE 100 Doc.empty b t v s = some (.done y e)) ∧
  unmarshal genE.U 30 Doc.empty s (some (.ptr t, .ptr v)) = some (.done (some (.ptr t, .ptr z)) f)

/-- The full claim is false: an empty array leaves a nil slice nil in the generated code, `Unmarshal` stores an empty slice; -/
theorem C106_false_array : differ (.struct 17) (.struct [.nilSlice]) b!"{\"l\":[]}" (.struct [.nilSlice]) (.struct [.slice [] 0]) none none :=
  ⟨intoText (by decide +kernel), eq_of_sameX (by decide +kernel)⟩

/-- an array that does not fit has zeros at its end in the generated code; -/
theorem C106_false_grow : differ (.struct 17) (.struct [.slice [.int 1] 1]) b!"{\"l\":[2,3]}" (.struct [.slice [.int 2, .int 3, .int 0] 3])
    (.struct [.slice [.int 2, .int 3] 2]) none none :=
  ⟨intoText (by decide +kernel), eq_of_sameX (by decide +kernel)⟩

/-- an error in an element ends the generated code with the error, `Unmarshal` cuts the slice and returns no error; -/
theorem C106_false_element : differ (.struct 17) (.struct [.nilSlice]) b!"{\"l\":[1,{}]}" (.struct [.slice [.int 1, .int 0] 2])
    (.struct [.slice [.int 1, .int 0] 1]) (some (.typeError tObject tNumber)) none :=
  ⟨intoText (by decide +kernel), eq_of_sameX (by decide +kernel)⟩

/-- null is a type error for a bool, an int or a struct in the generated code, `Unmarshal` stores the zero value; -/
theorem C106_false_null : differ (.struct 21) (.struct [.int 1, .struct [.bool true]]) b!"{\"a\":null}" (.struct [.int 1, .struct [.bool true]])
    (.struct [.int 0, .struct [.bool true]]) (some (.typeError tNull tNumber)) none ∧
    differ (.struct 21) (.struct [.int 1, .struct [.bool true]]) b!"{\"v\":null}" (.struct [.int 1, .struct [.bool true]])
    (.struct [.int 1, .struct [.bool false]]) (some (.typeError tNull tObject)) none :=
  ⟨⟨intoText (by decide +kernel), eq_of_sameX (by decide +kernel)⟩, intoText (by decide +kernel), eq_of_sameX (by decide +kernel)⟩

/-- a string is taken for a number, and a number for an empty string, by the generated code only; -/
theorem C106_false_types : differ (.struct 21) (.struct [.int 1, .struct [.bool true]]) b!"{\"a\":\"12\"}" (.struct [.int 12, .struct [.bool true]])
    (.struct [.int 1, .struct [.bool true]]) none (some (.typeError tString tNumber)) ∧
    differ (.struct 19) (.struct [.map [], .nilPtr, .str b!"old"]) b!"{\"s\":5}" (.struct [.map [], .nilPtr, .str []])
    (.struct [.map [], .nilPtr, .str b!"old"]) none (some (.typeError tNumber tString)) :=
  ⟨⟨intoText (by decide +kernel), eq_of_sameX (by decide +kernel)⟩, intoText (by decide +kernel), eq_of_sameX (by decide +kernel)⟩

/-- a field below a nil embedded pointer is set by the generated code, `Unmarshal` drops the value without an error; -/
theorem C106_false_embedded : differ (.struct 20) (.struct [.nilPtr, .bool false]) b!"{\"Y\":5}" (.struct [.ptr (.struct [.uint 5]), .bool false])
    (.struct [.nilPtr, .bool false]) none none :=
  ⟨intoText (by decide +kernel), eq_of_sameX (by decide +kernel)⟩

/-- and for a nil map the generated code makes a map where `Unmarshal` panics. -/
theorem C106_false_map : (∃ b, typeUnmarshaler genE {} 10 (.struct 9) = .ok b ∧ unmarshalerCompiles genE b (.struct 9) = true ∧
      parseInto genE 100 Doc.empty b (.struct 9) (.struct [.nilMap]) b!"{\"m\":{\"k\":1}}" = some (.done (.struct [.map [(.str b!"k", .int 1)]]) none)) ∧
    unmarshal genE.U 30 Doc.empty b!"{\"m\":{\"k\":1}}" (some (.ptr (.struct 9), .ptr (.struct [.nilMap]))) = some .panic :=
  ⟨intoText (by decide +kernel), eq_of_isPanic (by decide +kernel)⟩

end Verif.Props
