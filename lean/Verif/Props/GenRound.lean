import Verif.Props.GenAppend
import Verif.Props.GenDec
import Verif.Proofs.GenAgain

/-!
# Claims about generated code: what AppendJSON writes, UnmarshalNodeJSON reads (C80)

`Reads` (Spec/GenRound.lean) says for which values, `Back` as what they come back.
-/

namespace Verif.Props
open Verif Verif.Float Verif.Spec Verif.Njson Verif.Unjson Verif.Gen

theorem clean_parses {j : JVal} (h : Clean j) {d : Doc} (hd : d.Wf) : ∃ d' id, Parses d j.ser d' id j [] := by
  have hl : AllRaw LenientStr EscBody LenientNum j := by
    refine (allRaw_mono (fun s hs => ?_) (fun s hs => ?_) (fun s hs => ?_)).1 j h
    · exact escBody_lenient (rfcBody_escBody hs.1) hs.2
    · exact rfcBody_escBody hs
    · exact rfcNumber_lenient hs
  exact (parses_iff hd).2 ⟨_, treeParse_ser hl⟩

/-- The package is as the Go specification promises, whatever the order of the fields. -/
theorem ok_reorder {E : Env} (hE : E.Ok) {F : Nat → List (List GField)} (hP : ∀ j, (F j).flatten.Perm (E.fields j).flatten) : (E.reorder F).Ok :=
  ⟨hE.univ, fun j f hf => hE.path j f ((hP j).mem_iff.1 hf), fun j f hf => hE.nonempty j f ((hP j).mem_iff.1 hf),
    fun j f pre post t e hf => hE.embeds j f pre post t e ((hP j).mem_iff.1 hf), hE.methods, hE.ptrPtr, hE.namedPtr⟩

/-- **C80 (partial)**: for a value `v` as in `Reads`, of a struct type for which both methods are generated and compile: `AppendJSON` appends a text
and returns no error; when this text is parsed, into any document, and unmarshaled into a variable with the zero value, then there is no error, and the
variable has a value `w` of the type that is related to `v` by `Back`. And `AppendJSON` writes `w` as the same text, when omit methods, if there are any,
leave out zero values and do not tell values from what comes back for them. The two methods may have been generated with different orders of iteration
over the maps of fields (`F`).
Missing from the full claim, that every value comes back as it was: the other values, and what `Back` allows (`C80_false`). -/
theorem C80_roundtrip_partial {E : Env} (hE : E.Ok) (hH : Hooks E.U) (hq : OmitCalm E.U) (hU : UHooks E) (hF : Floats64 E.U)
    {F : Nat → List (List GField)} (hP : ∀ j, (F j).flatten.Perm (E.fields j).flatten) {o : GenOptions} {fa fu : Nat} {j : Nat}
    {a : ABlock} {b : UBlock} (ha : typeAppender E o fa (.struct j) [] = .ok a) (hac : appenderCompiles E a (.struct j) = true)
    (hb : typeUnmarshaler (E.reorder F) o fu (.struct j) = .ok b) (hbc : unmarshalerCompiles (E.reorder F) b (.struct j) = true)
    {v : GV} (hv : HasTy E.U (.struct j) v) (hr : Reads E o (.struct j) v) :
    ∃ text w, (∀ out, runAppender E.U o a (.struct j) (.ptr v) out = some (.done (out ++ text) none)) ∧
      (∀ d : Doc, d.Wf → ∃ N, ∀ fuel, N ≤ fuel → parseInto (E.reorder F) fuel d b (.struct j) (E.U.zero (.struct j)) text = some (.done w none)) ∧
      HasTy E.U (.struct j) w ∧ Back E o (.struct j) v w ∧
      (OmitBack E o → ∀ out, runAppender E.U o a (.struct j) (.ptr w) out = some (.done (out ++ text) none)) := by
  have hm : NoMarshal E.U (.struct j) := by
    cases hr with
    | struct hp => exact hp.1
    | _ _ h => cases h
  obtain ⟨p1, p2, -⟩ := (C78_exact hE hH hF ha hac hm hv (reads_numKeys hr)).1 (reads_not_stops hq hr)
  obtain ⟨jv, h1⟩ := p2.2 (reads_not_stops hq hr)
  obtain ⟨w, g1, g2, g3, g4, g5⟩ := reads_back hE hF hP hr hv (by simp) h1
  refine ⟨jv.ser, w, p1 jv h1, fun d hd => ⟨jv.size, fun fuel hf => ?_⟩, g2, g3, fun hO => ?_⟩
  · obtain ⟨d', id, hp⟩ := clean_parses g4 hd
    have hU' : UHooks (E.reorder F) := ⟨hU.time, hU.method⟩
    rcases C79_text (ok_reorder hE hP) hU' hb hbc hd (hasTy_zero hE.univ (.struct j)) jv.ser with ⟨hn, -⟩ | ⟨d2, id2, j2, tail, hp2, hrun⟩
    · exact absurd ⟨_, _, _, _, hp⟩ hn
    · obtain ⟨rfl, rfl⟩ := parses_unique hd hp hp2
      rcases hrun fuel hf with ⟨hj, -⟩ | ⟨-, hp, -⟩ | ⟨-, -, y, err, k1, k2, -⟩
      · have := g5 hj
        subst this
        cases hr with
        | nilPtr _ h => cases h
      · exact absurd g1 (panics_not_gdec hp _ _)
      · obtain ⟨rfl, rfl⟩ := gdec_fun g1 k2
        exact k1
  · obtain ⟨q1, q2⟩ := back_quiet hE hq hr hv g2 g3
    obtain ⟨r1, r2, -⟩ := (C78_exact hE hH hF ha hac hm g2 q1).1 (q2 _)
    obtain ⟨jw, k1⟩ := r2.2 (q2 _)
    rw [back_same hE hO hr hv g2 g3 h1 k1]
    exact r1 jw k1

theorem genE_bare {t : Ty} (h : t ≠ .struct 11 ∧ t ≠ .ptr (.struct 11) ∧ t ≠ .struct 12 ∧ t ≠ .ptr (.struct 12)) (hd : t ≠ .named 1)
    (hp : ∀ m, genE.U.impl (.ptr t) m = false) : Bare genE t := by
  refine ⟨noM h, ?_⟩
  rintro (h | h | h)
  · cases h
  · simp [genE, hd] at h
  · exact h ⟨hp _, hp _, hp _⟩

/-- The value `T19{P: &T1{X: true}, S: "é\n"}` -/
def roundV : GV := .struct [.nilMap, .ptr (.struct [.bool true]), .str b!"é\n"]

/-- The fields of a type are told apart by their names. -/
theorem names_apart {E : Env} {o : GenOptions} {f g : GField} {n : Bytes} {ps ps' : List Bytes} (h1 : Takes E o f n ps) (h2 : Takes E o g n ps')
    (h : (match parseField E o f, parseField E o g with | some x, some y => decide (x.1 ≠ y.1) | _, _ => true) = true) : f = g := by
  rw [takes_iff.2 h1, takes_iff.2 h2] at h
  simp at h

theorem roundV_same : SameFields genE {} 19 := by
  have hpick : ∀ p ∈ appendPicks genE {} 19, p.field = gfld b!"M" (.map .string .bool) 0 b!"m" ∨ p.field = gfld b!"P" (.ptr (.struct 1)) 1 b!"p" ∨
      p.field = gfld b!"S" .string 2 b!"s" := by
    intro p hp
    obtain ⟨h1, -⟩ := mem_appendPicks hp
    simpa only [genE, genGroups, List.flatten, List.mem_cons, List.append_eq, List.cons_append, List.nil_append, List.not_mem_nil, or_false] using h1
  refine ⟨?_, fun p hp => genE_plain 19 p hp, ?_, ?_⟩
  · intro f hf g hg n ps ps' h1 h2
    simp only [genE, genGroups, List.flatten, List.mem_cons, List.append_eq, List.cons_append, List.nil_append, List.not_mem_nil, or_false] at hf hg
    rcases hf with rfl | rfl | rfl <;> rcases hg with rfl | rfl | rfl <;> first | rfl | exact names_apart h1 h2 (by decide +kernel)
  · intro p hp
    rcases hpick p hp with h | h | h <;> rw [h]
    · exact .map rfl
    · exact .ptr rfl (.struct rfl (by decide))
    · exact .string rfl
  · intro p hp q hq hn
    have hpar := (mem_appendPicks hp).2
    have hqar := (mem_appendPicks hq).2
    rcases hpick p hp with h | h | h <;> rcases hpick q hq with h' | h' | h' <;> rw [h] at hpar ⊢ <;> rw [h'] at hqar ⊢ <;>
      first
      | (rw [hpar] at hqar; exact absurd (congrArg Prod.fst (Option.some.inj hqar)) hn)
      | (unfold Apart; decide)

theorem roundV_reads : Reads genE {} (.struct 19) roundV := by
  refine .struct (genE_bare (by simp) (by simp) (by intro m; cases m <;> rfl)) roundV_same fun p hp x hx => ?_
  obtain ⟨h1, -⟩ := mem_appendPicks hp
  simp only [genE, genGroups, List.flatten, List.mem_cons, List.append_eq, List.cons_append, List.nil_append, List.not_mem_nil, or_false] at h1
  rcases h1 with h1 | h1 | h1 <;> rw [h1] at hx ⊢ <;> cases hx
  · exact .nilMap (genE_bare (by simp [gfld]) (by simp [gfld]) (by intro m; cases m <;> rfl)) rfl
  · refine .ptr (genE_bare (by simp [gfld]) (by simp [gfld]) (by intro m; cases m <;> rfl)) rfl (by simp [Univ.base]) (.struct (genE_bare (by simp) (by simp) (by intro m; cases m <;> rfl)) ?_ ?_)
    · have hpick : ∀ p ∈ appendPicks genE {} 1, p.field = gfld b!"X" .bool 0 := by
        intro p hp
        obtain ⟨h1, -⟩ := mem_appendPicks hp
        simpa only [genE, genGroups, List.flatten, List.mem_cons, List.append_eq, List.cons_append, List.nil_append, List.not_mem_nil, or_false] using h1
      refine ⟨?_, fun p hp => genE_plain 1 p hp, ?_, ?_⟩
      · intro f hf g hg n ps ps' h1 h2
        simp only [genE, genGroups, List.flatten, List.mem_cons, List.append_eq, List.cons_append, List.nil_append, List.not_mem_nil, or_false] at hf hg
        rw [hf, hg]
      · intro p hp
        rw [hpick p hp]
        exact .bool rfl
      · intro p hp q hq hn
        have hpar := (mem_appendPicks hp).2
        have hqar := (mem_appendPicks hq).2
        rw [hpick p hp] at hpar
        rw [hpick q hq, hpar] at hqar
        exact absurd (congrArg Prod.fst (Option.some.inj hqar)) hn
    · intro p hp x hx
      obtain ⟨h1, -⟩ := mem_appendPicks hp
      simp only [genE, genGroups, List.flatten, List.mem_cons, List.append_eq, List.cons_append, List.nil_append, List.not_mem_nil, or_false] at h1
      rw [h1] at hx ⊢
      cases hx
      exact .bool (genE_bare (by simp [gfld]) (by simp [gfld]) (by intro m; cases m <;> rfl)) rfl
  · exact .str (genE_bare (by simp [gfld]) (by simp [gfld]) (by intro m; cases m <;> rfl)) rfl ⟨⟨['é', '\n'], by decide +kernel⟩, .inr (by decide +kernel)⟩

/-- The hypotheses are met by it; -/
example : genE.Ok ∧ Hooks genE.U ∧ OmitCalm genE.U ∧ UHooks genE ∧ Floats64 genE.U ∧ OmitBack genE {} ∧ HasTy genE.U (.struct 19) roundV ∧ Reads genE {} (.struct 19) roundV ∧
    (∃ a, typeAppender genE {} 10 (.struct 19) [] = .ok a ∧ appenderCompiles genE a (.struct 19) = true) ∧
    ∃ b, typeUnmarshaler genE {} 10 (.struct 19) = .ok b ∧ unmarshalerCompiles genE b (.struct 19) = true := by
  refine ⟨genE_ok, genU_hooks, fun _ _ _ _ => rfl, genE_uhooks, genU_floats, (fun t f h => by cases h), ?_, roundV_reads,
    genOk_iff (P := fun b => appenderCompiles genE b (.struct 19)) (by decide +kernel),
    genUOk_iff (P := fun b => unmarshalerCompiles genE b (.struct 19)) (by decide +kernel)⟩
  refine .struct rfl rfl ?_
  intro i f v hf hv
  match i with
  | 0 => cases hf; cases hv; exact .nilMap rfl
  | 1 =>
    cases hf; cases hv
    refine .ptr rfl (.struct rfl rfl ?_)
    intro i f v hf hv
    match i with
    | 0 => cases hf; cases hv; exact .bool rfl
    | i + 1 => cases hf
  | 2 => cases hf; cases hv; exact .str rfl
  | i + 3 => cases hf

/-- Both methods, one after the other, into a zero value. -/
def genTrip (E : Env) (o : GenOptions) (t : Ty) (v : GV) : Option (Out GV) :=
  match typeAppender E o 10 t [], typeUnmarshaler E o 10 t with
  | .ok a, .ok b =>
    if appenderCompiles E a t && unmarshalerCompiles E b t then
      match runAppender E.U o a t (.ptr v) [] with
      | some (.done s none) => parseInto E 100 Doc.empty b t (E.U.zero t) s
      | _ => none
    else none
  | _, _ => none

/-- it comes back with an empty map. -/
theorem C80_example : genTrip genE {} (.struct 19) roundV = some (.done (.struct [.map [], .ptr (.struct [.bool true]), .str b!"é\n"]) none) :=
  eq_of_sameV (by decide +kernel)

/-- C80 is false for other values: integers that are no float64, strings that are not UTF-8 or end in a backslash, maps with entries; an empty
slice becomes nil. -/
theorem C80_false :
    genTrip genE {} (.struct 17) (.struct [.slice [.int 9007199254740993] 1]) = some (.done (.struct [.slice [.int 9007199254740992] 1]) none) ∧
    genTrip genE {} (.struct 17) (.struct [.slice [] 0]) = some (.done (.struct [.nilSlice]) none) ∧
    genTrip genE {} (.struct 19) (.struct [.map [], .nilPtr, .str [255]]) = some (.done (.struct [.map [], .nilPtr, .str [239, 191, 189]]) none) ∧
    genTrip genE {} (.struct 19) (.struct [.map [], .nilPtr, .str b!"\\"]) = some (.done (.struct [.nilMap, .nilPtr, .str []]) (some .parse)) ∧
    genTrip genE {} (.struct 9) (.struct [.map [(.str b!"k", .int 1)]]) = some (.done (.struct [.nilMap]) (some .parse)) ∧
    genTrip genE {} (.struct 9) (.struct [.map [(.str b!":1,", .int 5)]]) = some (.done (.struct [.map [(.str [], .int 5)]]) none) ∧
    genTrip genE {} (.struct 16) (.struct [.int 1, .str b!"b"]) = some (.done (.struct [.int 1, .str []]) none) := by
  refine ⟨eq_of_sameV ?_, eq_of_sameV ?_, eq_of_sameV ?_, eq_of_sameV ?_, eq_of_sameV ?_, eq_of_sameV ?_, eq_of_sameV ?_⟩ <;> decide +kernel

end Verif.Props
