import Verif.Proofs.UnMethJson
import Verif.Props.UnMethEnds
import Verif.Props.Parse

/-! # What Marshal writes is JSON if what the methods write is (C88) -/

namespace Verif.Props
open Verif Verif.Float Verif.Spec Verif.Njson Verif.Unjson

/-- **C88 (partial)**: if the marshal methods give JSON and the output of `MarshalText` needs no escaping, then whatever `AppendJSON` appends
without an error is a JSON text, and `Parse` reads it if the strings in it end well (C10). As in C47: the names of fields need no escaping, no field
has the 8bit hint, and no float overflows a float32; without that it is false (`C47_false_raw`, `C47_false_float`). The output of
`MarshalText` is not escaped by the code (`C87_false`). -/
theorem C88_valid_partial {U : Univ} (hU : U.Program) (hM : U.MethsJSON) (hT : U.PlainTags defaultOptions) {t : Ty} {v : GV} (hv : HasTy U t v)
    (hq : AllFlt Fits32 v) (fuel : Nat) (out b : Bytes) (h : Unjson.appendJSON U fuel out (some (t, v)) = some (.done b none)) :
    ∃ text j, b = out ++ text ∧ RfcText text j ∧ (StringsEndWell j → ∀ d : Doc, d.Wf → ∃ d' id r, Parses d text d' id j r ∧ IsWs r) := by
  obtain ⟨w, h1, h2⟩ := C87_exact hU hv fuel out _ h
  cases w with
  | ok s =>
    cases h2
    obtain ⟨j, hj⟩ := writes_json hU.floats hM hT h1 ⟨rfl, rfl⟩ hT hq s rfl
    exact ⟨s, j, rfl, hj, fun hg d hd => C10_rfc_accepted_partial d hd s j hj hg⟩
  | error f =>
    cases f with
    | err e => obtain ⟨b', h2⟩ := h2; cases h2
    | panic => cases h2

/-- **C88 (partial)**: the same for encoders with other options under which NaN and the infinities are errors. -/
theorem C88_encoder_partial {U : Univ} (hU : U.Program) (hM : U.MethsJSON) (hD : U.PlainTags defaultOptions) {o o' : Options} (ho : InForce o o')
    (hS : o'.allowNaN = false ∧ o'.allowInf = false) (hT : U.PlainTags o') {t : Ty} {v : GV} (hv : HasTy U t v)
    (hq : AllFlt Fits32 v) (fuel : Nat) (m : TypeEncoder) (hm : newTypeEncoder U o fuel t = .ok m) (fuel' : Nat) (out b : Bytes)
    (h : m.encodeArg U fuel' out (some (t, v)) = some (.done b none)) : ∃ text j, b = out ++ text ∧ RfcText text j := by
  obtain ⟨w, h1, h2⟩ := C87_encoder hU ho hv fuel m hm fuel' out _ h
  cases w with
  | ok s =>
    cases h2
    obtain ⟨j, hj⟩ := writes_json hU.floats hM hD h1 hS hT hq s rfl
    exact ⟨s, j, rfl, hj⟩
  | error f =>
    cases f with
    | err e => obtain ⟨b', h2⟩ := h2; cases h2
    | panic => cases h2

/-- The example universe of C87 with a `MarshalText` whose output needs no escaping. -/
def exMJ : Univ := { exM false with marshal := fun m _ _ => if m = .textMarshaler then some b!"ab" else some b!" [\"2020\" , 1 ]" }

theorem exMJ_program : exMJ.Program where
  ok := {
    under_base := (exM_ok false).under_base
    under_struct := (exM_ok false).under_struct
    zero_struct := by
      intro i
      unfold exMJ exM exMZero exMFields
      dsimp only
      split <;> simp [fld, Univ.zero]
    zero_named := by
      intro i
      unfold exMJ exM exMUnder
      dsimp only
      split <;> simp [Univ.zero] }
  embeds := exM_program.embeds
  ifaces := exM_program.ifaces
  floats := ⟨exU_floats.plain, exU_floats.exp, exU_floats.over, exU_floats.single⟩
  appends := exM_program.appends
  paired := by
    intro h t s hu hm
    exfalso
    apply hu
    unfold unmarshalMeth
    rw [if_neg (by simp [exMJ, exM]), if_neg, if_neg (by simp [exMJ, exM])]
    intro hi
    have : t = .named 1 := by simpa [exMJ, exM] using hi
    subst this
    revert hm
    decide

theorem exMJ_meths : exMJ.MethsJSON where
  append := by intro t v h; cases h
  json := by
    intro t v s h
    cases h
    refine ⟨.arr [.str b!"2020", .num b!"1"], [32], b!"[\"2020\" , 1 ]", [], rfl, by simp [IsWs], ?_, by simp [IsWs]⟩
    have h1 : GVal RfcBody RfcBody RfcNumber b!"\"2020\"" (.str b!"2020") := .str (rfcBody_ascii b!"2020" (by decide))
    have h2 : GVal RfcBody RfcBody RfcNumber b!"1" (.num b!"1") :=
      .num ⟨[], b!"1", [], [], rfl, .inl rfl, .inr ⟨⟨by simp, by simp [IsDigitByte]⟩, by simp⟩, .inl rfl, .inl rfl⟩
    have := GVal.arr (w := []) (by simp [IsWs]) (.cons (w := [32]) (w' := [32]) h1 (by simp [IsWs]) (by simp [IsWs]) (.one (w := [32]) h2 (by simp [IsWs])))
    exact this
  text := by intro t v s h; cases h; exact rfcBody_ascii _ (by decide)

theorem exMJ_tags : exMJ.PlainTags defaultOptions := by
  intro j f hf _
  have : (∀ b ∈ (defaultOptions.parseField f).1, 32 ≤ b ∧ b < 127 ∧ b ≠ 34 ∧ b ≠ 92) ∧ (defaultOptions.parseField f).2.1.raw = false := by
    unfold exMJ exM exMFields at hf
    dsimp only at hf
    split at hf <;> simp at hf
    all_goals rcases hf with rfl | rfl <;> decide +kernel
  exact ⟨rfcBody_ascii _ this.1, by simp [this.2]⟩

/-- The hypotheses hold for a map of values with `MarshalText` and `MarshalJSON`. -/
example : exMJ.Program ∧ exMJ.MethsJSON ∧ exMJ.PlainTags defaultOptions ∧
    HasTy exMJ (.map (.named 0) (.struct 4)) (.map [(.str b!"k", .struct [.struct []])]) ∧ AllFlt Fits32 (.map [(.str b!"k", .struct [.struct []])]) ∧
    marshal exMJ 30 (some (.map (.named 0) (.struct 4), .map [(.str b!"k", .struct [.struct []])])) =
      some (.done b!"{\"ab\":{\"t\": [\"2020\" , 1 ]}}" none) := by
  refine ⟨exMJ_program, exMJ_meths, exMJ_tags, ?_, ?_, eq_of_sameB (by decide +kernel)⟩
  · refine .map (k := .named 0) (e := .struct 4) rfl ?_ ?_
    · intro p hp; rw [List.mem_singleton.1 hp]; exact .str rfl
    · intro p hp; rw [List.mem_singleton.1 hp]
      refine .struct (j := 4) rfl rfl ?_
      intro i f v hf hv
      cases i with
      | zero => cases hf; cases hv; exact .struct (j := 0) rfl rfl (by intro i f v hf; cases i <;> cases hf)
      | succ i => cases i <;> cases hf
  · refine .map ?_
    intro p hp; rw [List.mem_singleton.1 hp]
    refine .struct ?_
    intro x hx; rw [List.mem_singleton.1 hx]
    exact .struct (by intro x hx; cases hx)

end Verif.Props
