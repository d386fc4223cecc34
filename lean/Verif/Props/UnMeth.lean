import Verif.Proofs.UnEncodeM
import Verif.Proofs.UnMethDet
import Verif.Proofs.UnExampleM
import Verif.Props.UnOptions
import Verif.Props.UnTotal

/-! # What Marshal writes for types with methods (C87) -/

namespace Verif.Props
open Verif Verif.Float Verif.Spec Verif.Njson Verif.Unjson

/-- **C87**: `AppendJSON` on a value of any type, with or without methods: it returns `out` followed by the text, an error, or
panics, exactly as `WArg` says. -/
theorem C87_exact {U : Univ} (hU : U.Program) {t : Ty} {v : GV} (hv : HasTy U t v) (fuel : Nat) (out : Bytes) (r : Out Bytes)
    (h : Unjson.appendJSON U fuel out (some (t, v)) = some r) : ∃ w, WArg U defaultOptions t v w ∧ Agrees out w r := by
  unfold Unjson.appendJSON at h
  dsimp only at h
  cases hq : newTypeEncoder U {} fuel t with
  | diverge => rw [hq] at h; cases h
  | err e => rw [hq] at h; cases h; exact arg_errM hU hq out []
  | ok m => rw [hq] at h; exact arg_specM hU (encode_specM hU fuel) hv hq h

/-- **C87**: the same for an encoder with other options. -/
theorem C87_encoder {U : Univ} (hU : U.Program) {o o' : Options} (ho : InForce o o') {t : Ty} {v : GV} (hv : HasTy U t v) (fuel : Nat)
    (m : TypeEncoder) (hm : newTypeEncoder U o fuel t = .ok m) (fuel' : Nat) (out : Bytes) (r : Out Bytes)
    (h : m.encodeArg U fuel' out (some (t, v)) = some r) : ∃ w, WArg U o' t v w ∧ Agrees out w r := by
  cases inForce_eq ho
  exact arg_specM hU (encode_specM hU fuel') hv hm h

/-- **C87**: which types `NewTypeEncoder` accepts: it fails exactly when no encoder can be made, with the same error for all of them. -/
theorem C87_rejects {U : Univ} (hU : U.Ok) {o o' : Options} (ho : InForce o o') {t : Ty} (fuel : Nat) :
    (∀ m, newTypeEncoder U o fuel t = .ok m → (∀ e, U.base t = .ptr e → marshalMeth U t = none → ¬ NoEncoder U o' e) ∧
      ((∀ e, U.base t ≠ .ptr e) → marshalMeth U (.ptr t) = none → ¬ NoEncoder U o' t)) ∧
    (∀ e, newTypeEncoder U o fuel t = .err e → e = .invalidType ∧
      ((∃ e, U.base t = .ptr e ∧ marshalMeth U t = none ∧ NoEncoder U o' e) ∨
       ((∀ e, U.base t ≠ .ptr e) ∧ marshalMeth U (.ptr t) = none ∧ NoEncoder U o' t))) := by
  cases inForce_eq ho
  exact newTypeEncoder_cases hU

/-- **C87**: there is one outcome. -/
theorem C87_one {U : Univ} {o : Options} {t : Ty} {v : GV} {w w' : Except Fail Bytes} (h : WArg U o t v w) (h' : WArg U o t v w') : w = w' :=
  wArg_one h h'

/-- **C87** (part): the marshal method of the type of the argument is used, passed by value or by pointer. Missing: values inside
structs (`C87_false`), pointer receivers. -/
theorem C87_argument_partial {U : Univ} (hU : U.Program) {t : Ty} {v : GV} (ht : ∀ e, U.base t ≠ .ptr e) (hi : ∀ n i, U.base t ≠ .iface n i)
    {m : Meth} (hp : marshalMeth U (.ptr t) = some m) (hn : U.impl t m = true) (hv : HasTy U t v) (fuel : Nat) (out : Bytes) (r : Out Bytes) :
    (Unjson.appendJSON U fuel out (some (t, v)) = some r → Agrees out (methText U m t v) r) ∧
    (Unjson.appendJSON U fuel out (some (.ptr t, .ptr v)) = some r → Agrees out (methText U m t v) r) := by
  have hc : callMeth U m t v = methText U m t v := by
    unfold callMeth
    split
    · rename_i hb; exact absurd hb (hi _ _)
    · rename_i hb _; exact absurd hb (hi _ _)
    · rw [hn]; rfl
  constructor
  · intro h
    obtain ⟨w, h1, h2⟩ := C87_exact hU hv fuel out r h
    rw [C87_one h1 (.meth ht hp), hc] at h2
    exact h2
  · intro h
    obtain ⟨w, h1, h2⟩ := C87_exact hU (.ptr (t := .ptr t) rfl hv) fuel out r h
    rw [C87_one h1 (.ptrMeth (t := .ptr t) (e := t) rfl hp), hc] at h2
    exact h2

/-- The hypotheses hold for a type of the example. -/
example : (exM false).Program ∧ (∀ e, (exM false).base (.struct 0) ≠ .ptr e) ∧ (∀ n i, (exM false).base (.struct 0) ≠ .iface n i) ∧
    marshalMeth (exM false) (.ptr (.struct 0)) = some .jsonMarshaler ∧ (exM false).impl (.struct 0) .jsonMarshaler = true ∧
    HasTy (exM false) (.struct 0) (.struct []) :=
  ⟨exM_program, (fun e h => by cases h), (fun n i h => by cases h), by decide, by decide,
    .struct (j := 0) rfl rfl (by intro i f v hf; cases i <;> cases hf)⟩

/-- `Marshal` of the argument panics when the only marshal method has a pointer receiver, however the value is passed. -/
theorem C87_pointer_receiver {U : Univ} (hU : U.Program) {t : Ty} {v : GV} (ht : ∀ e, U.base t ≠ .ptr e) (hi : ∀ n i, U.base t ≠ .iface n i)
    {m : Meth} (hp : marshalMeth U (.ptr t) = some m) (hn : U.impl t m = false) (hv : HasTy U t v) (fuel : Nat) (out : Bytes) (r : Out Bytes) :
    (Unjson.appendJSON U fuel out (some (t, v)) = some r → r = .panic) ∧
    (Unjson.appendJSON U fuel out (some (.ptr t, .ptr v)) = some r → r = .panic) := by
  have hc : callMeth U m t v = .error .panic := by
    unfold callMeth
    split
    · rename_i hb; exact absurd hb (hi _ _)
    · rename_i hb _; exact absurd hb (hi _ _)
    · rw [hn]; rfl
  constructor
  · intro h
    obtain ⟨w, h1, h2⟩ := C87_exact hU hv fuel out r h
    rw [C87_one h1 (.meth ht hp), hc] at h2
    exact h2
  · intro h
    obtain ⟨w, h1, h2⟩ := C87_exact hU (.ptr (t := .ptr t) rfl hv) fuel out r h
    rw [C87_one h1 (.ptrMeth (t := .ptr t) (e := t) rfl hp), hc] at h2
    exact h2

/-- A value of an example type. -/
theorem exM_time : HasTy (exM false) (.struct 1) (.struct [.struct []]) := by
  refine .struct (j := 1) rfl rfl ?_
  intro i f v hf hv
  cases i with
  | zero => cases hf; cases hv; exact .struct (j := 0) rfl rfl (by intro i f v hf; cases i <;> cases hf)
  | succ i => cases i <;> cases hf

/-- The hypotheses hold, the method of a struct type alone is used, and the method of the type of a field with a tag option. -/
example : (exM false).Program ∧ HasTy (exM false) (.struct 1) (.struct [.struct []]) ∧
    WArg (exM false) defaultOptions (.slice (.struct 0)) (.slice [.struct [], .struct []] 2) (.ok b!"[\"2020\",\"2020\"]") ∧
    marshal (exM false) 30 (some (.slice (.struct 0), .slice [.struct [], .struct []] 2)) = some (.done b!"[\"2020\",\"2020\"]" none) ∧
    marshal (exM false) 30 (some (.struct 4, .struct [.struct []])) = some (.done b!"{\"t\":\"2020\"}" none) ∧
    marshal (exM false) 30 (some (.struct 9, .struct [.struct []])) = some (.done b!"{\"t\":\"2020\"}" none) ∧
    marshal (exM false) 30 (some (.ptr (.struct 5), .ptr (.struct [.str b!"x"]))) = some (.done b!"{}" none) ∧
    marshal (exM false) 30 (some (.struct 5, .struct [.str b!"x"])) = some (.done b!"{\"n\":\"x\"}" none) := by
  refine ⟨exM_program, exM_time, ?_, eq_of_sameB (by decide +kernel), eq_of_sameB (by decide +kernel), eq_of_sameB (by decide +kernel),
    eq_of_sameB (by decide +kernel), eq_of_sameB (by decide +kernel)⟩
  have hm : marshalMeth (exM false) (.slice (.struct 0)) = none := by decide
  have hx : Writes (exM false) false true defaultOptions Hint.none (.struct 0) (.struct []) (.ok b!"\"2020\"") :=
    .meth (U := exM false) (t := .struct 0) (v := .struct []) (m := .jsonMarshaler) (by decide)
  have he : WElems (exM false) false true defaultOptions Hint.none (.struct 0) [.struct [], .struct []] (.ok [b!"\"2020\"", b!"\"2020\""]) :=
    .cons (w := .ok [b!"\"2020\""]) hx (.cons (w := .ok []) hx .nil)
  have hs : Writes (exM false) false false defaultOptions Hint.none (.slice (.struct 0)) (.slice [.struct [], .struct []] 2) (.ok b!"[\"2020\",\"2020\"]") :=
    Writes.slice (e := .struct 0) (arr := [.struct [], .struct []]) (len := 2) (w := .ok [b!"\"2020\"", b!"\"2020\""]) (via_none hm) rfl he
  refine .value (by intro e h; cases h) (by decide) ?_ hs
  intro hn
  cases hn with
  | slice _ hb h =>
    cases hb
    cases h with
    | struct h => exact absurd h (by decide)
    | other h => exact absurd h (by decide)
    | iface h => exact absurd h (by decide)
    | key h => exact absurd h (by decide)
    | ptr h => exact absurd h (by decide)
    | slice h => exact absurd h (by decide)
    | array h => exact absurd h (by decide)
    | map h => exact absurd h (by decide)
  | other _ hb => cases hb
  | iface _ hb => cases hb
  | key _ hb => cases hb
  | ptr _ hb => cases hb
  | array _ hb => cases hb
  | map _ hb => cases hb
  | struct _ hb => cases hb

/-- **C87 (false)**: that marshal methods are used wherever a value of their type is written is false. A struct type with
`MarshalJSON` is written with the method when it is the argument, but not when it is the type of a field without tag options, nor
behind pointers, slices or maps in a field. A marshal method with a pointer receiver makes `Marshal` panic. So does a nil interface value with
marshal methods. The output of `MarshalText` is not escaped. -/
theorem C87_false : (exM false).Program ∧
    marshal (exM false) 30 (some (.struct 0, .struct [])) = some (.done b!"\"2020\"" none) ∧
    marshal (exM false) 30 (some (.struct 1, .struct [.struct []])) = some (.done b!"{\"T\":{}}" none) ∧
    marshal (exM false) 30 (some (.struct 7, .struct [.slice [.struct []] 1, .struct []])) = some (.done b!"{\"L\":[{}],\"T\":{}}" none) ∧
    marshal (exM false) 30 (some (.struct 2, .struct [.int 0])) = some .panic ∧
    marshal (exM false) 30 (some (.ptr (.struct 2), .ptr (.struct [.int 0]))) = some .panic ∧
    marshal (exM false) 30 (some (.struct 3, .struct [.struct [.int 0]])) = some (.done b!"{\"P\":{\"A\":0}}" none) ∧
    marshal (exM false) 30 (some (.struct 6, .struct [.nilIface])) = some .panic ∧
    marshal (exM false) 30 (some (.named 0, .str [])) = some (.done b!"\"a\"b\"" none) :=
  ⟨exM_program, eq_of_sameB (by decide +kernel), eq_of_sameB (by decide +kernel), eq_of_sameB (by decide +kernel), eq_of_isPanic (by decide +kernel),
    eq_of_isPanic (by decide +kernel), eq_of_sameB (by decide +kernel), eq_of_isPanic (by decide +kernel), eq_of_sameB (by decide +kernel)⟩

/-- Without `Paired` what is written for a field depends on the fields before it: here both structs have the same two fields, in
different order, and the elements of the slice are written in two ways. -/
theorem C87_order : ¬ (exM true).Paired ∧
    marshal (exM true) 30 (some (.struct 7, .struct [.slice [.struct []] 1, .struct []])) = some (.done b!"{\"L\":[\"2020\"],\"T\":{}}" none) ∧
    marshal (exM true) 30 (some (.struct 8, .struct [.struct [], .slice [.struct []] 1])) = some (.done b!"{\"T\":{},\"L\":[{}]}" none) := by
  refine ⟨fun h => ?_, eq_of_sameB (by decide +kernel), eq_of_sameB (by decide +kernel)⟩
  exact h Hint.none (.named 2) (.struct 0) (by decide) (by decide) (.slice (e := .struct 0) (by decide) rfl (.here ⟨rfl, by decide, by decide⟩))

end Verif.Props
