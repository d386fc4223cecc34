import Verif.Proofs.UnExample
import Verif.Spec.UnMeth

/-! # A universe of types with methods, for examples and counterexamples -/

namespace Verif.Unjson
open Verif Verif.Float Verif.Njson Verif.Spec

/-- The struct types:
* 0 is empty and has `MarshalJSON` (with a value receiver), like `time.Time` without its `UnmarshalJSON`
* 1 has a field of type 0
* 2 has a field and `MarshalJSON` with a pointer receiver
* 3 has a field of type 2
* 4 has a field of type 0 with a tag option
* 5 has a field of defined type 3 with `omitempty`
* 6 has a field of defined type 1
* 7 has a field of defined type 2 and then one of type 0, 8 the other way round
* 9 has a field of type 0 with `omitempty`
Defined type 0 is a string with `MarshalText`, 1 is an interface with `MarshalJSON` and `UnmarshalJSON`, 2 is a slice of type 0, 3
a string with an omit method with a pointer receiver. -/
def exMFields : Nat → List Field
  | 1 => [fld b!"T" (.struct 0)]
  | 2 => [fld b!"A" (.int .std)]
  | 3 => [fld b!"P" (.struct 2)]
  | 4 => [fld b!"T" (.struct 0) b!"t,html"]
  | 5 => [fld b!"N" (.named 3) b!"n,omitempty"]
  | 6 => [fld b!"I" (.named 1)]
  | 7 => [fld b!"L" (.named 2), fld b!"T" (.struct 0)]
  | 8 => [fld b!"T" (.struct 0), fld b!"L" (.named 2)]
  | 9 => [fld b!"T" (.struct 0) b!"t,omitempty"]
  | _ => []

def exMUnder : Nat → Ty
  | 0 => .string
  | 1 => .iface 2 0
  | 2 => .slice (.struct 0)
  | _ => .string

def exMZero : Nat → GV
  | 1 => .struct [.struct []]
  | 2 => .struct [.int 0]
  | 3 => .struct [.struct [.int 0]]
  | 4 => .struct [.struct []]
  | 5 => .struct [.str []]
  | 6 => .struct [.nilIface]
  | 7 => .struct [.nilSlice, .struct []]
  | 8 => .struct [.struct [], .nilSlice]
  | 9 => .struct [.struct []]
  | _ => .struct []

/-- With `b` defined type 2 has `UnmarshalJSON` (with a value receiver) but no marshal method. -/
def exM (b : Bool) : Univ where
  fields := exMFields
  under := exMUnder
  zeroStruct := exMZero
  zeroNamed := fun i => match i with | 0 => .str [] | 1 => .nilIface | 2 => .nilSlice | _ => .str []
  impl := fun t m => decide (
    ((t = .struct 0 ∨ t = .ptr (.struct 0)) ∧ m = .jsonMarshaler) ∨ (t = .ptr (.struct 2) ∧ m = .jsonMarshaler) ∨
    ((t = .named 0 ∨ t = .ptr (.named 0)) ∧ m = .textMarshaler) ∨ (t = .named 1 ∧ (m = .jsonMarshaler ∨ m = .jsonUnmarshaler)) ∨
    (b = true ∧ (t = .named 2 ∨ t = .ptr (.named 2)) ∧ m = .jsonUnmarshaler))
  appendJSON := fun _ _ b => (b, true)
  marshal := fun m _ _ => if m = .textMarshaler then some b!"a\"b" else some b!"\"2020\""
  unmarshalNode := fun _ v _ _ => (v, true)
  unmarshal := fun _ _ v _ => (v, true)
  omitMethod := fun name t => if name = b!"Omit" ∧ t = .ptr (.named 3) then some (fun _ => true) else none
  fmtFloat := exU.fmtFloat
  atof := fun _ => none

theorem exM_ok (b : Bool) : (exM b).Ok where
  under_base := by intro i j; unfold exM exMUnder; dsimp only; split <;> simp
  under_struct := by intro i j; unfold exM exMUnder; dsimp only; split <;> simp
  zero_struct := by
    intro i
    unfold exM exMZero exMFields
    dsimp only
    split <;> simp [fld, Univ.zero]
  zero_named := by
    intro i
    unfold exM exMUnder
    dsimp only
    split <;> simp [Univ.zero]

theorem exM_program : (exM false).Program where
  ok := exM_ok false
  embeds := by
    intro j f e hf ha hb
    exfalso
    have : f.anon = false := by
      unfold exM exMFields at hf
      dsimp only at hf
      split at hf <;> simp at hf
      all_goals (rcases hf with rfl | rfl <;> rfl)
    rw [this] at ha; cases ha
  ifaces := by
    intro name t n i hb
    unfold exM
    dsimp only
    rw [if_neg]
    rintro ⟨_, rfl⟩
    cases hb
  floats := ⟨exU_floats.plain, exU_floats.exp, exU_floats.over, exU_floats.single⟩
  appends := by intro t v b; simp [exM]
  paired := by
    intro h t s hu hm
    exfalso
    apply hu
    unfold unmarshalMeth
    rw [if_neg (by simp [exM]), if_neg, if_neg (by simp [exM])]
    intro hi
    have : t = .named 1 := by simpa [exM] using hi
    subst this
    revert hm
    decide

end Verif.Unjson
