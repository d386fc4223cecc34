import Verif.Proofs.UnExample
import Verif.Spec.UnDecM

/-! # A universe of types with unmarshal methods, for examples and counterexamples -/

namespace Verif.Unjson
open Verif Verif.Float Verif.Njson Verif.Spec

/-- The struct types:
* 0 has an unexported string and `UnmarshalJSON` with a pointer receiver, like `time.Time`
* 1 has a field of type 0
* 2 has a field that is a pointer to type 0
* 3 has a field of the interface type 1
* 4 is empty
* 5 has two fields of type 4
* 6 has a field that is a slice of type 0
Defined type 0 is a string with `UnmarshalText` with a pointer receiver, 1 is an interface with `UnmarshalJSON`. -/
def exDFields : Nat → List Field
  | 0 => [⟨b!"s", [], false, false, .string⟩]
  | 1 => [fld b!"T" (.struct 0)]
  | 2 => [fld b!"P" (.ptr (.struct 0))]
  | 3 => [fld b!"I" (.named 1)]
  | 5 => [fld b!"A" (.struct 4), fld b!"B" (.struct 4)]
  | 6 => [fld b!"L" (.slice (.struct 0))]
  | _ => []

def exDUnder : Nat → Ty
  | 1 => .iface 1 0
  | _ => .string

def exDZero : Nat → GV
  | 0 => .struct [.str []]
  | 1 => .struct [.struct [.str []]]
  | 2 => .struct [.nilPtr]
  | 3 => .struct [.nilIface]
  | 5 => .struct [.struct [], .struct []]
  | 6 => .struct [.nilSlice]
  | _ => .struct []

/-- What the methods do: those of the pointers store the text they get, the others report an error. -/
def exDUnmarshal (t : Ty) (v : GV) (s : Bytes) : GV × Bool :=
  match v with
  | .ptr _ => if t = .ptr (.struct 0) then (.ptr (.struct [.str s]), false) else if t = .ptr (.named 0) then (.ptr (.str s), false) else (v, true)
  | _ => (v, true)

/-- With `b` struct type 4 has `UnmarshalJSON` with a value receiver. -/
def exD (b : Bool) : Univ where
  fields := exDFields
  under := exDUnder
  zeroStruct := exDZero
  zeroNamed := fun i => match i with | 1 => .nilIface | _ => .str []
  impl := fun t m => decide (
    (t = .ptr (.struct 0) ∧ m = .jsonUnmarshaler) ∨ (t = .ptr (.named 0) ∧ m = .textUnmarshaler) ∨
    (t = .named 1 ∧ m = .jsonUnmarshaler) ∨ (b = true ∧ (t = .struct 4 ∨ t = .ptr (.struct 4)) ∧ m = .jsonUnmarshaler))
  appendJSON := fun _ _ b => (b, true)
  marshal := fun _ _ _ => none
  unmarshalNode := fun _ v _ _ => (v, true)
  unmarshal := fun _ t v s => exDUnmarshal t v s
  omitMethod := fun _ _ => none
  fmtFloat := exU.fmtFloat
  atof := fun _ => none

/-- There are no `UnmarshalNodeJSON` methods. -/
def exDNode : NodeMeth := fun _ v _ => some (v, true)

theorem exD_ok (b : Bool) : (exD b).Ok where
  under_base := by intro i j; unfold exD exDUnder; dsimp only; split <;> simp
  under_struct := by intro i j; unfold exD exDUnder; dsimp only; split <;> simp
  zero_struct := by
    intro i
    unfold exD exDZero exDFields
    dsimp only
    split <;> simp [fld, Univ.zero]
  zero_named := by
    intro i
    unfold exD exDUnder
    dsimp only
    split <;> simp [Univ.zero]

theorem exD_unmarshals (b : Bool) : (exD b).Unmarshals exDNode where
  tree := fun _ _ _ _ _ _ => rfl
  typed_node := fun _ _ _ _ h hr => by cases hr; exact h
  typed := by
    intro m t v s hv
    show HasTy (exD b) t (exDUnmarshal t v s).1
    unfold exDUnmarshal
    split
    · split
      · rename_i h
        subst h
        refine .ptr (e := .struct 0) rfl (.struct (j := 0) rfl rfl ?_)
        intro i f v hf hv
        cases i with
        | zero => cases hf; cases hv; exact .str rfl
        | succ i => cases i <;> cases hf
      · split
        · rename_i h
          subst h
          exact .ptr (e := .named 0) rfl (.str rfl)
        · exact hv
    · exact hv

theorem exD_noMarshal (b : Bool) (t : Ty) : marshalMeth (exD b) t = none := by
  unfold marshalMeth
  rw [if_neg (by simp [exD]), if_neg (by simp [exD]), if_neg (by simp [exD])]

theorem exD_paired (b : Bool) : (exD b).Paired := by
  intro h t s hu hm hl
  clear hu hm
  induction hl with
  | here hs => exact hs.2.2 (exD_noMarshal b _)
  | ptr _ _ _ ih => exact ih
  | slice _ _ _ ih => exact ih
  | array _ _ _ ih => exact ih
  | map _ _ _ ih => exact ih

theorem exD_embeds (b : Bool) : (exD b).EmbedsStructs := by
  intro j f e hf ha hb
  exfalso
  have : f.anon = false := by
    unfold exD exDFields at hf
    dsimp only at hf
    split at hf <;> simp at hf
    all_goals first | (subst hf; rfl) | (rcases hf with rfl | rfl <;> rfl)
  rw [this] at ha; cases ha

theorem exD_reading : (exD false).Reading exDNode where
  ok := exD_ok false
  embeds := exD_embeds false
  methods := exD_unmarshals false
  paired := exD_paired false
  structs := by
    intro t ht hu
    exfalso
    apply hu
    unfold unmarshalMeth
    rw [if_neg (by simp [exD]), if_neg, if_neg]
    · intro hi
      have : t = .ptr (.named 0) := by simpa [exD] using hi
      subst this
      cases ht
    · intro hi
      have : t = .ptr (.struct 0) ∨ t = .named 1 := by simpa [exD] using hi
      rcases this with rfl | rfl <;> cases ht

end Verif.Unjson
