import Verif.Proofs.UnExample
import Verif.Spec.UnNil

/-! # A universe of types with methods that are called on nil pointers, for examples and counterexamples -/

namespace Verif.Unjson
open Verif Verif.Float Verif.Njson Verif.Spec

/-- The struct types:
* 0 has an unexported string, `MarshalJSON` with a value receiver and `UnmarshalJSON` with a pointer receiver, like `time.Time`
* 1 has a field that is a pointer to type 0
* 2 has a field that is a pointer to an integer
* 3 has a field with `omitempty` that is a pointer to defined type 0
* 4 has a field with `omitempty` that is a pointer to an integer
* 5 has a field that is a pointer to defined type 1
Defined type 0 is a string with an `Omit` method with a value receiver, 1 a string with `MarshalText` and `UnmarshalText` with pointer receivers that
accept nil pointers. -/
def exNFields : Nat → List Field
  | 0 => [⟨b!"s", [], false, false, .string⟩]
  | 1 => [fld b!"P" (.ptr (.struct 0))]
  | 2 => [fld b!"N" (.ptr (.int .std))]
  | 3 => [fld b!"Q" (.ptr (.named 0)) b!"q,omitempty"]
  | 4 => [fld b!"M" (.ptr (.int .std)) b!"m,omitempty"]
  | 5 => [fld b!"R" (.ptr (.named 1))]
  | _ => []

def exNZero : Nat → GV
  | 0 => .struct [.str []]
  | 1 => .struct [.nilPtr]
  | 2 => .struct [.nilPtr]
  | 3 => .struct [.nilPtr]
  | 4 => .struct [.nilPtr]
  | 5 => .struct [.nilPtr]
  | _ => .struct []

def exNUnmarshal (t : Ty) (v : GV) (s : Bytes) : GV × Bool :=
  match v with
  | .ptr _ => if t = .ptr (.struct 0) then (.ptr (.struct [.str s]), false) else if t = .ptr (.named 1) then (.ptr (.str s), false) else (v, true)
  | _ => (v, false)

def exNOmit : GV → Bool
  | .str s => s = b!"x"
  | .ptr (.str s) => s = b!"x"
  | _ => false

def exN : Univ where
  fields := exNFields
  under := fun _ => .string
  zeroStruct := exNZero
  zeroNamed := fun _ => .str []
  impl := fun t m => decide (
    (t = .struct 0 ∧ m = .jsonMarshaler) ∨ (t = .ptr (.struct 0) ∧ (m = .jsonMarshaler ∨ m = .jsonUnmarshaler)) ∨
    (t = .ptr (.named 1) ∧ (m = .textMarshaler ∨ m = .textUnmarshaler)))
  appendJSON := fun _ _ b => (b, true)
  marshal := fun m _ v => if m = .textMarshaler then (match v with | .nilPtr => some b!"nil" | _ => some b!"text") else some b!"\"2020\""
  unmarshalNode := fun _ v _ _ => (v, true)
  unmarshal := fun _ t v s => exNUnmarshal t v s
  omitMethod := fun name t => if name = b!"Omit" ∧ (t = .named 0 ∨ t = .ptr (.named 0)) then some exNOmit else none
  panics := fun _ t v _ => match v with | .nilPtr => decide (t = .ptr (.struct 0)) | _ => false
  omitPanics := fun _ t v => match v with | .nilPtr => decide (t = .ptr (.named 0)) | _ => false
  fmtFloat := exU.fmtFloat
  atof := fun _ => none

/-- There are no `UnmarshalNodeJSON` methods. -/
def exNNode : NodeMeth := fun _ v _ => some (v, true)

theorem exN_ok : exN.Ok where
  under_base := by intro i j h; cases h
  under_struct := by intro i j h; cases h
  zero_struct := by
    intro i
    unfold exN exNZero exNFields
    dsimp only
    split <;> simp [fld, Univ.zero]
  zero_named := by intro i; rfl

theorem exN_embeds : exN.EmbedsStructs := by
  intro j f e hf ha hb
  exfalso
  have : f.anon = false := by
    unfold exN exNFields at hf
    dsimp only at hf
    split at hf <;> simp at hf
    all_goals (subst hf; rfl)
  rw [this] at ha; cases ha

theorem exN_paired : exN.Paired := by
  intro h t s hu hm
  exfalso
  apply hu
  unfold unmarshalMeth
  rw [if_neg (by simp [exN]), if_neg, if_neg]
  · intro hi
    have : t = .ptr (.named 1) := by simpa [exN] using hi
    subst this
    revert hm
    decide
  · intro hi
    have : t = .ptr (.struct 0) := by simpa [exN] using hi
    subst this
    revert hm
    decide

theorem exN_program : exN.Program where
  ok := exN_ok
  embeds := exN_embeds
  ifaces := by
    intro name t n i hb
    unfold exN
    dsimp only
    rw [if_neg]
    rintro ⟨_, rfl | rfl⟩ <;> cases hb
  floats := ⟨exU_floats.plain, exU_floats.exp, exU_floats.over, exU_floats.single⟩
  appends := by intro t v b; simp [exN]
  paired := exN_paired

theorem exN_unmarshals : exN.Unmarshals exNNode where
  tree := fun _ _ _ _ _ _ => rfl
  typed_node := fun _ _ _ _ h hr => by cases hr; exact h
  typed := by
    intro m t v s hv
    show HasTy exN t (exNUnmarshal t v s).1
    unfold exNUnmarshal
    split
    · split
      · rename_i h
        subst h
        refine .ptr (e := .struct 0) rfl (.struct (j := 0) rfl rfl ?_)
        intro i f v hf hv
        cases i with
        | zero => cases hf; cases hv; exact .str rfl
        | succ i => cases i <;> cases hf
      · split
        · rename_i h
          subst h
          exact .ptr (e := .named 1) rfl (.str rfl)
        · exact hv
    · exact hv

theorem exN_reading : exN.Reading exNNode where
  ok := exN_ok
  embeds := exN_embeds
  methods := exN_unmarshals
  paired := exN_paired
  structs := by
    intro t ht hu
    exfalso
    apply hu
    unfold unmarshalMeth
    rw [if_neg (by simp [exN]), if_neg, if_neg]
    · intro hi
      have : t = .ptr (.named 1) := by simpa [exN] using hi
      subst this
      cases ht
    · intro hi
      have : t = .ptr (.struct 0) := by simpa [exN] using hi
      subst this
      cases ht

theorem exN_methods : exN.GoMethods where
  promoted := by
    intro t m h1 h2 h
    have : (t = .struct 0 ∧ m = .jsonMarshaler) ∨ (t = .ptr (.struct 0) ∧ (m = .jsonMarshaler ∨ m = .jsonUnmarshaler)) ∨
        (t = .ptr (.named 1) ∧ (m = .textMarshaler ∨ m = .textUnmarshaler)) := by simpa [exN] using h
    rcases this with ⟨rfl, rfl⟩ | ⟨rfl, _⟩ | ⟨rfl, _⟩
    · decide
    · exact absurd rfl (h1 _)
    · exact absurd rfl (h1 _)
  nil := by
    intro t m s h1 h
    have : (t = .struct 0 ∧ m = .jsonMarshaler) ∨ (t = .ptr (.struct 0) ∧ (m = .jsonMarshaler ∨ m = .jsonUnmarshaler)) ∨
        (t = .ptr (.named 1) ∧ (m = .textMarshaler ∨ m = .textUnmarshaler)) := by simpa [exN] using h
    rcases this with ⟨rfl, rfl⟩ | ⟨rfl, _⟩ | ⟨rfl, _⟩
    · rfl
    · exact absurd rfl (h1 _)
    · exact absurd rfl (h1 _)
  omits := by
    intro name t f h1 h2 h
    have h' : (name = b!"Omit" ∧ (t = .named 0 ∨ t = .ptr (.named 0))) ∧ exNOmit = f := by simpa [exN] using h
    obtain ⟨⟨rfl, rfl | rfl⟩, rfl⟩ := h'
    · refine ⟨exNOmit, by simp [exN], fun v hv => ?_⟩
      cases hv <;> first | rfl | (rename_i hb; cases hb)
    · exact absurd rfl (h1 _)
  omit_nil := by
    intro name t f h1 h
    have h' : (name = b!"Omit" ∧ (t = .named 0 ∨ t = .ptr (.named 0))) ∧ exNOmit = f := by simpa [exN] using h
    obtain ⟨⟨rfl, rfl | rfl⟩, rfl⟩ := h'
    · rfl
    · exact absurd rfl (h1 _)

theorem exN_unmarshal : exN.GoUnmarshal exNNode where
  nil_node := by intro t j _ h; simp [exN] at h
  kept := by intro m t e s _; rfl
  kept_node := by intro t e j r _ h; cases h; rfl

end Verif.Unjson
