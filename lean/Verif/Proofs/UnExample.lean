import Verif.Proofs.UnEq
import Verif.Proofs.UnText

/-! # A universe of types for examples and counterexamples -/

namespace Verif.Unjson
open Verif Verif.Float Verif.Njson Verif.Spec

/-- An exported field. -/
def fld (n : Bytes) (t : Ty) (tag : Bytes := []) (anon : Bool := false) : Field :=
  ⟨n, if tag = [] then [] else [(b!"json", tag)], anon, true, t⟩

/-- The struct types:
* 0 is recursive: `struct { A int; B string "b"; Next *T0 "next,omitempty" }`
* 1 embeds type 2 and has a field `X` after it, like type 2 itself
* 2 is `struct { X bool }`
* 3 has a map
* 4 has a field of type 5, which has a `MarshalJSON` method
* 6 embeds a pointer to type 2
* 7 has `omitempty` on an array and on a struct
* 8 has `omitempty` on its only field
* 9 embeds itself through a pointer
* 10 has a field `X` and then embeds type 2
Defined type 0 is `type S string`, 1 is `type E interface{}`, 2 is `type L []bool`. -/
def exFields : Nat → List Field
  | 0 => [fld b!"A" (.int .std), fld b!"B" .string b!"b", fld b!"Next" (.ptr (.struct 0)) b!"next,omitempty"]
  | 1 => [fld b!"E" (.struct 2) [] true, fld b!"X" .bool]
  | 2 => [fld b!"X" .bool]
  | 3 => [fld b!"M" (.map .string .bool)]
  | 4 => [fld b!"T" (.struct 5)]
  | 6 => [fld b!"P" (.ptr (.struct 2)) [] true]
  | 7 => [fld b!"R" (.array 2 (.int .std)) b!"r,omitempty", fld b!"O" (.struct 8) b!"o,omitempty"]
  | 8 => [fld b!"A" (.int .std) b!"a,omitempty"]
  | 9 => [fld b!"P" (.ptr (.struct 9)) [] true]
  | 10 => [fld b!"X" .bool, fld b!"E" (.struct 2) [] true]
  | _ => []

def exUnder : Nat → Ty
  | 0 => .string
  | 1 => .iface 0 0
  | _ => .slice .bool

def exZero : Nat → GV
  | 0 => .struct [.int 0, .str [], .nilPtr]
  | 1 => .struct [.struct [.bool false], .bool false]
  | 2 => .struct [.bool false]
  | 3 => .struct [.nilMap]
  | 4 => .struct [.struct []]
  | 6 => .struct [.nilPtr]
  | 7 => .struct [.array [.int 0, .int 0], .struct [.int 0]]
  | 8 => .struct [.int 0]
  | 9 => .struct [.nilPtr]
  | 10 => .struct [.bool false, .struct [.bool false]]
  | _ => .struct []

/-- Not finite or beyond the range of float32. -/
def f32Over : Flt → Bool
  | .num _ (.fin m e) => decide (NumJson.toF32 (.fin m e) = .inf)
  | _ => true

def exU : Univ where
  fields := exFields
  under := exUnder
  zeroStruct := exZero
  zeroNamed := fun i => match i with | 0 => .str [] | 1 => .nilIface | _ => .nilSlice
  impl := fun t m => decide ((t = .struct 5 ∨ t = .ptr (.struct 5)) ∧ m = .jsonMarshaler)
  appendJSON := fun _ _ b => (b, true)
  marshal := fun _ _ _ => some b!"\"2020\""
  unmarshalNode := fun _ v _ _ => (v, true)
  unmarshal := fun _ _ v _ => (v, true)
  omitMethod := fun _ _ => none
  -- only good for zero
  fmtFloat := fun f _ c => if f32Over f then (match f with | .num true _ => b!"-Inf" | _ => b!"+Inf") else if c = 101 then b!"0e+00" else b!"0"
  atof := fun _ => none

theorem exU_ok : exU.Ok where
  under_base := by intro i j; unfold exU exUnder; dsimp only; split <;> simp
  under_struct := by intro i j; unfold exU exUnder; dsimp only; split <;> simp
  zero_struct := by
    intro i
    unfold exU exZero exFields
    dsimp only
    split <;> simp [fld, Univ.zero, List.replicate]
  zero_named := by
    intro i
    unfold exU exUnder
    dsimp only
    split <;> simp [Univ.zero]

theorem exU_omit : exU.NoOmitMethod := fun _ _ => rfl

theorem exU_embeds : exU.EmbedsStructs := by
  intro j f e hf ha hb
  have : f.anon = true → ∃ k, f.typ = .struct k ∨ f.typ = .ptr (.struct k) := by
    unfold exU exFields at hf
    dsimp only at hf
    split at hf <;> simp at hf
    all_goals rcases hf with rfl | rfl | rfl <;> simp [fld]
  obtain ⟨k, h | h⟩ := this ha
  · rw [h] at hb; cases hb
  · rw [h] at hb; cases hb; exact ⟨k, rfl⟩

theorem exU_floats : exU.GoFloats where
  plain := by
    intro neg m e hi
    have : exU.fmtFloat (.num neg (.fin m e)) 32 102 = b!"0" := by simp [exU, f32Over, hi]
    rw [this]
    exact ⟨⟨false, b!"0", none, none⟩, ⟨⟨by simp, by unfold IsDigitByte; decide⟩, by simp, by simp⟩, .inl rfl, rfl, rfl⟩
  exp := by
    intro neg m e hi
    have : exU.fmtFloat (.num neg (.fin m e)) 32 101 = b!"0e+00" := by simp [exU, f32Over, hi]
    rw [this]
    refine ⟨⟨false, b!"0", none, some (101, [43], b!"00")⟩, 43, b!"00", ⟨⟨by simp, by unfold IsDigitByte; decide⟩, by simp, ?_⟩, .inl rfl, rfl, by decide, rfl⟩
    intro c sg ds h
    cases h
    exact ⟨.inl rfl, by simp, by simp, by unfold IsDigitByte; decide⟩

  over := by
    intro neg m e c hi
    cases neg <;> simp [exU, f32Over, hi]
  single := by
    intro neg m e c
    have h := toF32_idem (.fin m e)
    cases hq : NumJson.toF32 (.fin m e) with
    | inf => cases neg <;> simp [exU, f32Over, hq]
    | fin m' e' => rw [hq] at h; simp [exU, f32Over, hq, h]

end Verif.Unjson
