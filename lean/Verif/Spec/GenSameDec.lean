import Verif.Spec.GenSame
import Verif.Spec.GenDec

/-!
# Specification: generated code and `unjson` read the same

Which JSON, for which variables.
-/

namespace Verif.Gen
open Verif Verif.Float Verif.Spec Verif.Njson Verif.Unjson

/-- The field of a struct that `unjson` stores the members with a key in. -/
def fieldFor (cs : List Cand) (key : Bytes) : Option Cand := (resolve [] cs).find? fun c => c.key = key

/-- For generator and `unjson` a key belongs to the same field, which is not raw; or to none. -/
def SameTarget (E : Env) (o : GenOptions) (j : Nat) (cs : List Cand) (key : Bytes) : Prop :=
  (fieldFor cs key = none ∧ ∀ p ∈ unmarshalPicks E o j, p.name ≠ key) ∨
  ∃ c, ∃ p ∈ unmarshalPicks E o j, fieldFor cs key = some c ∧ p.name = key ∧ selectors c.index = p.field.path ∧ c.typ = p.field.typ ∧ ¬ RawString E.U p

/-- The trees that both read alike into a variable of a type with some content. Not: null, other than for a nil pointer, slice or map, or a pointer; an
empty array for a nil slice; an array that does not fit into a slice with elements; an object for a nil map; fields below nil pointers; numerals that
package numjson does not read; objects with a key twice; values of other types, times, durations, and types with unmarshal methods. -/
inductive ReadAlike (E : Env) (o : GenOptions) : Ty → GV → JVal → Prop
  | bool {t v b} : ¬ Unmarshals E t → E.U.base t = .bool → ReadAlike E o t v (.bool b)
  | str {t v s} : ¬ Unmarshals E t → E.U.base t = .string → ReadAlike E o t v (.str s)
  | int {t k v raw} : ¬ Unmarshals E t → E.U.base t = .int k → (NumJson.parseInt raw).2 = true → ReadAlike E o t v (.num raw)
  | uint {t k v raw} : ¬ Unmarshals E t → E.U.base t = .uint k → (NumJson.parseUint raw).2 = true → ReadAlike E o t v (.num raw)
  | float {t k v raw} : ¬ Unmarshals E t → E.U.base t = .float k → NumJson.parseFloat raw ≠ .nan → ReadAlike E o t v (.num raw)
  | ptrNull {t e v} : ¬ Unmarshals E t → E.U.base t = .ptr e → ReadAlike E o t v .null
  | ptrNew {t e j} : ¬ Unmarshals E t → E.U.base t = .ptr e → j ≠ .null → ReadAlike E o e (E.U.zero e) j → ReadAlike E o t .nilPtr j
  | ptr {t e v j} : ¬ Unmarshals E t → E.U.base t = .ptr e → j ≠ .null → ReadAlike E o e v j → ReadAlike E o t (.ptr v) j
  | sliceNull {t e} : ¬ Unmarshals E t → E.U.base t = .slice e → ReadAlike E o t .nilSlice .null
  | sliceNew {t e js} : ¬ Unmarshals E t → E.U.base t = .slice e → js ≠ [] → (∀ j ∈ js, ReadAlike E o e (E.U.zero e) j) →
      ReadAlike E o t .nilSlice (.arr js)
  | sliceFit {t e arr len js} : ¬ Unmarshals E t → E.U.base t = .slice e → js.length ≤ arr.length →
      (∀ (i : Nat) x j, arr[i]? = some x → js[i]? = some j → ReadAlike E o e x j) → ReadAlike E o t (.slice arr len) (.arr js)
  | sliceGrow {t e arr js} : ¬ Unmarshals E t → E.U.base t = .slice e → arr.length < js.length →
      (∀ j ∈ js, ReadAlike E o e (E.U.zero e) j) → ReadAlike E o t (.slice arr 0) (.arr js)
  | mapNull {t k e} : ¬ Unmarshals E t → E.U.base t = .map k e → ReadAlike E o t .nilMap .null
  | map {t e es ms} : ¬ Unmarshals E t → E.U.base t = .map .string e → (∀ m ∈ ms, ReadAlike E o e (E.U.zero e) m.2) →
      ReadAlike E o t (.map es) (.obj ms)
  | struct {j cs v ms} : ¬ Unmarshals E (.struct j) → Cands E.U decodeOptions (E.U.fields j) 0 [] cs → (ms.map Prod.fst).Nodup →
      (∀ m ∈ ms, SameTarget E o j cs m.1) → (∀ m ∈ ms, ∀ c, fieldFor cs m.1 = some c → sub v c.index ≠ none) →
      (∀ m ∈ ms, ∀ c x, fieldFor cs m.1 = some c → sub v c.index = some x → ReadAlike E o c.typ x m.2) → ReadAlike E o (.struct j) v (.obj ms)

end Verif.Gen
