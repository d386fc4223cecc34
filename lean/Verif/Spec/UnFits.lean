import Verif.Spec.UnDecode

/-! # Specification: which trees fit which types -/

namespace Verif.Unjson
open Verif Verif.Float Verif.Spec Verif.Njson

/-- Every part of the tree can be decoded into the part of a variable of type `t` that it is for. -/
inductive Fits (U : Univ) (o : Options) : Ty → JVal → Prop
  | null {t} : Fits U o t .null
  | bool {t b} : U.base t = .bool → Fits U o t (.bool b)
  | int {t k raw} : U.base t = .int k → readInt raw ≠ none → Fits U o t (.num raw)
  | uint {t k raw} : U.base t = .uint k → readUint raw ≠ none → Fits U o t (.num raw)
  | float {t k raw} : U.base t = .float k → readFloat U raw ≠ none → Fits U o t (.num raw)
  | str {t raw} : U.base t = .string → Fits U o t (.str raw)
  | ptr {t e j} : U.base t = .ptr e → Fits U o e j → Fits U o t j
  | slice {t e js} : U.base t = .slice e → (∀ j ∈ js, Fits U o e j) → Fits U o t (.arr js)
  | array {t n e js} : U.base t = .array n e → (∀ j ∈ js, Fits U o e j) → Fits U o t (.arr js)
  | map {t k e ms} : U.base t = .map k e → (∀ m ∈ ms, Fits U o e m.2) → Fits U o t (.obj ms)
  | struct {t i cs ms} : U.base t = .struct i → Cands U o (U.fields i) 0 [] cs →
      (∀ m ∈ ms, ∀ c, (resolve [] cs).find? (fun c => c.key = m.1) = some c → Fits U o c.typ m.2) → Fits U o t (.obj ms)
  | any {t i j} : U.base t = .iface 0 i → anyOf j ≠ none → Fits U o t j

/-- No slices and arrays in a type. -/
def NoArrays (U : Univ) (t : Ty) : Prop := ∀ t', Comp U t t' → ∀ e, U.base t' ≠ .slice e ∧ ∀ n, U.base t' ≠ .array n e

/-- No maps and defined empty interface types in a type. -/
def Tame (U : Univ) (t : Ty) : Prop := ∀ t', Comp U t t' → (∀ k e, U.base t' ≠ .map k e) ∧ ∀ i, U.base t' = .iface 0 i → t' = .any

/-- The types that package unjson supports: made of booleans, numbers, strings, empty interfaces, pointers, slices, arrays,
maps with string keys, and structs. -/
def Supported (U : Univ) (t : Ty) : Prop := ∀ t', Comp U t t' →
  U.base t' ≠ .other ∧ (∀ m i, U.base t' = .iface m i → m = 0) ∧ ∀ k e, U.base t' = .map k e → U.base k = .string

end Verif.Unjson
