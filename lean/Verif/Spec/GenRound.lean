import Verif.Spec.GenDec
import Verif.Spec.UnRound

/-!
# Specification of AppendJSON followed by UnmarshalNodeJSON

Which values come back, and as what.
-/

namespace Verif.Gen
open Verif Verif.Float Verif.Spec Verif.Njson Verif.Unjson

/-- The package, with the fields of its structs in other orders. -/
def Env.reorder (E : Env) (F : Nat → List (List GField)) : Env := { E with fields := F }

/-- A type without methods that marshal or unmarshal, no time and no duration. -/
def Bare (E : Env) (t : Ty) : Prop := NoMarshal E.U t ∧ ¬ Unmarshals E t

/-- The fields of a struct are read where they are written: their names differ and need no escaping, none is raw or of a type
that is skipped, and none is a part of another. -/
structure SameFields (E : Env) (o : GenOptions) (j : Nat) : Prop where
  names : ∀ f ∈ (E.fields j).flatten, ∀ g ∈ (E.fields j).flatten, ∀ n ps ps', Takes E o f n ps → Takes E o g n ps' → f = g
  plain : ∀ p ∈ appendPicks E o j, RfcBody p.name ∧ b!"raw" ∉ p.params
  can : ∀ p ∈ appendPicks E o j, Can E.U p.field.typ
  apart : ∀ p ∈ appendPicks E o j, ∀ q ∈ appendPicks E o j, p.name ≠ q.name → Apart p.field.path q.field.path

/-- Omit methods panic at most on nil pointers. -/
def OmitCalm (U : Univ) : Prop := ∀ name t v, v ≠ .nilPtr → U.omitPanics name t v = false

/-- The values that come back. Not: integers that are no float64, floats whose text does not give the same float, strings that are not
UTF-8 or end in a backslash, maps with entries. -/
inductive Reads (E : Env) (o : GenOptions) : Ty → GV → Prop
  | bool {t b} : Bare E t → E.U.base t = .bool → Reads E o t (.bool b)
  | int {t k i} : Bare E t → E.U.base t = .int k → Repr64 i.natAbs → Reads E o t (.int i)
  | uint {t k n} : Bare E t → E.U.base t = .uint k → Repr64 n → Reads E o t (.uint n)
  | float {t k neg m e} : Bare E t → E.U.base t = .float k →
      setFloat k (NumJson.parseFloat (floatText64 E.U (.num neg (.fin m e)))) = .num neg (.fin m e) → Reads E o t (.float (.num neg (.fin m e)))
  | str {t s} : Bare E t → E.U.base t = .string → SafeText s → Reads E o t (.str s)
  | nilPtr {t e} : Bare E t → E.U.base t = .ptr e → Reads E o t .nilPtr
  | ptr {t e v} : Bare E t → E.U.base t = .ptr e → (∀ e', E.U.base e ≠ .ptr e') → Reads E o e v → Reads E o t (.ptr v)
  | nilSlice {t e} : Bare E t → E.U.base t = .slice e → Reads E o t .nilSlice
  | slice {t e arr len} : Bare E t → E.U.base t = .slice e → (∀ x ∈ arr.take len, Reads E o e x) → Reads E o t (.slice arr len)
  | nilMap {t k e} : Bare E t → E.U.base t = .map k e → Reads E o t .nilMap
  | emptyMap {t k e} : Bare E t → E.U.base t = .map k e → Reads E o t (.map [])
  | struct {j fs} : Bare E (.struct j) → SameFields E o j →
      (∀ p ∈ appendPicks E o j, ∀ x, look (.struct fs) p.field.path = some x → Reads E o p.field.typ x) → Reads E o (.struct j) (.struct fs)

/-- Field `p` of a struct is written, with content `x`: it is not below a nil pointer, not a nil pointer, and not omitted. -/
def Written (E : Env) (o : GenOptions) (v : GV) (p : Pick) (x : GV) : Prop :=
  look v p.field.path = some x ∧ (b!"omitempty" ∈ p.params → omitted E o p.field.typ x = false)

/-- `Back E o t v w`: a value `v` of type `t` comes back as `w`. An empty slice comes back as nil, a nil map as an empty map, slices without
spare capacity; fields of structs that are not written, and fields that take no part, come back with their zero values, or below a nil pointer. -/
inductive Back (E : Env) (o : GenOptions) : Ty → GV → GV → Prop
  | bool {t b} : Back E o t (.bool b) (.bool b)
  | int {t i} : Back E o t (.int i) (.int i)
  | uint {t n} : Back E o t (.uint n) (.uint n)
  | float {t f} : Back E o t (.float f) (.float f)
  | str {t s} : Back E o t (.str s) (.str s)
  | nilPtr {t} : Back E o t .nilPtr .nilPtr
  | ptr {t e v w} : E.U.base t = .ptr e → Back E o e v w → Back E o t (.ptr v) (.ptr w)
  | nilSlice {t} : Back E o t .nilSlice .nilSlice
  | emptySlice {t arr} : Back E o t (.slice arr 0) .nilSlice
  | slice {t e arr len ws} : E.U.base t = .slice e → 0 < len → ws.length = len →
      (∀ (i : Nat) x w, (arr.take len)[i]? = some x → ws[i]? = some w → Back E o e x w) → Back E o t (.slice arr len) (.slice ws len)
  | nilMap {t} : Back E o t .nilMap (.map [])
  | emptyMap {t} : Back E o t (.map []) (.map [])
  | struct {j fs ws} :
      (∀ p ∈ appendPicks E o j, ∀ x, Written E o (.struct fs) p x → getPath (.struct ws) p.field.path ≠ none) →
      (∀ p ∈ appendPicks E o j, ∀ x y, Written E o (.struct fs) p x → getPath (.struct ws) p.field.path = some y → Back E o p.field.typ x y) →
      (∀ p ∈ appendPicks E o j, (∀ x, ¬ Written E o (.struct fs) p x) → ∀ y, getPath (.struct ws) p.field.path = some y →
        y = E.U.zero p.field.typ ∧ getPath (.struct fs) p.field.path ≠ none) →
      (∀ q tq y, (∀ p ∈ appendPicks E o j, Apart p.field.path q) → pathTy E.U (.struct j) q = some tq → getPath (.struct ws) q = some y →
        y = E.U.zero tq) →
      Back E o (.struct j) (.struct fs) (.struct ws)

/-- Omit methods do not tell a value from what comes back for it, and leave out zero values. -/
def OmitBack (E : Env) (o : GenOptions) : Prop :=
  ∀ t f, E.U.omitMethod o.omitMethod t = some f → f (E.U.zero t) = true ∧ ∀ x y, Back E o t x y → f x = f y

end Verif.Gen
