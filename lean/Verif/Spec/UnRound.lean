import Verif.Spec.UnDecode
import Verif.Spec.Utf8

/-! # Specification: the values that survive Marshal and Unmarshal -/

namespace Verif.Unjson
open Verif Verif.Float Verif.Spec Verif.Njson

mutual
/-- The value with slices cut to their lengths: what `reflect.DeepEqual` sees of it. -/
def GV.trim : GV → GV
  | .ptr v => .ptr v.trim
  | .slice arr len => .slice ((trimL arr).take len) len
  | .array xs => .array (trimL xs)
  | .map es => .map (trimM es)
  | .iface t v => .iface t v.trim
  | .struct fs => .struct (trimL fs)
  | v => v
def trimL : List GV → List GV
  | [] => []
  | x :: xs => x.trim :: trimL xs
def trimM : List (GV × GV) → List (GV × GV)
  | [] => []
  | (k, x) :: es => (k, x.trim) :: trimM es
end

/-- A natural number that is a float64. -/
def Repr64 (n : Nat) : Prop := ∃ m e, IsFloat f64 m e ∧ val m e = n

/-- A text of valid UTF-8 that contains a quote or does not end in a backslash. -/
def SafeText (s : Bytes) : Prop := ValidUtf8 s ∧ (34 ∈ s ∨ s.getLast? ≠ some 92)

/-- Contents of interfaces that survive: what `Unmarshal` itself stores in an interface, with map keys that need no
escaping and differ, and floats whose texts package numjson reads back. -/
inductive JsonAny (U : Univ) : GV → Prop
  | nil : JsonAny U .nilIface
  | bool {b} : JsonAny U (.iface .bool (.bool b))
  | float {neg m e} : NumJson.toF32 (.fin m e) ≠ .inf →
      NumJson.parseFloat (floatText U (.num neg (.fin m e))) = .num neg (.fin m e) →
      JsonAny U (.iface (.float .b64) (.float (.num neg (.fin m e))))
  | str {s} : SafeText s → JsonAny U (.iface .string (.str s))
  | slice {arr len} : len ≤ arr.length → (∀ x ∈ arr.take len, JsonAny U x) → JsonAny U (.iface (.slice .any) (.slice arr len))
  | map {es} : (∀ p ∈ es, ∃ k, p.1 = .str k ∧ StrJson.escaped k false false = k) → (es.map Prod.fst).Nodup →
      (∀ p ∈ es, JsonAny U p.2) → JsonAny U (.iface (.map .string .any) (.map es))

mutual
/-- `Survives U h t v`: value `v` of type `t`, with hints `h`, comes back from Marshal and Unmarshal. -/
inductive Survives (U : Univ) : Hint → Ty → GV → Prop
  | bool {h t b} : U.base t = .bool → Survives U h t (.bool b)
  | int {h t k i} : U.base t = .int k → -(2 ^ (k.bits - 1) : Int) ≤ i → i < 2 ^ (k.bits - 1) → Repr64 i.natAbs → Survives U h t (.int i)
  | uint {h t k n} : U.base t = .uint k → n < 2 ^ k.bits → Repr64 n → Survives U h t (.uint n)
  | float {h t k neg m e} : U.base t = .float k → NumJson.toF32 (.fin m e) ≠ .inf →
      readFloat U (floatText U (.num neg (.fin m e))) = some (.num neg (.fin m e)) →
      (k = .b32 → IsFloat f32 m e) → Survives U h t (.float (.num neg (.fin m e)))
  | str {h t s} : U.base t = .string → (h.raw = true → h.html = true) → SafeText s → Survives U h t (.str s)
  | nilPtr {h t e} : U.base t = .ptr e → Survives U h t .nilPtr
  /-- not a pointer to something that is written as null -/
  | ptr {h t e v} : U.base t = .ptr e → v ≠ .nilPtr → v ≠ .nilMap → v ≠ .nilIface → Survives U h e v → Survives U h t (.ptr v)
  /-- not a nil slice -/
  | slice {h t e arr len} : U.base t = .slice e → len ≤ arr.length → (∀ x ∈ arr.take len, Survives U h e x) → Survives U h t (.slice arr len)
  | array {h t n e xs} : U.base t = .array n e → xs.length = n → (∀ x ∈ xs, Survives U h e x) → Survives U h t (.array xs)
  | nilMap {h t k e} : U.base t = .map k e → Survives U h t .nilMap
  | any {h v} : JsonAny U v → Survives U h .any v
  /-- the names of the fields that are written differ -/
  | struct {h t j fs cs} : U.base t = .struct j → Cands U defaultOptions (U.fields j) 0 [] cs → (cs.map Cand.key).Nodup →
      SurviveFields U (U.fields j) fs → Survives U h t (.struct fs)
inductive SurviveFields (U : Univ) : List Field → List GV → Prop
  | nil : SurviveFields U [] []
  /-- fields that are not written have zero values -/
  | skip {f fs vs} : (f.exported = false ∨ (defaultOptions.parseField f).1 = b!"-") → SurviveFields U fs vs →
      SurviveFields U (f :: fs) (U.zero f.typ :: vs)
  /-- an embedded struct -/
  | embed {f fs vs j ws} : f.exported = true → (defaultOptions.parseField f).1 ≠ b!"-" → f.anon = true →
      (defaultOptions.parseField f).2.2 = false → U.base f.typ = .struct j → SurviveFields U (U.fields j) ws → SurviveFields U fs vs →
      SurviveFields U (f :: fs) (.struct ws :: vs)
  /-- an embedded pointer to a struct is nil -/
  | embedNil {f fs vs e} : f.exported = true → f.anon = true →
      (defaultOptions.parseField f).2.2 = false → U.base f.typ = .ptr e → SurviveFields U fs vs →
      SurviveFields U (f :: fs) (.nilPtr :: vs)
  /-- a field that is written -/
  | kept {f fs vs v} {idx : List Int} : f.exported = true → (defaultOptions.parseField f).1 ≠ b!"-" →
      (f.anon = true → (defaultOptions.parseField f).2.2 = false → (∀ j, U.base f.typ ≠ .struct j) ∧ ∀ e, U.base f.typ ≠ .ptr e) →
      Omits U defaultOptions ⟨(defaultOptions.parseField f).1, idx, f.typ, (defaultOptions.parseField f).2.1⟩ v false →
      Survives U (defaultOptions.parseField f).2.1 f.typ v → SurviveFields U fs vs → SurviveFields U (f :: fs) (v :: vs)
  /-- a field that is omitted has the zero value -/
  | omitted {f fs vs} {idx : List Int} : f.exported = true → (defaultOptions.parseField f).1 ≠ b!"-" →
      (f.anon = true → (defaultOptions.parseField f).2.2 = false → (∀ j, U.base f.typ ≠ .struct j) ∧ ∀ e, U.base f.typ ≠ .ptr e) →
      Omits U defaultOptions ⟨(defaultOptions.parseField f).1, idx, f.typ, (defaultOptions.parseField f).2.1⟩ (U.zero f.typ) true →
      SurviveFields U fs vs → SurviveFields U (f :: fs) (U.zero f.typ :: vs)
end

end Verif.Unjson
