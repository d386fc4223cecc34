import Verif.Spec.UnRound

/-!
# Specification: exactly the values that come back from Marshal and Unmarshal

`Survives` (Spec/UnRound.lean) is a class that is easy to check; `ComesBack` is the largest one.
-/

namespace Verif.Unjson
open Verif Verif.Float Verif.Spec Verif.Njson

/-- Contents of interfaces that come back: what `Unmarshal` itself stores in an interface, with map keys that need no escaping and
differ, and floats that are read back. -/
inductive AnyBack (U : Univ) : GV → Prop
  | nil : AnyBack U .nilIface
  | bool {b} : AnyBack U (.iface .bool (.bool b))
  | float {neg m e} : NumJson.parseFloat (floatText U (.num neg (.fin m e))) = .num neg (.fin m e) →
      AnyBack U (.iface (.float .b64) (.float (.num neg (.fin m e))))
  | str {s} : ValidUtf8 s → AnyBack U (.iface .string (.str s))
  | slice {arr len} : len ≤ arr.length → (∀ x ∈ arr.take len, AnyBack U x) → AnyBack U (.iface (.slice .any) (.slice arr len))
  | map {es} : (∀ p ∈ es, ∃ k, p.1 = .str k ∧ StrJson.escaped k false false = k) → (es.map Prod.fst).Nodup →
      (∀ p ∈ es, AnyBack U p.2) → AnyBack U (.iface (.map .string .any) (.map es))

/-- The value with the given fields set to zero. -/
def clear (U : Univ) (cs : List Cand) (v : GV) : GV := cs.foldl (fun w c => put (U.zero c.typ) w c.index) v

/-- `ComesBack U h t v`: value `v` of type `t`, with hints `h`, comes back from Marshal and Unmarshal. -/
inductive ComesBack (U : Univ) : Hint → Ty → GV → Prop
  | bool {h t b} : U.base t = .bool → ComesBack U h t (.bool b)
  /-- a float64, or so large that numjson does not read it -/
  | int {h t k i} : U.base t = .int k → -(2 ^ (k.bits - 1) : Int) ≤ i → i < 2 ^ (k.bits - 1) → (Repr64 i.natAbs ∨ 2 ^ 63 - 512 ≤ i) →
      ComesBack U h t (.int i)
  | uint {h t k n} : U.base t = .uint k → n < 2 ^ k.bits → (Repr64 n ∨ 2 ^ 64 - 1024 ≤ n) → ComesBack U h t (.uint n)
  | float {h t k neg m e f} : U.base t = .float k → readFloat U (floatText U (.num neg (.fin m e))) = some f →
      setFloat k f = .num neg (.fin m e) → ComesBack U h t (.float (.num neg (.fin m e)))
  | str {h t s} : U.base t = .string → ValidUtf8 s → ComesBack U h t (.str s)
  | nilPtr {h t e} : U.base t = .ptr e → ComesBack U h t .nilPtr
  /-- not a pointer to something that is written as null -/
  | ptr {h t e v} : U.base t = .ptr e → v ≠ .nilPtr → v ≠ .nilMap → v ≠ .nilIface → ComesBack U h e v → ComesBack U h t (.ptr v)
  /-- not a nil slice -/
  | slice {h t e arr len} : U.base t = .slice e → len ≤ arr.length → (∀ x ∈ arr.take len, ComesBack U h e x) → ComesBack U h t (.slice arr len)
  | array {h t n e xs} : U.base t = .array n e → xs.length = n → (∀ x ∈ xs, ComesBack U h e x) → ComesBack U h t (.array xs)
  /-- no other map -/
  | nilMap {h t k e} : U.base t = .map k e → ComesBack U h t .nilMap
  | any {h v} : AnyBack U v → ComesBack U h .any v
  /-- the fields that are written come back, those that are omitted are zero, and so is everything else -/
  | struct {h t j fs cs} : U.base t = .struct j → Cands U defaultOptions (U.fields j) 0 [] cs →
      (∀ c ∈ resolve [] cs, ∀ x, sub (.struct fs) c.index = some x → Omits U defaultOptions c x false → ComesBack U c.hint c.typ x) →
      (∀ c ∈ resolve [] cs, ∀ x, sub (.struct fs) c.index = some x → Omits U defaultOptions c x true → x = U.zero c.typ) →
      clear U (resolve [] cs) (.struct fs) = U.zero t → ComesBack U h t (.struct fs)

/-- No struct in the type has two written fields of one name. -/
def OneName (U : Univ) (t : Ty) : Prop :=
  ∀ j cs, Comp U t (.struct j) → Cands U defaultOptions (U.fields j) 0 [] cs → ((resolve [] cs).map Cand.key).Nodup

/-- strconv.AppendFloat prints the zero float as 0. -/
def Univ.ZeroText (U : Univ) : Prop := U.fmtFloat (.num false (.fin 0 f64.emin)) 32 102 = b!"0"

end Verif.Unjson
