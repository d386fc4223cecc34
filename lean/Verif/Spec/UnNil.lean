import Verif.Spec.UnDecM

/-!
# Specification: methods of pointers in Go, and nil pointers inside values

What the language says about methods of `T` and `*T`, and the places of a value at which `Marshal` calls a method on a nil pointer.
-/

namespace Verif.Unjson
open Verif Verif.Float Verif.Spec Verif.Njson

/-- Methods in Go. The method set of `*T` contains that of `T` (T no pointer, no interface), and to call a method of `T` through a nil `*T`
panics. -/
structure Univ.GoMethods (U : Univ) : Prop where
  promoted : ∀ t m, (∀ e, U.base t ≠ .ptr e) → (∀ n i, U.base t ≠ .iface n i) → U.impl t m = true → U.impl (.ptr t) m = true
  nil : ∀ t m s, (∀ e, U.base t ≠ .ptr e) → U.impl t m = true → U.panics m (.ptr t) .nilPtr s = true
  omits : ∀ name t f, (∀ e, U.base t ≠ .ptr e) → (∀ n i, U.base t ≠ .iface n i) → U.omitMethod name t = some f →
    ∃ g, U.omitMethod name (.ptr t) = some g ∧ ∀ v, HasTy U t v → g (.ptr v) = f v
  omit_nil : ∀ name t f, (∀ e, U.base t ≠ .ptr e) → U.omitMethod name t = some f → U.omitPanics name (.ptr t) .nilPtr = true

/-- The same for `UnmarshalNodeJSON` (see `NodeMeth` for `nm`). A method gets its receiver by value: it cannot change a nil pointer. -/
structure Univ.GoUnmarshal (U : Univ) (nm : NodeMeth) : Prop where
  nil_node : ∀ t j, (∀ e, U.base t ≠ .ptr e) → U.impl t .unmarshaler = true → nm (.ptr t) .nilPtr j = none
  kept : ∀ m t e s, U.base t = .ptr e → (U.unmarshal m t .nilPtr s).1 = .nilPtr
  kept_node : ∀ t e j r, U.base t = .ptr e → nm t .nilPtr j = some r → r.1 = .nilPtr

/-- No pointer and no interface type -/
def Direct (U : Univ) (t : Ty) : Prop := (∀ e, U.base t ≠ .ptr e) ∧ (∀ n i, U.base t ≠ .iface n i)

mutual
/-- To write a value (see `Writes`) a method with a value receiver is called through a nil pointer, somewhere in the value. -/
inductive NilCall (U : Univ) : Bool → Bool → Options → Hint → Ty → GV → Prop
  /-- the marshal method of a nil pointer -/
  | meth {c a o h e m} : Direct U e → via U c h (.ptr e) = some m → U.impl e m = true → NilCall U c a o h (.ptr e) .nilPtr
  | ptr {c a o h t e v} : via U c h t = none → U.base t = .ptr e → NilCall U c true o h e v → NilCall U c a o h t (.ptr v)
  | slice {c a o h t e arr len x} : via U c h t = none → U.base t = .slice e → x ∈ arr.take len → NilCall U c true o h e x → NilCall U c a o h t (.slice arr len)
  | array {c a o h t n e xs x} : via U c h t = none → U.base t = .array n e → x ∈ xs → NilCall U c a o h e x → NilCall U c a o h t (.array xs)
  | map {c a o h t k e es x} : via U c h t = none → U.base t = .map k e → x ∈ es → NilCall U c false o Hint.none e x.2 → NilCall U c a o h t (.map es)
  | iface {c a o h t i t' v} : via U c h t = none → U.base t = .iface 0 i → NilArg U defaultOptions t' v → NilCall U c a o h t (.iface t' v)
  /-- a field that is not omitted -/
  | field {c a o h t j cs k fs x} : via U c h t = none → U.base t = .struct j → Cands U o (U.fields j) 0 [] cs → k ∈ resolve [] cs →
      sub (.struct fs) k.index = some x → OmitsM U o (addrAt a k.index) k x (some false) → NilCall U true (addrAt a k.index) o k.hint k.typ x →
      NilCall U c a o h t (.struct fs)
  /-- the omit method of a nil pointer -/
  | omitted {c a o h t j cs k fs e f} : via U c h t = none → U.base t = .struct j → Cands U o (U.fields j) 0 [] cs → k ∈ resolve [] cs →
      sub (.struct fs) k.index = some .nilPtr → k.hint.omitempty = true → k.typ = .ptr e → Direct U e → U.omitMethod o.omitMethod e = some f →
      NilCall U c a o h t (.struct fs)
/-- The same for an argument of `Marshal`, and for the content of an interface. -/
inductive NilArg (U : Univ) : Options → Ty → GV → Prop
  /-- the pointer itself is nil -/
  | nil {o t e} : U.base t = .ptr e → NilArg U o t .nilPtr
  | ptr {o t e v} : U.base t = .ptr e → marshalMeth U t = none → NilCall U false true o Hint.none e v → NilArg U o t (.ptr v)
  | value {o t v} : (∀ e, U.base t ≠ .ptr e) → marshalMeth U (.ptr t) = none → NilCall U false false o Hint.none t v → NilArg U o t v
end

end Verif.Unjson
