import Verif.Spec.UnMeth

/-! # Specification: Go values that differ only in what Marshal does not write -/

namespace Verif.Unjson
open Verif Verif.Float Verif.Spec Verif.Njson

/-- Two values of type `t` that differ only in what is not written with options `o`: fields of structs that are not exported, that
are tagged `-` or that another field hides, and the elements of the array of a slice behind its length. Methods of types (marshal methods
and omit methods) see the whole value, so it has to be the same for types that have one. -/
inductive SameShown (U : Univ) : Options → Ty → GV → GV → Prop
  | same {o t v} : SameShown U o t v v
  | ptr {o t e v v'} : U.base t = .ptr e → marshalMeth U t = none → NoOmit U o.omitMethod t → SameShown U o e v v' → SameShown U o t (.ptr v) (.ptr v')
  | slice {o t e arr arr' len} : U.base t = .slice e → marshalMeth U t = none → NoOmit U o.omitMethod t →
      (arr.take len).length = (arr'.take len).length →
      (∀ (i : Nat) x y, (arr.take len)[i]? = some x → (arr'.take len)[i]? = some y → SameShown U o e x y) →
      SameShown U o t (.slice arr len) (.slice arr' len)
  | array {o t n e xs ys} : U.base t = .array n e → marshalMeth U t = none → NoOmit U o.omitMethod t → xs.length = ys.length →
      (∀ (i : Nat) x y, xs[i]? = some x → ys[i]? = some y → SameShown U o e x y) → SameShown U o t (.array xs) (.array ys)
  | map {o t k e es fs} : U.base t = .map k e → marshalMeth U t = none → NoOmit U o.omitMethod t → es.map Prod.fst = fs.map Prod.fst →
      (∀ (i : Nat) p q, es[i]? = some p → fs[i]? = some q → SameShown U o e p.2 q.2) → SameShown U o t (.map es) (.map fs)
  /-- the content of an interface is written with the default options -/
  | iface {o t i t' v v'} : U.base t = .iface 0 i → marshalMeth U t = none → NoOmit U o.omitMethod t → (∀ e, U.base t' ≠ .ptr e) →
      marshalMeth U (.ptr t') = none → SameShown U defaultOptions t' v v' → SameShown U o t (.iface t' v) (.iface t' v')
  | ifacePtr {o t i t' e v v'} : U.base t = .iface 0 i → marshalMeth U t = none → NoOmit U o.omitMethod t → U.base t' = .ptr e →
      marshalMeth U t' = none → SameShown U defaultOptions e v v' → SameShown U o t (.iface t' (.ptr v)) (.iface t' (.ptr v'))
  /-- only the fields that count are compared -/
  | struct {o t j cs fs fs'} : U.base t = .struct j → marshalMeth U t = none → NoOmit U o.omitMethod t → Cands U o (U.fields j) 0 [] cs →
      (∀ c ∈ resolve [] cs, sub (.struct fs) c.index = none ↔ sub (.struct fs') c.index = none) →
      (∀ c ∈ resolve [] cs, ∀ x y, sub (.struct fs) c.index = some x → sub (.struct fs') c.index = some y → SameShown U o c.typ x y) →
      SameShown U o t (.struct fs) (.struct fs')

/-- The same for arguments of `Marshal` and `Encode`. A pointer stands for what it points to; the methods of the pointer are looked for. -/
inductive SameArg (U : Univ) (o : Options) (t : Ty) : GV → GV → Prop
  | same {v} : SameArg U o t v v
  | value {v v'} : (∀ e, U.base t ≠ .ptr e) → marshalMeth U (.ptr t) = none → SameShown U o t v v' → SameArg U o t v v'
  | ptr {e v v'} : U.base t = .ptr e → marshalMeth U t = none → SameShown U o e v v' → SameArg U o t (.ptr v) (.ptr v')

/-- Two calls end alike: with the same text appended, with the same error, or with a panic. -/
def SameEnd (out out' : Bytes) (r r' : Out Bytes) : Prop :=
  (∃ s, r = .done (out ++ s) none ∧ r' = .done (out' ++ s) none) ∨ (∃ b b' e, r = .done b (some e) ∧ r' = .done b' (some e)) ∨ (r = .panic ∧ r' = .panic)

end Verif.Unjson
