import Verif.Spec.UnDecode

/-! # Specification: into which variables Unmarshal can panic -/

namespace Verif.Unjson
open Verif Verif.Spec

/-- A text can lead decoding from a variable of type `t` to a part of it of type `t'`: an object key must be one that can
occur in a text, and of several fields with a name only the first one is used. -/
inductive Reach (U : Univ) (o : Options) : Ty → Ty → Prop
  | refl {t} : Reach U o t t
  | ptr {t e t'} : U.base t = .ptr e → Reach U o e t' → Reach U o t t'
  | slice {t e t'} : U.base t = .slice e → Reach U o e t' → Reach U o t t'
  | array {t n e t'} : U.base t = .array n e → n ≠ 0 → Reach U o e t' → Reach U o t t'
  | field {t j cs key c t'} : U.base t = .struct j → Cands U o (U.fields j) 0 [] cs → cs.find? (fun c => c.key = key) = some c →
      EscBody key → Reach U o c.typ t' → Reach U o t t'

/-- Maps and defined empty interface types. -/
def Touchy (U : Univ) (t : Ty) : Prop := (∃ k e, U.base t = .map k e) ∨ ∃ i, U.base t = .iface 0 i ∧ t ≠ .any

end Verif.Unjson
