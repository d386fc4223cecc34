import Verif.Spec.GenRound
import Verif.Spec.UnNil

/-! # Specification: nil pointers in what generated methods write -/

namespace Verif.Gen
open Verif Verif.Float Verif.Spec Verif.Njson Verif.Unjson

/-- The marshal method that is called for values of a type: `AppendJSON` before `MarshalJSON` before `MarshalText` -/
inductive FirstMeth (U : Univ) (t : Ty) : Meth → Prop
  | append : U.impl t .appender = true → FirstMeth U t .appender
  | json : U.impl t .appender = false → U.impl t .jsonMarshaler = true → FirstMeth U t .jsonMarshaler
  | text : U.impl t .appender = false → U.impl t .jsonMarshaler = false → U.impl t .textMarshaler = true → FirstMeth U t .textMarshaler

/-- Marshal methods panic at most on nil pointers. -/
def NilOnly (U : Univ) : Prop := ∀ m t v s, U.panics m t v s = true → v = .nilPtr

/-- Somewhere in the value, an element of a slice or a value of a map is a nil pointer whose method panics. -/
inductive NilElem (E : Env) (o : GenOptions) : Ty → GV → Prop
  | elem {t e arr len m} : NoMarshal E.U t → E.U.base t = .slice e → .nilPtr ∈ arr.take len → FirstMeth E.U e m → E.U.panics m e .nilPtr [] = true →
      NilElem E o t (.slice arr len)
  | entry {t k e es key m} : NoMarshal E.U t → E.U.base t = .map k e → (key, .nilPtr) ∈ es → FirstMeth E.U e m → E.U.panics m e .nilPtr [] = true →
      NilElem E o t (.map es)
  | ptr {t e v} : NoMarshal E.U t → E.U.base t = .ptr e → (∀ e', E.U.base e ≠ .ptr e') → NilElem E o e v → NilElem E o t (.ptr v)
  | slice {t e arr len x} : NoMarshal E.U t → E.U.base t = .slice e → x ∈ arr.take len → NilElem E o e x → NilElem E o t (.slice arr len)
  | map {t k e es p} : NoMarshal E.U t → E.U.base t = .map k e → p ∈ es → NilElem E o e p.2 → NilElem E o t (.map es)
  | struct {j fs p x} : NoMarshal E.U (.struct j) → p ∈ appendPicks E o j → look (.struct fs) p.field.path = some x →
      (b!"omitempty" ∈ p.params → omitted E o p.field.typ x = false) → NilElem E o p.field.typ x → NilElem E o (.struct j) (.struct fs)

end Verif.Gen
