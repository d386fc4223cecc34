import Verif.Spec.GenUAgain
import Verif.Spec.UnOrder

/-! # Specification: unmarshal methods to which the order of members does not matter -/

namespace Verif.Gen
open Verif Verif.Float Verif.Spec Verif.Njson Verif.Unjson

/-- If `UnmarshalJSON` or `UnmarshalText` succeeds, then also for a value that is the same but for the orders of maps, with a text that is the same but for the order of
members; and it leaves the same value. -/
structure OrderBlindIn (E : Env) : Prop where
  json : ∀ t v v' j j', E.U.impl (.ptr t) .jsonUnmarshaler = true → SameVal v v' → Shuffled j j' → E.U.panics .jsonUnmarshaler (.ptr t) (.ptr v) j.ser = false →
    (E.U.unmarshal .jsonUnmarshaler (.ptr t) (.ptr v) j.ser).2 = false →
    E.U.panics .jsonUnmarshaler (.ptr t) (.ptr v') j'.ser = false ∧ (E.U.unmarshal .jsonUnmarshaler (.ptr t) (.ptr v') j'.ser).2 = false ∧
      SameVal (pointee v (E.U.unmarshal .jsonUnmarshaler (.ptr t) (.ptr v) j.ser).1) (pointee v' (E.U.unmarshal .jsonUnmarshaler (.ptr t) (.ptr v') j'.ser).1)
  text : ∀ t v v' s, E.U.impl (.ptr t) .textUnmarshaler = true → SameVal v v' → E.U.panics .textUnmarshaler (.ptr t) (.ptr v) s = false →
    (E.U.unmarshal .textUnmarshaler (.ptr t) (.ptr v) s).2 = false →
    E.U.panics .textUnmarshaler (.ptr t) (.ptr v') s = false ∧ (E.U.unmarshal .textUnmarshaler (.ptr t) (.ptr v') s).2 = false ∧
      SameVal (pointee v (E.U.unmarshal .textUnmarshaler (.ptr t) (.ptr v) s).1) (pointee v' (E.U.unmarshal .textUnmarshaler (.ptr t) (.ptr v') s).1)

end Verif.Gen
