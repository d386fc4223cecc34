import Verif.Spec.UnMapOrder
import Verif.Spec.Gen

/-! # Specification: methods and the order of iteration over maps, for generated code -/

namespace Verif.Gen
open Verif Verif.Float Verif.Spec Verif.Njson Verif.Unjson

/-- The methods of the program do not depend on the order in which a map is iterated over, except for the order of members in their texts. -/
structure MethodsBlind (U : Univ) : Prop where
  append : ∀ t v v' (j : JVal), SameVal v v' → RfcTree j → (∀ out, U.appendJSON t v out = (out ++ j.ser, false)) →
    ∃ j' : JVal, RfcTree j' ∧ (∀ out, U.appendJSON t v' out = (out ++ j'.ser, false)) ∧ Reordered j j'
  json : ∀ t v v' (j : JVal), SameVal v v' → RfcTree j → U.marshal .jsonMarshaler t v = some j.ser →
    ∃ j' : JVal, RfcTree j' ∧ U.marshal .jsonMarshaler t v' = some j'.ser ∧ Reordered j j'
  text : ∀ t v v', SameVal v v' → U.marshal .textMarshaler t v = U.marshal .textMarshaler t v'
  stops : ∀ m t v v' s, SameVal v v' → CallStops U m t v s → CallStops U m t v' s
  omits : ∀ name t m v v', U.omitMethod name t = some m → SameVal v v' → m v = m v'
  omitPanics : ∀ name t v v', SameVal v v' → U.omitPanics name t v = U.omitPanics name t v'

end Verif.Gen
