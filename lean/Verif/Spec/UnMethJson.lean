import Verif.Spec.UnMeth

/-! # Specification: methods that write JSON -/

namespace Verif.Unjson
open Verif Verif.Float Verif.Spec

/-- Marshal methods do what their documentation asks for: `AppendJSON` and `MarshalJSON` give JSON texts; and what `MarshalText`
gives needs no escaping. -/
structure Univ.MethsJSON (U : Univ) : Prop where
  append : ∀ t v, (U.appendJSON t v []).2 = false → ∃ j, RfcText (U.appendJSON t v []).1 j
  json : ∀ t v s, U.marshal .jsonMarshaler t v = some s → ∃ j, RfcText s j
  text : ∀ t v s, U.marshal .textMarshaler t v = some s → RfcBody s

end Verif.Unjson
