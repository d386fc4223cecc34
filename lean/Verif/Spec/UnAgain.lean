import Verif.Spec.UnDecM
import Verif.Spec.UnMapOrder

/-! # Specification: unmarshal methods that do nothing new when they are called again -/

namespace Verif.Unjson
open Verif Verif.Float Verif.Spec Verif.Njson

/-- If an unmarshal method is called again with the same input, for the value that it left, then it returns the same and changes nothing. -/
def MethodsAgain (U : Univ) (nm : NodeMeth) : Prop :=
  ∀ m t v j y e, methOut U nm m t v j = .done y e → methOut U nm m t y j = .done y e

end Verif.Unjson
