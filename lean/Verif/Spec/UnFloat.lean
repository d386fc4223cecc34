import Verif.Model.UnTypes
import Verif.Spec.Float

/-!
# Specification: a float64 in a float variable
-/

namespace Verif.Spec
open Verif Verif.Float Verif.Unjson

/-- `g` is the float64 `f` in a variable of kind `k`: itself, or the nearest float32 with the same sign. -/
def FitsIn (k : FKind) (f g : Flt) : Prop :=
  match k, f with
  | .b64, f => g = f
  | .b32, .nan => g = .nan
  | .b32, .num neg .inf => g = .num neg .inf
  | .b32, .num neg (.fin m e) => ∃ q, g = .num neg q ∧ Nearest f32 (val m e) q

end Verif.Spec
