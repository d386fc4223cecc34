import Verif.Spec.Json

/-! # How deep a JSON value is nested -/

namespace Verif.Spec
open Verif

mutual
/-- The values around one inside the other, with the outermost and the innermost one: 1 for a scalar and for `[]` and `{}`. -/
def levels : JVal → Nat
  | .arr xs => 1 + levelsElems xs
  | .obj ms => 1 + levelsMembers ms
  | _ => 1
def levelsElems : List JVal → Nat
  | [] => 0
  | x :: xs => max (levels x) (levelsElems xs)
def levelsMembers : List (Bytes × JVal) → Nat
  | [] => 0
  | (_, x) :: ms => max (levels x) (levelsMembers ms)
end

end Verif.Spec
