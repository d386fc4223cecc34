import Verif.Spec.Access
import Verif.Spec.Edit
import Verif.Model.StrJson

/-!
# Members and their keys

Specification of "the member with this key": by the raw text of the key, first or last, and by the string that the key denotes.
-/

namespace Verif.Spec
open Verif

/-- The value of the last member with key `k`. -/
def assocLast : List (Bytes × JVal) → Bytes → Option JVal
  | [], _ => none
  | (k', x) :: ms, k => match assocLast ms k with
    | some y => some y
    | none => if k' = k then some x else none

/-- The value of the first member whose key denotes `k`. -/
def denotedGet : List (Bytes × JVal) → Bytes → Option JVal
  | [], _ => none
  | (k', x) :: ms, k => if StrJson.unescaped k' = k then some x else denotedGet ms k

/-- Every key of the object is written as the string it denotes. -/
def PlainKeys (ms : List (Bytes × JVal)) : Prop := ∀ m ∈ ms, StrJson.unescaped m.1 = m.1

/-- No two members have the same key. -/
def DistinctKeys (ms : List (Bytes × JVal)) : Prop := (ms.map (·.1)).Nodup

end Verif.Spec
