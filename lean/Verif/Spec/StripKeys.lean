import Verif.Spec.Strip
import Verif.Model.Node

/-! # Specification: `Strip` called with several keys -/

namespace Verif.Spec
open Verif Verif.Njson

/-- One call of `n.Strip` for each of the keys, in their order. -/
def stripKeys (n : Node) (fuel : Nat) : List Bytes → Heap → Option Heap
  | [], h => some h
  | k :: ks, h => (n.strip h fuel k).bind (stripKeys n fuel ks)

/-- The tree without the members with one of the keys. -/
def JVal.withoutAll : List Bytes → JVal → JVal
  | [], t => t
  | k :: ks, t => JVal.withoutAll ks (t.without k)

end Verif.Spec
