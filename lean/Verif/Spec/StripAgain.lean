import Verif.Spec.Strip
import Verif.Model.Node

/-! # Specification: `Strip` called more than once -/

namespace Verif.Spec
open Verif Verif.Njson

mutual
/-- No object of the tree that is not inside an array has a member with key `k`. -/
def NoKeyOut (k : Bytes) : JVal → Prop
  | .obj ms => NoKeyOutMembers k ms
  | _ => True
def NoKeyOutMembers (k : Bytes) : List (Bytes × JVal) → Prop
  | [] => True
  | (k', x) :: ms => k' ≠ k ∧ NoKeyOut k x ∧ NoKeyOutMembers k ms
end

mutual
/-- The largest number of members with key `k` that one object of the tree has, of those not inside an array. -/
def JVal.most (k : Bytes) : JVal → Nat
  | .obj ms => max (ms.filter fun m => m.1 = k).length (mostMembers k ms)
  | _ => 0
def mostMembers (k : Bytes) : List (Bytes × JVal) → Nat
  | [] => 0
  | (_, x) :: ms => max (x.most k) (mostMembers k ms)
end

/-- `m` calls of `n.Strip(k)`. -/
def stripTimes (n : Node) (fuel : Nat) (k : Bytes) : Nat → Heap → Option Heap
  | 0, h => some h
  | m + 1, h => (n.strip h fuel k).bind (stripTimes n fuel k m)

/-- The tree after `m` calls. -/
def JVal.strippedTimes (k : Bytes) : Nat → JVal → JVal
  | 0, t => t
  | m + 1, t => JVal.strippedTimes k m (t.stripped k)

end Verif.Spec
