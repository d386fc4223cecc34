import Verif.Spec.Tree

/-! # Specification: edits of JSON trees, and the side condition of the inserting mutations -/

namespace Verif.Spec
open Verif

/-- Give the first member with key `k` the value `t`, or add a member at the end. -/
def assocSet : List (Bytes × JVal) → Bytes → JVal → List (Bytes × JVal)
  | [], k, t => [(k, t)]
  | (k', x) :: ms, k, t => if k' = k then (k', t) :: ms else (k', x) :: assocSet ms k t

/-- The value of the first member with key `k`. -/
def assocGet : List (Bytes × JVal) → Bytes → Option JVal
  | [], _ => none
  | (k', x) :: ms, k => if k' = k then some x else assocGet ms k

/-- Drop the first member with key `k`. -/
def assocDel : List (Bytes × JVal) → Bytes → List (Bytes × JVal)
  | [], _ => []
  | (k', x) :: ms, k => if k' = k then ms else (k', x) :: assocDel ms k

end Verif.Spec

namespace Verif.Njson
open Verif Verif.Spec

/-- The value is an orphan of the target's document (a fresh constructor result or parse result that was not
inserted anywhere yet, other than node 0): inserting it links it instead of copying it. -/
def Adopted (h : Heap) (n v : Node) : Prop :=
  ∃ r d, n.document h = some r ∧ v.document h = some r ∧ v.id ≠ n.id ∧ v.id ≠ 0 ∧ (h r).get v.id = some d ∧ d.root = true

/-- The insertion of `v` under `n` does not close a loop: `v` is copied, or `n` is not below `v`. -/
def Insertable (h : Heap) (n v : Node) : Prop := ¬ (Adopted h n v ∧ Contains h v n)

end Verif.Njson
