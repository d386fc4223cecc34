import Verif.Spec.Ops
import Verif.Spec.Edit

/-! # Specification: histories of calls, finiteness, sharing -/

namespace Verif.Njson
open Verif Verif.Spec

/-- The condition `P` holds at every call of the sequence, on the heap the call is made in. -/
def AllSteps (P : Heap → Op → Prop) (fuel : Nat) : List Op → Heap → Prop
  | [], _ => True
  | op :: ops, h => P h op ∧ ∀ h' res, op.run fuel h = some (h', res) → AllSteps P fuel ops h'

/-- Every chain of child references starting at `id` ends. -/
inductive FiniteAt (g : Nat → Option Cont) : Nat → Prop
  | mk (id : Nat) : (∀ c, g id = some c → ∀ v ∈ c.vals, FiniteAt g v.id) → FiniteAt g id

/-- Some node of the document has `id` as a child. -/
def Referenced (d : Doc) (id : Nat) : Prop := ∃ (i : Nat) (c : Cont) (v : V), d.cont i = some c ∧ v ∈ c.vals ∧ v.id = id

/-- No two child slots of the document refer to the same node. -/
def NoSharing (d : Doc) : Prop :=
  ∀ (i j : Nat) (ci cj : Cont) (a b : Nat) (v w : V), d.cont i = some ci → d.cont j = some cj → ci.vals[a]? = some v → cj.vals[b]? = some w → v.id = w.id →
    i = j ∧ a = b

/-- The (target, value) pairs of a call that inserts. -/
def Op.inserted : Op → List (Node × Node)
  | .set n _ v | .replace n _ v => [(n, v)]
  | .append n vs => vs.map fun v => (n, v)
  | _ => []

/-- `Append` is only given live nodes. -/
def LiveAppends (h : Heap) (op : Op) : Prop := ∀ n vs, op = .append n vs → ∀ v ∈ vs, ¬ Dead h v

/-- No orphan is inserted below itself. -/
def NoLoops (h : Heap) (op : Op) : Prop := ∀ p ∈ op.inserted, Insertable h p.1 p.2

/-- The orphans that are linked do not have a parent yet. -/
def TrueOrphans (h : Heap) (op : Op) : Prop :=
  ∀ p ∈ op.inserted, Adopted h p.1 p.2 → ∀ r, p.2.document h = some r → ¬ Referenced (h r) p.2.id

/-- All documents are empty (whatever their capacity and revision). -/
def Blank (h : Heap) : Prop := ∀ r, (h r).len = 0

end Verif.Njson
