import Verif.Spec.History

/-! # Specification: edits of two nodes (C119) -/

namespace Verif.Njson
open Verif Verif.Spec

/-- The values that the call inserts exist and contain neither of the two nodes. -/
def ApartFrom (h : Heap) (fuel : Nat) (op : Op) (n1 n2 : Node) : Prop :=
  ∀ p ∈ op.inserted, (∃ t, Tree h p.2 t ∧ t.size ≤ fuel) ∧ ¬ Contains h p.2 n1 ∧ ¬ Contains h p.2 n2

/-- The same node of the same document. -/
def SameNode (n1 n2 : Node) : Prop := n1.doc = n2.doc ∧ n1.id = n2.id

/-- The setters write null, true, false, a number or a string. -/
def SetsScalar (op : Op) : Prop :=
  ∀ n typ raw, op = .setScalar n typ raw → (typ = tNull ∧ raw = b!"null") ∨ (typ = tBoolean ∧ (raw = b!"true" ∨ raw = b!"false")) ∨ typ = tNumber ∨ typ = tString

end Verif.Njson
