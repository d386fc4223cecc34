import Verif.Spec.Tree

/-! # What the nodes of a document hold -/

namespace Verif.Njson
open Verif Verif.Spec

/-- What node `i` holds: the bytes of its raw text and of the keys of its children, and a constant for the node (2) and for each child (4). -/
def heldAt (g : Nat → Option Cont) (i : Nat) : Nat :=
  match g i with
  | none => 0
  | some c => c.raw.length + 2 + (c.vals.map fun v => v.key.length + 4).sum

/-- What all the nodes of a document hold. -/
def Doc.held (d : Doc) : Nat := ((List.range d.len).map (heldAt d.cont)).sum

end Verif.Njson
