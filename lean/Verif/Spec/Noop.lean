import Verif.Spec.Ops

/-! # Specification: calls that do not apply -/

namespace Verif.Njson
open Verif

/-- The call does not fit the node it is made on: the node is dead or of another type, the index is out of range, the key
is absent, or the value to insert is dead. (`Slice` up to the end of the array is among them, see C25.) -/
def Op.Misses (h : Heap) : Op → Prop
  | .set n _ v => n.typ h ≠ tObject ∨ Dead h v
  | .del n k => n.typ h ≠ tObject ∨ ∀ v ∈ n.values h, v.key ≠ k
  | .append n vs => n.typ h ≠ tArray ∨ vs = []
  | .replace n i v => n.typ h ≠ tArray ∨ i < 0 ∨ (n.values h).length ≤ i ∨ Dead h v
  | .remove n i => n.typ h ≠ tArray ∨ i < 0 ∨ (n.values h).length ≤ i
  | .slice n i j => n.typ h ≠ tArray ∨ i < 0 ∨ j ≤ i ∨ (n.values h).length ≤ j
  | .strip n _ => n.typ h ≠ tObject
  | .setScalar n _ _ => Dead h n
  | _ => False

end Verif.Njson
