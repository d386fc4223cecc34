import Verif.Spec.Ops

/-! # Specification: calls that could end the life of a node or change its own content -/

namespace Verif.Njson
open Verif

/-- the call is a setter (SetString, SetNull, SetInt, …) of the node with this id, through whatever `Node` -/
def SetsNode (r : Ref) (id : Nat) (op : Op) : Prop := ∃ m t b, op = .setScalar m t b ∧ m.doc = some r ∧ m.id = id

end Verif.Njson
