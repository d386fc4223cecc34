import Verif.Spec.Ops

/-! # Specification: several edits of one node -/

namespace Verif.Njson
open Verif

/-- every call edits node `n` with one of the setters, Set, Append, Replace, Slice, Remove and Del -/
def Edits (n : Node) (ops : List Op) : Prop := ∀ op ∈ ops, op.mutates n ∧ ∀ k, op ≠ .strip n k

end Verif.Njson
