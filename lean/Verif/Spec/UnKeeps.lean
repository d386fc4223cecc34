import Verif.Spec.UnDecM

/-! # Specification: the parts of a struct that are apart -/

namespace Verif.Unjson
open Verif Verif.Spec Verif.Njson

/-- Two paths into a value that part at a struct: one goes into one field, the other into another one. -/
def Elsewhere (p q : List Int) : Prop :=
  ∃ (pre : List Int) (a b : Nat) (p' q' : List Int), p = pre ++ (a : Int) :: p' ∧ q = pre ++ (b : Int) :: q' ∧ a ≠ b

/-- The path `q` is elsewhere than all the fields, of the fields `cs`, that are named in the tree. -/
def NotNamed (cs : List Cand) (j : JVal) (q : List Int) : Prop :=
  ∀ ms, j = .obj ms → ∀ m ∈ ms, ∀ c ∈ cs, c.key = m.1 → Elsewhere c.index q

end Verif.Unjson
