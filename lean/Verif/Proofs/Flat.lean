import Verif.Model.Parser
import Verif.Spec.Json

/-!
Trees laid out in an arena. `ANode` is the observable part of a node (spare value capacity forgotten);
`flat base t` is the preorder layout the parser produces.
-/

namespace Verif.Njson
open Verif Verif.Spec

theorem jval_ind {P : JVal → Prop} {L : List JVal → Prop} {M : List (Bytes × JVal) → Prop}
    (null : P .null) (bool : ∀ b, P (.bool b)) (num : ∀ r, P (.num r)) (str : ∀ r, P (.str r))
    (arr : ∀ xs, L xs → P (.arr xs)) (obj : ∀ ms, M ms → P (.obj ms))
    (lnil : L []) (lcons : ∀ x xs, P x → L xs → L (x :: xs))
    (mnil : M []) (mcons : ∀ k x ms, P x → M ms → M ((k, x) :: ms)) :
    (∀ t, P t) ∧ (∀ xs, L xs) ∧ (∀ ms, M ms) := by
  have hP : ∀ t, P t := fun t => JVal.rec (motive_1 := P) (motive_2 := L) (motive_3 := M) (motive_4 := fun kx => P kx.2)
    null bool num str arr obj lnil lcons mnil (fun kx ms h1 h2 => mcons kx.1 kx.2 ms h1 h2) (fun _ _ h => h) t
  refine ⟨hP, ?_, ?_⟩
  · intro xs; induction xs with
    | nil => exact lnil
    | cons x xs ih => exact lcons x xs (hP x) ih
  · intro ms; induction ms with
    | nil => exact mnil
    | cons m ms ih => exact mcons m.1 m.2 ms (hP m.2) ih

/-- The observable part of a node. -/
structure ANode where
  typ : Typ
  root : Bool
  raw : Bytes
  vals : List V
  deriving DecidableEq

def NodeD.abs (n : NodeD) : ANode := ⟨n.typ, n.root, n.raw, n.values.vis⟩

/-- child references of consecutive subtrees starting at `base` -/
def elemRefs (base : Nat) : List JVal → List V
  | [] => []
  | x :: xs => ⟨base, []⟩ :: elemRefs (base + x.size) xs
def memberRefs (base : Nat) : List (Bytes × JVal) → List V
  | [] => []
  | (k, x) :: ms => ⟨base, k⟩ :: memberRefs (base + x.size) ms

mutual
/-- preorder layout -/
def flat (base : Nat) : JVal → List ANode
  | .null => [⟨tNull, false, strNull, []⟩]
  | .bool true => [⟨tBoolean, false, strTrue, []⟩]
  | .bool false => [⟨tBoolean, false, strFalse, []⟩]
  | .num raw => [⟨tNumber, false, raw, []⟩]
  | .str raw => [⟨tString, false, raw, []⟩]
  | .arr xs => ⟨tArray, false, [], elemRefs (base + 1) xs⟩ :: flatElems (base + 1) xs
  | .obj ms => ⟨tObject, false, [], memberRefs (base + 1) ms⟩ :: flatMembers (base + 1) ms
def flatElems (base : Nat) : List JVal → List ANode
  | [] => []
  | x :: xs => flat base x ++ flatElems (base + x.size) xs
def flatMembers (base : Nat) : List (Bytes × JVal) → List ANode
  | [] => []
  | (_, x) :: ms => flat base x ++ flatMembers (base + x.size) ms
end

theorem flat_length_all : (∀ t : JVal, ∀ base, (flat base t).length = t.size) ∧
    (∀ xs, ∀ base, (flatElems base xs).length = sizeElems xs) ∧
    (∀ ms, ∀ base, (flatMembers base ms).length = sizeMembers ms) := by
  apply jval_ind
  · intro b; simp [flat, JVal.size]
  · intro b base; cases b <;> simp [flat, JVal.size]
  · intro r b; simp [flat, JVal.size]
  · intro r b; simp [flat, JVal.size]
  · intro xs ih b; simp [flat, JVal.size, ih, Nat.add_comm]
  · intro xs ih b; simp [flat, JVal.size, ih, Nat.add_comm]
  · intro b; simp [flatElems, sizeElems]
  · intro x xs h1 h2 b; simp [flatElems, sizeElems, h1, h2]
  · intro b; simp [flatMembers, sizeMembers]
  · intro k x xs h1 h2 b; simp [flatMembers, sizeMembers, h1, h2]

theorem flat_length (t : JVal) (base : Nat) : (flat base t).length = t.size := flat_length_all.1 t base
theorem flatElems_length (xs : List JVal) (base : Nat) : (flatElems base xs).length = sizeElems xs :=
  flat_length_all.2.1 xs base
theorem flatMembers_length (ms) (base : Nat) : (flatMembers base ms).length = sizeMembers ms :=
  flat_length_all.2.2 ms base

theorem size_pos (t : JVal) : 0 < t.size := by
  cases t <;> simp [JVal.size] <;> omega

end Verif.Njson
