import Verif.Spec.Json

/-! # Specification: removing a key everywhere in a tree -/

namespace Verif.Spec
open Verif

mutual
/-- The tree without the members with key `k`, everywhere (also inside arrays), order kept. -/
def JVal.without (k : Bytes) : JVal → JVal
  | .arr xs => .arr (withoutElems k xs)
  | .obj ms => .obj (withoutMembers k ms)
  | .null => .null
  | .bool b => .bool b
  | .num r => .num r
  | .str r => .str r
def withoutElems (k : Bytes) : List JVal → List JVal
  | [] => []
  | x :: xs => x.without k :: withoutElems k xs
def withoutMembers (k : Bytes) : List (Bytes × JVal) → List (Bytes × JVal)
  | [] => []
  | (k', x) :: ms => if k' = k then withoutMembers k ms else (k', x.without k) :: withoutMembers k ms
end

mutual
/-- No object of the tree has a member with key `k`. -/
def NoKey (k : Bytes) : JVal → Prop
  | .arr xs => NoKeyElems k xs
  | .obj ms => NoKeyMembers k ms
  | _ => True
def NoKeyElems (k : Bytes) : List JVal → Prop
  | [] => True
  | x :: xs => NoKey k x ∧ NoKeyElems k xs
def NoKeyMembers (k : Bytes) : List (Bytes × JVal) → Prop
  | [] => True
  | (k', x) :: ms => k' ≠ k ∧ NoKey k x ∧ NoKeyMembers k ms
end

mutual
/-- Equal up to the order of object members. -/
inductive SameUpToOrder : JVal → JVal → Prop
  | refl (t : JVal) : SameUpToOrder t t
  | arr {xs ys : List JVal} : SameElems xs ys → SameUpToOrder (.arr xs) (.arr ys)
  | obj {ms ms' ns : List (Bytes × JVal)} : ms.Perm ms' → SameMembers ms' ns → SameUpToOrder (.obj ms) (.obj ns)
inductive SameElems : List JVal → List JVal → Prop
  | nil : SameElems [] []
  | cons {x y : JVal} {xs ys : List JVal} : SameUpToOrder x y → SameElems xs ys → SameElems (x :: xs) (y :: ys)
inductive SameMembers : List (Bytes × JVal) → List (Bytes × JVal) → Prop
  | nil : SameMembers [] []
  | cons {k : Bytes} {x y : JVal} {ms ns : List (Bytes × JVal)} : SameUpToOrder x y → SameMembers ms ns → SameMembers ((k, x) :: ms) ((k, y) :: ns)
end

mutual
/-- What `Strip` handles: objects (reached through objects) have the key at most once, and arrays do not contain it. -/
def StripOk (k : Bytes) : JVal → Prop
  | .arr xs => NoKeyElems k xs
  | .obj ms => (ms.filter fun m => m.1 = k).length ≤ 1 ∧ StripOkMembers k ms
  | _ => True
def StripOkMembers (k : Bytes) : List (Bytes × JVal) → Prop
  | [] => True
  | (k', x) :: ms => (k' = k ∨ StripOk k x) ∧ StripOkMembers k ms
end

/-- Drop the first member with key `k`, moving the last member into its place. -/
def delSwap {α : Type} (k : Bytes) : List (Bytes × α) → List (Bytes × α)
  | [] => []
  | (k', x) :: ms =>
    if k' = k then
      match ms.getLast? with
      | none => []
      | some z => z :: ms.dropLast
    else (k', x) :: delSwap k ms

mutual
/-- What `Strip` does on every tree: objects only, first member with the key only. -/
def JVal.stripped (k : Bytes) : JVal → JVal
  | .obj ms => .obj (delSwap k (strippedMembers k ms))
  | .arr xs => .arr xs
  | .null => .null
  | .bool b => .bool b
  | .num r => .num r
  | .str r => .str r
def strippedMembers (k : Bytes) : List (Bytes × JVal) → List (Bytes × JVal)
  | [] => []
  | (k', x) :: ms => (k', x.stripped k) :: strippedMembers k ms
end

end Verif.Spec
