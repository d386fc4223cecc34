import Verif.Model.Node

/-!
# The steps of AppendJSON

`appendJSON` of Model/Node.lean again, with a count of the calls of `appendJSON` and of the passes through its two loops. Appending bytes to the slice is not counted: it
takes time in proportion to the bytes (amortised, in Go's runtime).
-/

namespace Verif.Njson
open Verif

/-- document.go:280-288: the array loop, with the number of passes and of the steps of the calls in it. -/
def elemsSteps (rec : Bytes → Nat → Option (Bytes × Bool × Nat)) : List V → Bool → Bytes → Nat → Option (Bytes × Bool × Nat)
  | [], _, dst, c => some (dst, false, c)
  | v :: vs, first, dst, c =>
    match rec (if first then dst else dst ++ [44]) v.id with
    | none => none
    | some (dst, true, k) => some (dst, true, c + 1 + k)
    | some (dst, false, k) => elemsSteps rec vs false dst (c + 1 + k)

/-- document.go:264-275: the object loop, in the same way. -/
def membersSteps (rec : Bytes → Nat → Option (Bytes × Bool × Nat)) : List V → Bool → Bytes → Nat → Option (Bytes × Bool × Nat)
  | [], _, dst, c => some (dst, false, c)
  | v :: vs, first, dst, c =>
    match rec ((if first then dst else dst ++ [44]) ++ [34] ++ v.key ++ [34, 58]) v.id with
    | none => none
    | some (dst, true, k) => some (dst, true, c + 1 + k)
    | some (dst, false, k) => membersSteps rec vs false dst (c + 1 + k)

/-- document.go:256-299 `appendJSON`, with one step for the call itself. -/
def appendSteps (get : Nat → Option NodeD) : Nat → Bytes → Nat → Option (Bytes × Bool × Nat)
  | 0, _, _ => none
  | fuel + 1, dst, id =>
    match get id with
    | none => some (dst, true, 1)
    | some n =>
      if n.typ = tObject then
        match membersSteps (appendSteps get fuel) n.values.vis true (dst ++ [123]) 1 with
        | some (dst, false, c) => some (dst ++ [125], false, c)
        | r => r
      else if n.typ = tArray then
        match elemsSteps (appendSteps get fuel) n.values.vis true (dst ++ [91]) 1 with
        | some (dst, false, c) => some (dst ++ [93], false, c)
        | r => r
      else if n.typ = tString then some (dst ++ [34] ++ n.raw ++ [34], false, 1)
      else some (dst ++ n.raw, false, 1)

/-- node.go:62-67 `AppendJSON` -/
def Node.appendSteps (h : Heap) (fuel : Nat) (n : Node) (dst : Bytes) : Option (Bytes × Bool × Nat) :=
  match n.get h with
  | some _ => Njson.appendSteps (getOf h n.doc) fuel dst n.id
  | none => some ([], true, 1)

end Verif.Njson
