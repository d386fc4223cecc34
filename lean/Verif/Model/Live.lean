import Verif.Model.Access

/-!
# Model of iterations during which the node is edited (node.go)

`Values()` copies the slice header of the node: the iterator and the node share the backing array until the node gets another
one. A `Live` is one node with one iterator over it. Calls that edit other nodes do not appear: each node has its own array.
`append` chooses the capacity of a new array; the choice is a parameter of the calls (`cap` spare elements).
-/

namespace Verif.Njson
open Verif

/-- A node and an iterator over its values. `pre` is the part of the array before the start of the node's slice (Slice moves it).
`old` is the array of the iterator after the node got another one. -/
structure Live where
  node : NodeD
  pre : List V
  old : Option (List V)
  len : Nat
  index : Int
  v : V

/-- node.go:143-148 `Values` -/
def Live.start (n : NodeD) : Live := ⟨n, [], none, n.values.vis.length, 0, V.zero⟩

/-- The array that the iterator reads. -/
def Live.array (l : Live) : List V :=
  match l.old with
  | some a => a
  | none => l.pre ++ l.node.values.arr

/-- node.go:474-484 `Next`; `i.values[i.index]` is read from the array. -/
def Live.next (l : Live) : Bool × Live :=
  if 0 ≤ l.index ∧ l.index < l.len then
    (true, { l with v := l.array.getD l.index.toNat V.zero, index := l.index + 1 })
  else (false, { l with v := { l.v with id := maxUint }, index := -1 })

/-- `append(s, v)`: the array is kept if there is room, otherwise a new one with `cap` spare elements is made. -/
def Slice.appendCap (s : Slice) (v : V) (cap : Nat) : Slice :=
  if s.len < s.arr.length then ⟨s.arr.set s.len v, s.len + 1⟩ else ⟨s.vis ++ [v] ++ List.replicate cap V.zero, s.len + 1⟩

/-- The node's values become `append(values, v)`. -/
def Live.append (l : Live) (v : V) (cap : Nat) : Live :=
  { l with
    node := { l.node with values := l.node.values.appendCap v cap }
    old := if l.node.values.len < l.node.values.arr.length then l.old else some l.array }

/-- The edits of the node that keep the array. -/
def Live.edit (l : Live) (f : NodeD → NodeD) : Live := { l with node := f l.node }

/-- node.go:272-293 `Set` after the value was copied or adopted as node `id` -/
def Live.set (l : Live) (key : Bytes) (id cap : Nat) : Live :=
  if l.node.typ = tObject then
    match l.node.values.vis.findIdx? (fun v => v.key = key) with
    | some i => l.edit fun n => { n with values := { n.values with arr := n.values.arr.modify i fun v => { v with id := id } } }
    | none => l.append ⟨id, key⟩ cap
  else l

/-- node.go:296-311 `Append` of one value that was copied or adopted as node `id` -/
def Live.push (l : Live) (id cap : Nat) : Live := if l.node.typ = tArray then l.append ⟨id, []⟩ cap else l

/-- node.go:323-332 `Replace` by a value that was copied or adopted as node `id` -/
def Live.replace (l : Live) (i : Int) (id : Nat) : Live :=
  if l.node.typ = tArray ∧ 0 ≤ i ∧ i < l.node.values.vis.length then
    l.edit fun n => { n with values := { n.values with arr := n.values.arr.set i.toNat ⟨id, []⟩ } }
  else l

/-- node.go:316-320 `Slice`: the slice starts later in the same array. -/
def Live.slice (l : Live) (i j : Int) : Live :=
  if l.node.typ = tArray ∧ 0 ≤ i ∧ i < j ∧ j < l.node.values.vis.length then
    { l with
      node := { l.node with values := ⟨l.node.values.arr.drop i.toNat, (j - i).toNat⟩ }
      pre := l.pre ++ l.node.values.arr.take i.toNat }
  else l

/-- node.go:335-345 `Remove` -/
def Live.remove (l : Live) (i : Int) : Live :=
  l.edit fun n => if n.typ = tArray ∧ 0 ≤ i ∧ i < n.values.vis.length then { n with values := n.values.remove i.toNat } else n

/-- node.go:371-384 `Del` -/
def Live.del (l : Live) (key : Bytes) : Live :=
  l.edit fun n =>
    if n.typ = tObject then
      match n.values.vis.findIdx? (fun v => v.key = key) with
      | some i => { n with values := n.values.swapRemove i }
      | none => n
    else n

/-- node.go:386-447: `SetInt`, `SetString`, … -/
def Live.setScalar (l : Live) (typ : Typ) (raw : Bytes) : Live := l.edit fun n => n.reset typ n.root raw

/-- The calls on the node and on the iterator. -/
inductive LiveCall
  | next
  | set (key : Bytes) (id cap : Nat)
  | push (id cap : Nat)
  | replace (i : Int) (id : Nat)
  | slice (i j : Int)
  | remove (i : Int)
  | del (key : Bytes)
  | setScalar (typ : Typ) (raw : Bytes)
  deriving DecidableEq

def LiveCall.run (l : Live) : LiveCall → Live
  | .next => l.next.2
  | .set key id cap => l.set key id cap
  | .push id cap => l.push id cap
  | .replace i id => l.replace i id
  | .slice i j => l.slice i j
  | .remove i => l.remove i
  | .del key => l.del key
  | .setScalar typ raw => l.setScalar typ raw

def Live.run (l : Live) (cs : List LiveCall) : Live := cs.foldl LiveCall.run l

end Verif.Njson
