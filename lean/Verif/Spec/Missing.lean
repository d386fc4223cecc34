import Verif.Spec.Ops
import Verif.Model.Access
import Verif.Model.NumJson

/-! # Empty nodes, and what a step of a navigation finds -/

namespace Verif.Njson
open Verif

/-- Nothing can be read through the node, and calls through it change nothing. -/
structure EmptyNode (h : Heap) (n : Node) : Prop where
  raw : n.raw h = []
  unescaped : n.unescaped h = []
  data : n.data h = ([], tInvalid)
  typ : n.typ h = tInvalid
  values : n.values h = []
  bool : n.toBool h = (false, false)
  float : (NumJson.toFloat h n).2 = false
  int : NumJson.toInt h n = (0, false)
  uint : NumJson.toUint h n = (0, false)
  iface : ∀ {F : Type} (pf : Bytes → Option F) (fuel : Nat), n.toInterface pf h (fuel + 1) = some none
  append : ∀ (fuel : Nat) (dst : Bytes), n.appendJSON h fuel dst = some ([], true)
  print : ∀ (fuel : Nat), n.printJSON h fuel = some (none, true)
  wrapJSON : ∀ (fuel : Nat), n.wrapUnmarshalJSON h fuel = some (.typeError tInvalid tAnyValue)
  wrapText : n.wrapUnmarshalText h = .typeError tInvalid tString
  edits : ∀ (fuel : Nat) (op : Op), op.mutates n → op.run (fuel + 1) h = some (h, .unit)

/-- a call of `Get`, `Index` or `Lookup` -/
inductive Nav
  | get (key : Bytes)
  | index (i : Int)
  | lookup (path : List Bytes)

/-- the call on a node -/
def Nav.run (h : Heap) (n : Node) : Nav → Node
  | .get k => n.getKey h k
  | .index i => n.index h i
  | .lookup p => n.lookup h p

/-- `Get(key)` of an object: the first child with the key has this id -/
def FindsKey (h : Heap) (n : Node) (key : Bytes) (id : Nat) : Prop :=
  n.typ h = tObject ∧ ∃ i : Nat, (n.values h)[i]? = some ⟨id, key⟩ ∧ ∀ (j : Nat) (v : V), j < i → (n.values h)[j]? = some v → v.key ≠ key

/-- `Index(i)` of an array: child number `i` has this id -/
def FindsIndex (h : Heap) (n : Node) (i : Int) (id : Nat) : Prop :=
  n.typ h = tArray ∧ ∃ (k : Nat) (key : Bytes), i = k ∧ (n.values h)[k]? = some ⟨id, key⟩

end Verif.Njson
