import Verif.Spec.Missing

/-! # What can be read from a node, and from the nodes that are reached from it -/

namespace Verif.Njson
open Verif

/-- All reading calls return the same for the two nodes. (`ID`, `Document` and the ids of the children are the identity of a node, not its content.) -/
structure ReadsSame (h h' : Heap) (n n' : Node) : Prop where
  raw : n.raw h = n'.raw h'
  unescaped : n.unescaped h = n'.unescaped h'
  data : n.data h = n'.data h'
  typ : n.typ h = n'.typ h'
  keys : (n.values h).map (·.key) = (n'.values h').map (·.key)
  bool : n.toBool h = n'.toBool h'
  float : NumJson.toFloat h n = NumJson.toFloat h' n'
  int : NumJson.toInt h n = NumJson.toInt h' n'
  uint : NumJson.toUint h n = NumJson.toUint h' n'
  iface : ∀ {F : Type} (pf : Bytes → Option F) (fuel : Nat), n.toInterface pf h fuel = n'.toInterface pf h' fuel
  append : ∀ (fuel : Nat) (dst : Bytes), n.appendJSON h fuel dst = n'.appendJSON h' fuel dst
  print : ∀ (fuel : Nat), n.printJSON h fuel = n'.printJSON h' fuel
  wrapJSON : ∀ (fuel : Nat), n.wrapUnmarshalJSON h fuel = n'.wrapUnmarshalJSON h' fuel
  wrapText : n.wrapUnmarshalText h = n'.wrapUnmarshalText h'

/-- a call of `Get`, `Index` or `Lookup`, or child number `i` of an iteration over `Values` -/
inductive Walk
  | nav (s : Nav)
  | child (i : Nat)

/-- the call on a node; past the end of an iteration there is no node -/
def Walk.run (h : Heap) (n : Node) : Walk → Node
  | .nav s => s.run h n
  | .child i => match (n.values h)[i]? with
    | some v => n.with_ v.id
    | none => Node.zero

end Verif.Njson
