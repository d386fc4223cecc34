import Verif.Model.Live

/-! # Specification: what a loop over an iterator sees -/

namespace Verif.Njson
open Verif

/-- The entries that `for i.Next() { … i.V … }` sees from here on if nothing else is called, at most `fuel` of them. -/
def Live.visits : Nat → Live → List V
  | 0, _ => []
  | fuel + 1, l =>
    match l.next with
    | (true, l) => l.v :: l.visits fuel
    | (false, _) => []

/-- `for i.Next() { if p(i.Key()) { n.Del(i.Key()) } }`, at most `fuel` rounds; returns the keys seen and the state afterwards -/
def Live.filterLoop (p : Bytes → Bool) : Nat → Live → List Bytes × Live
  | 0, l => ([], l)
  | fuel + 1, l =>
    match l.next with
    | (true, l) =>
      let r := (if p l.v.key then l.del l.v.key else l).filterLoop p fuel
      (l.v.key :: r.1, r.2)
    | (false, l) => ([], l)

/-- How often `Next` was called. -/
def nextsOf (cs : List LiveCall) : Nat := cs.count .next

/-- The calls that add children. -/
def Adds (n : NodeD) : LiveCall → Prop
  | .next => True
  | .push _ _ => True
  | .set key _ _ => key ∉ n.values.vis.map (·.key)
  | _ => False

/-- The calls that add or assign children. -/
def Assigns : LiveCall → Prop
  | .next => True
  | .push _ _ => True
  | .set _ _ _ => True
  | .replace _ _ => True
  | _ => False

end Verif.Njson
