import Verif.Spec.Tree

/-! # Specification: places in a JSON tree -/

namespace Verif.Spec
open Verif

/-- The subtree at a place: the list of child positions that leads to it from the top. -/
def JVal.at : List Nat → JVal → Option JVal
  | [], t => some t
  | i :: p, .arr xs => xs[i]?.bind (JVal.at p)
  | i :: p, .obj ms => ms[i]?.bind fun m => JVal.at p m.2
  | _ :: _, _ => none

/-- Put `s` in place of the subtree at a place. -/
def JVal.setAt : JVal → List Nat → JVal → JVal
  | _, [], s => s
  | .arr xs, i :: p, s => .arr (xs.modify i fun x => x.setAt p s)
  | .obj ms, i :: p, s => .obj (ms.modify i fun m => (m.1, m.2.setAt p s))
  | t, _ :: _, _ => t

/-- What a tree shows at its top: a scalar as it is, of an array the number of elements, of an object the keys in order. -/
def JVal.top : JVal → JVal
  | .arr xs => .arr (xs.map fun _ => .null)
  | .obj ms => .obj (ms.map fun m => (m.1, .null))
  | t => t

end Verif.Spec

namespace Verif.Njson
open Verif Verif.Spec

/-- Following the child positions `p` from node `a` arrives at node `b`. -/
inductive LeadsTo (g : Nat → Option Cont) : Nat → List Nat → Nat → Prop
  | here (a : Nat) : LeadsTo g a [] a
  | child {a b i : Nat} {p : List Nat} {c : Cont} {v : V} : g a = some c → c.vals[i]? = some v → LeadsTo g v.id p b → LeadsTo g a (i :: p) b

/-- Node `n` is at place `p` of node `m` (same live document): `m.Values()[p₀].Values()[p₁]…` is `n`. -/
def Place (h : Heap) (m : Node) (p : List Nat) (n : Node) : Prop :=
  ∃ r, m.document h = some r ∧ n.document h = some r ∧ LeadsTo (h r).cont m.id p n.id

end Verif.Njson
