import Verif.Spec.Tree

/-!
# Specification: client programs

A client of the package is a sequence of calls. `Op` has one constructor per kind of exported call (the
document constructors `Null`, `True`, `Text`, … are all `add` with a type and a text, the scalar setters are
all `setScalar`, see Model/Node.lean). `Op.run` executes one call on the heap of documents and returns what the
caller gets back; `none` means that the call does not return.
-/

namespace Verif.Njson
open Verif

inductive Op
  -- Document
  | parse (r : Ref) (s : Bytes)
  | reset (r : Ref)
  | add (r : Ref) (typ : Typ) (raw : Bytes)
  | docJSON (r : Ref) (dst : Bytes)
  -- Node mutations
  | set (n : Node) (key : Bytes) (value : Node)
  | append (n : Node) (values : List Node)
  | replace (n : Node) (i : Int) (value : Node)
  | slice (n : Node) (i j : Int)
  | remove (n : Node) (i : Int)
  | strip (n : Node) (key : Bytes)
  | del (n : Node) (key : Bytes)
  | setScalar (n : Node) (typ : Typ) (raw : Bytes)
  -- Node reads
  | json (n : Node) (dst : Bytes)
  | raw (n : Node)
  | unescaped (n : Node)
  | data (n : Node)
  | toBool (n : Node)
  | typ (n : Node)
  | values (n : Node)
  | lookup (n : Node) (path : List Bytes)
  | get (n : Node) (key : Bytes)
  | index (n : Node) (i : Int)

/-- What a call returns. -/
inductive Res
  | unit
  | node (n : Node)
  | parsed (n : Node) (out : ParseOut)
  | json (r : Bytes × Bool)
  | bytes (b : Bytes)
  | data (d : Bytes × Typ)
  | bool (b : Bool × Bool)
  | typ (t : Typ)
  | values (vs : List V)
  deriving DecidableEq

/-- One call. -/
def Op.run (fuel : Nat) (h : Heap) : Op → Option (Heap × Res)
  | .parse r s => let p := h.parse r s; some (p.1, .parsed p.2.1 p.2.2)
  | .reset r => some (h.set r (h r).reset, .unit)
  | .add r t b => let p := (h r).add t b; some (h.set r p.1, .node ((h.set r p.1).node r p.2))
  | .docJSON r dst => ((h r).appendJSON fuel dst).map fun x => (h, .json x)
  | .set n key value => (n.set h fuel key value).map (·, .unit)
  | .append n vs => (n.append h fuel vs).map (·, .unit)
  | .replace n i value => (n.replace h fuel i value).map (·, .unit)
  | .slice n i j => some (n.slice h i j, .unit)
  | .remove n i => some (n.remove h i, .unit)
  | .strip n key => (n.strip h fuel key).map (·, .unit)
  | .del n key => some (n.del h key, .unit)
  | .setScalar n t b => some (n.setScalar h t b, .unit)
  | .json n dst => (n.appendJSON h fuel dst).map fun x => (h, .json x)
  | .raw n => some (h, .bytes (n.raw h))
  | .unescaped n => some (h, .bytes (n.unescaped h))
  | .data n => some (h, .data (n.data h))
  | .toBool n => some (h, .bool (n.toBool h))
  | .typ n => some (h, .typ (n.typ h))
  | .values n => some (h, .values (n.values h))
  | .lookup n path => some (h, .node (n.lookup h path))
  | .get n key => some (h, .node (n.getKey h key))
  | .index n i => some (h, .node (n.index h i))

/-- A sequence of calls with everything it returned. -/
def runOps (fuel : Nat) : List Op → Heap → Option (Heap × List Res)
  | [], h => some (h, [])
  | op :: ops, h =>
    match op.run fuel h with
    | none => none
    | some (h, res) =>
      match runOps fuel ops h with
      | none => none
      | some (h, rs) => some (h, res :: rs)

/-! ## Renaming revisions

Revisions are only ever compared for equality and incremented, so a client cannot tell a document whose
revision counter started elsewhere. `δ r` is the offset for document `r`. -/

def Node.shift (δ : Ref → UInt64) (n : Node) : Node :=
  match n.doc with
  | some r => { n with rev := n.rev + δ r }
  | none => n

def Op.shift (δ : Ref → UInt64) : Op → Op
  | .set n key value => .set (n.shift δ) key (value.shift δ)
  | .append n vs => .append (n.shift δ) (vs.map (·.shift δ))
  | .replace n i value => .replace (n.shift δ) i (value.shift δ)
  | .slice n i j => .slice (n.shift δ) i j
  | .remove n i => .remove (n.shift δ) i
  | .strip n key => .strip (n.shift δ) key
  | .del n key => .del (n.shift δ) key
  | .setScalar n t b => .setScalar (n.shift δ) t b
  | .json n dst => .json (n.shift δ) dst
  | .raw n => .raw (n.shift δ)
  | .unescaped n => .unescaped (n.shift δ)
  | .data n => .data (n.shift δ)
  | .toBool n => .toBool (n.shift δ)
  | .typ n => .typ (n.shift δ)
  | .values n => .values (n.shift δ)
  | .lookup n path => .lookup (n.shift δ) path
  | .get n key => .get (n.shift δ) key
  | .index n i => .index (n.shift δ) i
  | op => op

def Res.shift (δ : Ref → UInt64) : Res → Res
  | .node n => .node (n.shift δ)
  | .parsed n out => .parsed (n.shift δ) out
  | r => r

/-- The visible part of a node: type, root flag, raw text, children. -/
def NodeD.visible (n : NodeD) : Typ × Bool × Bytes × List V := (n.typ, n.root, n.raw, n.values.vis)

/-- Two documents agree on everything before their length; capacity and its leftovers are arbitrary. -/
def Doc.Same (d d' : Doc) : Prop :=
  d.len = d'.len ∧ ∀ id, (d.get id).map NodeD.visible = (d'.get id).map NodeD.visible

/-- Two heaps agree on everything visible, up to the offset of the revision counters. -/
def Heap.Same (δ : Ref → UInt64) (h h' : Heap) : Prop :=
  ∀ r, (h r).Same (h' r) ∧ (h' r).rev = (h r).rev + δ r

end Verif.Njson

namespace Verif.Njson
open Verif

/-- The document a call may write to: the document of the receiver. -/
def Op.target : Op → Option Ref
  | .parse r _ | .reset r | .add r _ _ => some r
  | .set n _ _ | .append n _ | .replace n _ _ | .slice n _ _ | .remove n _ | .strip n _ | .del n _ | .setScalar n _ _ => n.doc
  | _ => none

/-- How often a call sequence resets document `r`. -/
def resets (r : Ref) : List Op → Nat
  | [] => 0
  | .reset q :: ops => (if q = r then 1 else 0) + resets r ops
  | _ :: ops => resets r ops

/-- The call is a mutation through node `n`. -/
def Op.mutates (n : Node) : Op → Prop
  | .set m _ _ | .append m _ | .replace m _ _ | .slice m _ _ | .remove m _ | .strip m _ | .del m _ | .setScalar m _ _ => m = n
  | _ => False

end Verif.Njson
