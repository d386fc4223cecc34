import Verif.Spec.Json
import Verif.Model.Node

/-!
# Specification: the tree a node stands for

`Reps g t id`: reading the nodes through `g`, node `id` is the root of tree `t`. Everything that the API can
read from a node (type, raw text, children with their keys, in order) is determined by `t`.
-/

namespace Verif.Njson
open Verif Verif.Spec

/-- What can be read from a node. -/
structure Cont where
  typ : Typ
  raw : Bytes
  vals : List V
  deriving DecidableEq

/-- The readable content of node `id` of a document. -/
def Doc.cont (d : Doc) (id : Nat) : Option Cont := (d.get id).map fun n => ⟨n.typ, n.raw, n.values.vis⟩

mutual
def Reps (g : Nat → Option Cont) : JVal → Nat → Prop
  | .null, id => g id = some ⟨tNull, b!"null", []⟩
  | .bool true, id => g id = some ⟨tBoolean, b!"true", []⟩
  | .bool false, id => g id = some ⟨tBoolean, b!"false", []⟩
  | .num raw, id => g id = some ⟨tNumber, raw, []⟩
  | .str raw, id => g id = some ⟨tString, raw, []⟩
  | .arr xs, id => ∃ vs, g id = some ⟨tArray, [], vs⟩ ∧ RepsElems g xs vs
  | .obj ms, id => ∃ vs, g id = some ⟨tObject, [], vs⟩ ∧ RepsMembers g ms vs
/-- The children of an array, in order; their keys are empty. -/
def RepsElems (g : Nat → Option Cont) : List JVal → List V → Prop
  | [], vs => vs = []
  | x :: xs, vs => ∃ id vs', vs = ⟨id, []⟩ :: vs' ∧ Reps g x id ∧ RepsElems g xs vs'
/-- The children of an object, in order, with their keys. -/
def RepsMembers (g : Nat → Option Cont) : List (Bytes × JVal) → List V → Prop
  | [], vs => vs = []
  | (k, x) :: ms, vs => ∃ id vs', vs = ⟨id, k⟩ :: vs' ∧ Reps g x id ∧ RepsMembers g ms vs'
end

/-- `Reach g a b`: node `b` can be reached from `a` through child references (`b = a` included). -/
inductive Reach (g : Nat → Option Cont) : Nat → Nat → Prop
  | refl (a : Nat) : Reach g a a
  | step {a b : Nat} {c : Cont} {v : V} : g a = some c → v ∈ c.vals → Reach g v.id b → Reach g a b

/-- The tree of a `Node`: its document reference must be live (revision check) and its id represent `t`. -/
def Tree (h : Heap) (n : Node) (t : JVal) : Prop := ∃ r, n.document h = some r ∧ Reps (h r).cont t n.id

/-- A node that behaves as empty: nothing can be read through it. -/
def Dead (h : Heap) (n : Node) : Prop := n.get h = none

/-- Node `m` occurs in the tree below `n` (same live document). -/
def Contains (h : Heap) (n m : Node) : Prop :=
  ∃ r, n.document h = some r ∧ m.document h = some r ∧ Reach (h r).cont n.id m.id

/-- Documents are well formed when their length does not exceed the capacity. Every document value in Go is. -/
def Doc.Wf (d : Doc) : Prop := d.len ≤ d.arr.length

def Heap.Wf (h : Heap) : Prop := ∀ r, (h r).Wf

/-- The input ends in a mistyped beginning of a literal of type `typ`: too short to be the literal and not a
prefix of it. -/
def BadEnd (typ : Typ) (s : Bytes) : Prop :=
  ∃ pre c q lit, s = pre ++ c :: q ∧ ((typ = tNull ∧ lit = b!"null") ∨ (typ = tBoolean ∧ (lit = b!"true" ∨ lit = b!"false"))) ∧
    lit.head? = some c ∧ (c :: q).length < lit.length ∧ ¬ (c :: q) <+: lit

end Verif.Njson
