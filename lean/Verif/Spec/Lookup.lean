import Verif.Spec.Edit

/-!
# Specification: paths of keys in a tree

What `Lookup` should find for a path. Independent of the model.
-/

namespace Verif.Spec
open Verif

/-- Decimal value of a byte string of digits. -/
def decVal (s : Bytes) : Nat := s.foldl (fun a c => a * 10 + (c.toNat - 48)) 0

/-- The element that a key selects in an array of the code: the key must consist of digits (the empty key counts as
zero), its value counts modulo 2^64, and from 2^63 on it is negative and selects nothing. -/
def keySelects (k : Bytes) : Option Nat :=
  if k.all (fun b => decide (48 ≤ b.toNat ∧ b.toNat ≤ 57)) ∧ decVal k % 2 ^ 64 < 2 ^ 63 then some (decVal k % 2 ^ 64) else none

/-- The subtree at the end of a path: first member with the key in objects, `keySelects` in arrays. -/
def JVal.find : List Bytes → JVal → Option JVal
  | [], t => some t
  | k :: p, .obj ms => match assocGet ms k with
    | some t => JVal.find p t
    | none => none
  | k :: p, .arr xs => match keySelects k with
    | some i => match xs[i]? with
      | some t => JVal.find p t
      | none => none
    | none => none
  | _ :: _, _ => none

end Verif.Spec
