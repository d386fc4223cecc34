import Verif.Model.Doc

/-!
# Model of `types.go`

Type masks, their names, and the `info` word of a node (a type mask in the low byte, flags in the high byte).
-/

namespace Verif.Njson
open Verif

/-- `bits.OnesCount` restricted to the eight bits of a `Type`. -/
def onesCount (t : UInt8) : Nat :=
  ((List.range 8).filter fun i => t &&& ((1 : UInt8) <<< UInt8.ofNat i) ≠ 0).length

/-- types.go:31-37: the loop of `Types` from bit `i` on, `k` bits left. -/
def typesLoop (t : UInt8) : Nat → UInt8 → List UInt8 → List UInt8
  | 0, _, types => types
  | k + 1, i, types =>
    let tt : UInt8 := (1 : UInt8) <<< i
    typesLoop t k (i + 1) (if t &&& tt ≠ 0 then types ++ [tt] else types)

/-- types.go:24-39 `Types` -/
def typTypes (t : UInt8) : List UInt8 :=
  if t = 0 then []
  else if onesCount t = 1 then [t]
  else typesLoop t 8 0 []

/-- types.go:122-124 `Type.IsValue` -/
def typIsValue (t : UInt8) : Bool := t &&& tAnyValue ≠ 0

/-- types.go:48-66: the named cases of `String`. -/
def typName (t : UInt8) : Option Bytes :=
  if t = tInvalid then some b!"InvalidToken"
  else if t = tString then some b!"String"
  else if t = tArray then some b!"Array"
  else if t = tObject then some b!"Object"
  else if t = tNumber then some b!"Number"
  else if t = tNull then some b!"Null"
  else if t = tBoolean then some b!"Boolean"
  else if t = tAnyValue then some b!"AnyValue"
  else none

/-- fmt.Sprint of a slice of Stringers: the names in brackets with a space between. -/
def sprint : List Bytes → Bytes
  | [] => b!"[]"
  | x :: xs => [91] ++ x ++ xs.flatMap (fun y => 32 :: y) ++ [93]

/-- types.go:48-72 `String`. The elements printed by the default case are single bits, so the recursion through
`fmt.Sprint` is one level deep: for a single bit without a name `String` is `"InvalidToken"`. -/
def typString (t : UInt8) : Bytes :=
  match typName t with
  | some s => s
  | none =>
    if onesCount t > 1 then sprint ((typTypes t).map fun b => (typName b).getD b!"InvalidToken")
    else b!"InvalidToken"

/-! ## The info word -/

/-- types.go:87-90 `infRoot` is `1 << 9`. -/
def infRoot : UInt16 := 512
/-- types.go:93-95 -/
def infoIsRoot (i : UInt16) : Bool := i &&& infRoot = infRoot
/-- types.go:97-99 -/
def infoFlags (i : UInt16) : UInt16 := i &&& 0xFF00
/-- types.go:102-104: conversion to uint8 keeps the low byte. -/
def infoType (i : UInt16) : UInt8 := i.toUInt8
/-- types.go:129-131 -/
def infoIsValue (i : UInt16) : Bool := i &&& tAnyValue.toUInt16 ≠ 0
/-- document.go:99-164: what a constructor stores, `vX | infRoot`. -/
def infoNew (t : UInt8) : UInt16 := t.toUInt16 ||| infRoot
/-- node.go:386-447: what a setter stores, `vX | n.info.Flags()`. -/
def infoSet (t : UInt8) (old : UInt16) : UInt16 := t.toUInt16 ||| infoFlags old
/-- parser.go:21 `info |= infRoot`: what `Parse` does to the root it returns. -/
def infoMark (i : UInt16) : UInt16 := i ||| infRoot
/-- document.go:350 `n.info &^= infRoot`: what adoption stores. -/
def infoAdopt (i : UInt16) : UInt16 := i &&& ~~~ infRoot

end Verif.Njson
