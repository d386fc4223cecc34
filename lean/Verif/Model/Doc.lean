import Verif.Bytes

/-!
# Model of the data types of package `njson`
-/

namespace Verif.Njson
open Verif

/-! ## Types (types.go:8-21) -/

/-- types.go:9 `type Type uint8` -/
abbrev Typ := UInt8

/-- types.go:13 `TypeInvalid Type = iota` -/
def tInvalid : Typ := 0
/-- types.go:14 `TypeString Type = 1 << iota` (iota = 1) -/
def tString : Typ := (1 : UInt8) <<< 1
/-- types.go:15 (iota = 2) -/
def tObject : Typ := (1 : UInt8) <<< 2
/-- types.go:16 (iota = 3) -/
def tArray : Typ := (1 : UInt8) <<< 3
/-- types.go:17 (iota = 4) -/
def tNumber : Typ := (1 : UInt8) <<< 4
/-- types.go:18 (iota = 5) -/
def tBoolean : Typ := (1 : UInt8) <<< 5
/-- types.go:19 (iota = 6) -/
def tNull : Typ := (1 : UInt8) <<< 6
/-- types.go:20 -/
def tAnyValue : Typ := tString ||| tNumber ||| tBoolean ||| tObject ||| tArray ||| tNull

/-- types.go:42-44 -/
def strFalse : Bytes := b!"false"
/-- types.go:43 -/
def strTrue : Bytes := b!"true"
/-- types.go:44 -/
def strNull : Bytes := b!"null"

/-! ## Nodes (document.go:11-30) -/

/-- document.go:27-30 `V`: a child reference. -/
structure V where
  id : Nat
  key : Bytes
  deriving DecidableEq, Repr, Inhabited

/-- The Go zero value `V{}`. -/
def V.zero : V := ⟨0, []⟩

/-- A `[]V` slice: `arr` is the backing array from the slice's start to its capacity, `len` the visible
length. Each node owns its backing array (no operation of the package shares one between two live nodes),
so a slice is a value here. Offsets into the array before the slice's start are unreachable and dropped. -/
structure Slice where
  arr : List V
  len : Nat
  deriving DecidableEq, Repr, Inhabited

/-- The nil slice. -/
def Slice.nil : Slice := ⟨[], 0⟩

/-- The visible elements. -/
def Slice.vis (s : Slice) : List V := s.arr.take s.len

/-- `for i := range s { s[i] = V{} }` -/
def Slice.zeroVis (s : Slice) : List V := List.replicate (min s.len s.arr.length) V.zero ++ s.arr.drop s.len

/-- document.go:19-23 `node`. The 16-bit `info` (types.go:75-90) is the pair of its type byte and its only
flag, `infRoot` (no code sets another flag bit). -/
structure NodeD where
  typ : Typ
  root : Bool
  raw : Bytes
  values : Slice
  deriving DecidableEq, Repr, Inhabited

/-- The Go zero value `node{}`. -/
def NodeD.zero : NodeD := ⟨0, false, [], Slice.nil⟩

/-- document.go:12-15 `Document`: `arr` is the backing array of `d.nodes` up to its capacity, `len` its
visible length, `rev` the revision (a 64-bit `uint`, wraps). -/
structure Doc where
  arr : List NodeD
  len : Nat
  rev : UInt64
  deriving DecidableEq, Repr, Inhabited

/-- The Go zero value `Document{}`. -/
def Doc.empty : Doc := ⟨[], 0, 0⟩

/-- document.go:42 `const maxUint = ^(uint(0))` -/
def maxUint : Nat := 2 ^ 64 - 1

/-- document.go:174-179 `get` (for a non-nil document). -/
def Doc.get (d : Doc) (id : Nat) : Option NodeD := if id < d.len then d.arr[id]? else none

end Verif.Njson
