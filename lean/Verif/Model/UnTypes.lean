import Verif.Model.Access
import Verif.Model.NumJson

/-!
# Model of what `unjson` sees of Go: types, values, `reflect`

unjson works through package reflect. A Go program gives it a universe of types: struct types with their fields,
defined (named) types, which methods a type has and what they do. `Univ` is an arbitrary such universe.

Values are trees. Simplification: pointers, slices and maps are not shared, so two pointers to one variable (or a
cycle through pointers) cannot be expressed. For a fresh destination, and for values without sharing, this is exact.
-/

namespace Verif.Unjson
open Verif Verif.Float Verif.Njson

/-- The kinds `int`, `int8`, ... (and `uint`, `uint8`, ...); `std` is `int` itself, 64 bits wide. -/
inductive IKind
  | std
  | b8
  | b16
  | b32
  | b64
  deriving DecidableEq

def IKind.bits : IKind → Nat
  | .std => 64
  | .b8 => 8
  | .b16 => 16
  | .b32 => 32
  | .b64 => 64

inductive FKind
  | b32
  | b64
  deriving DecidableEq

/-- Types (`reflect.Type`). A struct type is known by a number, its fields are in the universe; so is a defined type
whose underlying type is no struct. Two types are identical iff they are equal here. -/
inductive Ty where
  | bool
  | int (k : IKind)
  | uint (k : IKind)
  | float (k : FKind)
  | string
  | ptr (t : Ty)
  | slice (t : Ty)
  | array (n : Nat) (t : Ty)
  | map (k : Ty) (t : Ty)
  /-- an interface type with `m` methods, distinguished by `i` -/
  | iface (m i : Nat)
  | struct (i : Nat)
  /-- channels, functions, complex numbers, uintptr, unsafe pointers -/
  | other
  | named (i : Nat)
  deriving DecidableEq

/-- `interface{}` -/
abbrev Ty.any : Ty := .iface 0 0

/-- Values. A slice is its backing array up to the capacity and its length; a map is the list of its entries in the
order in which `MapKeys` returns the keys. -/
inductive GV where
  | bool (b : Bool)
  | int (i : Int)
  | uint (n : Nat)
  | float (f : Flt)
  | str (s : Bytes)
  | nilPtr
  | ptr (v : GV)
  | nilSlice
  | slice (arr : List GV) (len : Nat)
  | array (xs : List GV)
  | nilMap
  | map (es : List (GV × GV))
  | nilIface
  | iface (t : Ty) (v : GV)
  | struct (fs : List GV)
  /-- a value of type `other` -/
  | opaque

/-- `reflect.StructField`. The tag is the list of its `key:"value"` pairs. -/
structure Field where
  name : Bytes
  tag : List (Bytes × Bytes)
  anon : Bool
  exported : Bool
  typ : Ty
  deriving DecidableEq

/-- The interfaces unjson looks for. -/
inductive Meth
  | appender
  | jsonMarshaler
  | textMarshaler
  | unmarshaler
  | jsonUnmarshaler
  | textUnmarshaler
  deriving DecidableEq

/-- A universe of types. -/
structure Univ where
  /-- the fields of struct type `i` -/
  fields : Nat → List Field
  /-- the underlying type of defined type `i` -/
  under : Nat → Ty
  /-- the zero value of struct type `i` and of defined type `i` -/
  zeroStruct : Nat → GV
  zeroNamed : Nat → GV
  /-- `reflect.Type.Implements` -/
  impl : Ty → Meth → Bool
  /-- `AppendJSON(out)`: the bytes and whether there was an error -/
  appendJSON : Ty → GV → Bytes → Bytes × Bool
  /-- `MarshalJSON`, `MarshalText`; `none` is an error -/
  marshal : Meth → Ty → GV → Option Bytes
  /-- `UnmarshalNodeJSON`: what the value is afterwards and whether there was an error -/
  unmarshalNode : Ty → GV → Heap → Node → GV × Bool
  /-- `UnmarshalJSON`, `UnmarshalText` -/
  unmarshal : Meth → Ty → GV → Bytes → GV × Bool
  /-- the method of this name with signature `func() bool` -/
  omitMethod : Bytes → Ty → Option (GV → Bool)
  /-- `AppendJSON(out)`, `MarshalJSON()`, `MarshalText()` (here with an empty text), `UnmarshalJSON(data)`, `UnmarshalText(data)` panics -/
  panics : Meth → Ty → GV → Bytes → Bool := fun _ _ _ _ => false
  /-- `UnmarshalNodeJSON` panics -/
  panicsNode : Ty → GV → Heap → Node → Bool := fun _ _ _ _ => false
  /-- the omit method of this name panics -/
  omitPanics : Bytes → Ty → GV → Bool := fun _ _ _ => false
  /-- the text of `strconv.AppendFloat(nil, f, fmt, -1, bits)` -/
  fmtFloat : Flt → Nat → UInt8 → Bytes
  /-- `strconv.ParseFloat(s, 64)`; `none` is an error -/
  atof : Bytes → Option Flt

/-- The underlying type (`Kind` and everything that depends on it). -/
def Univ.base (U : Univ) : Ty → Ty
  | .named i => U.under i
  | t => t

/-- `reflect.Zero` -/
def Univ.zero (U : Univ) : Ty → GV
  | .bool => .bool false
  | .int _ => .int 0
  | .uint _ => .uint 0
  | .float _ => .float (.num false (.fin 0 f64.emin))
  | .string => .str []
  | .ptr _ => .nilPtr
  | .slice _ => .nilSlice
  | .array n t => .array (List.replicate n (U.zero t))
  | .map _ _ => .nilMap
  | .iface _ _ => .nilIface
  | .struct i => U.zeroStruct i
  | .other => .opaque
  | .named i => U.zeroNamed i

/-- What the Go specification guarantees about a universe: an underlying type is not a defined type, zero values are
made of zero values. -/
structure Univ.Ok (U : Univ) : Prop where
  under_base : ∀ i j, U.under i ≠ .named j
  under_struct : ∀ i j, U.under i ≠ .struct j
  zero_struct : ∀ i, U.zeroStruct i = .struct ((U.fields i).map fun f => U.zero f.typ)
  zero_named : ∀ i, U.zeroNamed i = U.zero (U.under i)

/-- `reflect.Value`: a value, its static type, and whether it is addressable. -/
structure RV where
  t : Ty
  v : GV
  addr : Bool

/-- What a call does: it returns (possibly with an error), or it panics. -/
inductive UErr
  | invalidValueType
  | value
  | invalidType
  | typeError (got want : Typ)
  | strconv
  /-- the error of a user-defined method -/
  | hook
  /-- an error of `Node.AppendJSON` -/
  | json
  /-- an error of `Document.Parse` -/
  | parse
  /-- stream.go: `errors.New("Invalid line delimited JSON")`, `io.EOF`, `io.ErrNoProgress`, another error of a reader or
  writer -/
  | line
  | eof
  | noProgress
  | io
  deriving DecidableEq

inductive Out (α : Type) where
  | done (a : α) (err : Option UErr)
  | panic

/-- `int8(x)` and so on: the low bits, as a signed number. -/
def wrapInt (k : IKind) (x : Int) : Int := Int.bmod x (2 ^ k.bits)
/-- `uint8(x)` and so on. -/
def wrapUint (k : IKind) (x : Nat) : Nat := x % 2 ^ k.bits

/-- reflect's `SetFloat`: on a `float32` variable it rounds. -/
def setFloat (k : FKind) (f : Flt) : Flt :=
  match k, f with
  | .b32, .num neg x => .num neg (NumJson.toF32 x)
  | _, f => f

/-! ## strconv -/

/-- strconv.ParseUint(s, 10, 64); `none` is an error. -/
def parseUint64 (s : Bytes) : Option Nat :=
  if s = [] then none
  else if s.all NumJson.isDig then
    (if NumJson.digitsVal s < 2 ^ 64 then some (NumJson.digitsVal s) else none)
  else none

/-- strconv.ParseInt(s, 10, 64); `none` is an error. -/
def parseInt64 (s : Bytes) : Option Int :=
  match s with
  | 45 :: ds => match parseUint64 ds with
    | some n => if n ≤ 2 ^ 63 then some (-(n : Int)) else none
    | none => none
  | 43 :: ds => match parseUint64 ds with
    | some n => if n < 2 ^ 63 then some n else none
    | none => none
  | ds => match parseUint64 ds with
    | some n => if n < 2 ^ 63 then some n else none
    | none => none

/-- The decimal digits of a number, least significant last. -/
def natDigits : Nat → Nat → Bytes → Bytes
  | 0, _, acc => acc
  | fuel + 1, n, acc =>
    let acc := UInt8.ofNat (48 + n % 10) :: acc
    if n / 10 = 0 then acc else natDigits fuel (n / 10) acc

/-- strconv.AppendUint(nil, n, 10) -/
def formatUint (n : Nat) : Bytes := natDigits (n + 1) n []

/-- strconv.AppendInt(nil, i, 10) -/
def formatInt (i : Int) : Bytes := if i < 0 then 45 :: formatUint i.natAbs else formatUint i.natAbs

end Verif.Unjson
