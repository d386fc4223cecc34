import Verif.Model.StructTag
import Verif.Model.Tables

/-!
# Model of `internal/bytemaper`

The program that prints lookup tables. The functions of package unicode are modelled for the runes below 256, the only ones that occur.
What is printed is the list of names with their tables here; Model/BytemaperFile.lean has the text of the file.
-/

namespace Verif.Bytemaper
open Verif Verif.StructTag

/-- bytemaper.go:21-28 `trIs` -/
def trIs (fn : Nat → Bool) (b : UInt8) : UInt8 := if fn b.toNat then 1 else 0

/-- bytemaper.go:29-37 `trTo`; `utf8.RuneLen(r) == 1` means `r < 0x80` -/
def trTo (fn : Nat → Nat) (b : UInt8) : UInt8 := if fn b.toNat < 0x80 then UInt8.ofNat (fn b.toNat) else 0

/-- unicode.IsControl -/
def isControl (r : Nat) : Bool := r < 0x20 || (0x7F ≤ r && r < 0xA0)
/-- unicode.IsPunct -/
def isPunct (r : Nat) : Bool :=
  [0x21, 0x22, 0x23, 0x25, 0x26, 0x27, 0x28, 0x29, 0x2A, 0x2C, 0x2D, 0x2E, 0x2F, 0x3A, 0x3B, 0x3F, 0x40, 0x5B, 0x5C, 0x5D, 0x5F, 0x7B, 0x7D,
    0xA1, 0xA7, 0xAB, 0xB6, 0xB7, 0xBB, 0xBF].contains r
/-- unicode.IsDigit -/
def isDigit (r : Nat) : Bool := 0x30 ≤ r && r ≤ 0x39
/-- unicode.IsSpace -/
def isSpace (r : Nat) : Bool := [0x09, 0x0A, 0x0B, 0x0C, 0x0D, 0x20, 0x85, 0xA0].contains r
/-- unicode.IsPrint -/
def isPrint (r : Nat) : Bool := (0x20 ≤ r && r < 0x7F) || (0xA1 ≤ r && r ≠ 0xAD)
/-- unicode.ToLower -/
def toLower (r : Nat) : Nat := if 0x41 ≤ r ∧ r ≤ 0x5A then r + 32 else if 0xC0 ≤ r ∧ r ≤ 0xDE ∧ r ≠ 0xD7 then r + 32 else r
/-- unicode.ToUpper, unicode.ToTitle -/
def toUpper (r : Nat) : Nat :=
  if 0x61 ≤ r ∧ r ≤ 0x7A then r - 32
  else if 0xE0 ≤ r ∧ r ≤ 0xFE ∧ r ≠ 0xF7 then r - 32
  else if r = 0xFF then 0x178
  else if r = 0xB5 then 0x39C
  else r

/-- bytemaper.go:46-54 -/
def toISO3166 (c : UInt8) : UInt8 :=
  if 65 ≤ c ∧ c ≤ 90 then c else if 97 ≤ c ∧ c ≤ 122 then UInt8.ofNat (toUpper c.toNat) else 90

/-- bytemaper.go:56-64 -/
def toISO639 (c : UInt8) : UInt8 :=
  if 65 ≤ c ∧ c ≤ 90 then UInt8.ofNat (toLower c.toNat) else if 97 ≤ c ∧ c ≤ 122 then c else 122

/-- bytemaper.go:66-90 `toJSON` -/
def toJSON (c : UInt8) : UInt8 :=
  if c < 0x80 then
    if c = 60 ∨ c = 62 ∨ c = 38 then 1        -- '<', '>', '&'
    else if c = 92 ∨ c = 47 ∨ c = 34 then 92  -- '\\', '/', '"'
    else if c = 13 then 114
    else if c = 10 then 110
    else if c = 9 then 116
    else if c = 12 then 102
    else if c = 8 then 98
    else if isControl c.toNat then 0
    else 0x80
  else 0xff

/-- bytemaper.go:91-100 `toHex` -/
def toHex (c : UInt8) : UInt8 := if c ≤ 9 then c + 48 else if 10 ≤ c ∧ c ≤ 15 then c + 97 - 10 else 0xff

/-- bytemaper.go:102-113 `fromHex` -/
def fromHex (c : UInt8) : UInt8 :=
  if 48 ≤ c ∧ c ≤ 57 then c - 48
  else if 97 ≤ c ∧ c ≤ 122 then 10 + c - 97
  else if 65 ≤ c ∧ c ≤ 90 then 10 + c - 65
  else 0xff

/-- bytemaper.go:138-176: the tables with names of their own -/
def builtin (name : Bytes) : Option (UInt8 → UInt8) :=
  if name = b!"ToJSON" then some toJSON
  else if name = b!"ToISO3166" then some toISO3166
  else if name = b!"ToISO639" then some toISO639
  else if name = b!"ToHex" then some toHex
  else if name = b!"FromHex" then some fromHex
  else if name = b!"IsControl" then some (trIs isControl)
  else if name = b!"IsPunct" then some (trIs isPunct)
  else if name = b!"IsDigit" then some (trIs isDigit)
  else if name = b!"IsSpace" then some (trIs isSpace)
  else if name = b!"IsPrint" then some (trIs isPrint)
  else if name = b!"ToLower" then some (trTo toLower)
  else if name = b!"ToUpper" then some (trTo toUpper)
  else if name = b!"ToTitle" then some (trTo toUpper)
  else none

/-- `strings.IndexByte(arg, ':')` as a split -/
def splitColon : Bytes → Option (Bytes × Bytes)
  | [] => none
  | c :: s =>
    if c = 58 then some ([], s)
    else
      match splitColon s with
      | some (a, b) => some (c :: a, b)
      | none => none

/-- bytemaper.go:130-133: quotes are added when there are none, and taken off by `strconv.Unquote`, whose error is ignored. Since a text
of one byte gets no quotes it is lost. -/
def unquoteArg (arg : Bytes) : Bytes :=
  if 2 ≤ arg.length then
    if arg.head? ≠ some 34 ∧ arg.getLast? ≠ some 34 then (unquote arg).getD []
    else if arg.head? = some 34 ∧ arg.getLast? = some 34 then (unquote (arg.drop 1).dropLast).getD []
    else []
  else []

/-- bytemaper.go:126-192: one argument: the name and the table; none when the program ends with `log.Fatalf` -/
def table (arg : Bytes) : Option (Bytes × (UInt8 → UInt8)) :=
  let (name, arg) := match splitColon arg with
    | some (name, arg) => (name, unquoteArg arg)
    | none => (arg, [])
  match builtin name with
  | some tr => some (if arg = [] then name else arg, tr)
  | none => if name = [] then none else some (name, fun b => if b ∈ arg then 1 else 0)

/-- `make([]byte, 256)`, filled -/
def mask (tr : UInt8 → UInt8) : Bytes := (List.range 256).map fun i => tr (UInt8.ofNat i)

/-- `masks[name] = mask` -/
def put (m : List (Bytes × Bytes)) (name mask : Bytes) : List (Bytes × Bytes) := (m.filter fun p => p.1 ≠ name) ++ [(name, mask)]

/-- bytemaper.go:124-195: all arguments -/
def run : List Bytes → List (Bytes × Bytes) → Option (List (Bytes × Bytes))
  | [], m => some m
  | a :: as, m =>
    match table a with
    | some (name, tr) => run as (put m name (mask tr))
    | none => none

end Verif.Bytemaper
