import Verif.Spec.JsonString

/-!
# Specification: JSON trees, their compact text, and the grammar (RFC 8259)

Independent of the model. The grammar is parameterised by what counts as a string body, a key body and a
number, so that RFC 8259 and the parser's more liberal language are two instances of the same productions.
-/

namespace Verif.Spec
open Verif

/-- JSON trees. Strings, keys and numbers are kept as the raw text between the delimiters, members in textual
order with duplicates. -/
inductive JVal where
  | null
  | bool (b : Bool)
  | num (raw : Bytes)
  | str (raw : Bytes)
  | arr (xs : List JVal)
  | obj (ms : List (Bytes × JVal))

mutual
/-- Compact JSON text of a tree. -/
def JVal.ser : JVal → Bytes
  | .null => b!"null"
  | .bool true => b!"true"
  | .bool false => b!"false"
  | .num raw => raw
  | .str raw => [34] ++ raw ++ [34]
  | .arr xs => [91] ++ serElems xs ++ [93]
  | .obj ms => [123] ++ serMembers ms ++ [125]
def serElems : List JVal → Bytes
  | [] => []
  | [x] => x.ser
  | x :: xs => x.ser ++ [44] ++ serElems xs
def serMembers : List (Bytes × JVal) → Bytes
  | [] => []
  | [(k, x)] => [34] ++ k ++ [34, 58] ++ x.ser
  | (k, x) :: ms => [34] ++ k ++ [34, 58] ++ x.ser ++ [44] ++ serMembers ms
end

mutual
/-- Number of nodes of a tree. -/
def JVal.size : JVal → Nat
  | .arr xs => 1 + sizeElems xs
  | .obj ms => 1 + sizeMembers ms
  | _ => 1
def sizeElems : List JVal → Nat
  | [] => 0
  | x :: xs => x.size + sizeElems xs
def sizeMembers : List (Bytes × JVal) → Nat
  | [] => 0
  | (_, x) :: ms => x.size + sizeMembers ms
end

/-- White space: space, tab, line feed, carriage return. -/
def IsWs (w : Bytes) : Prop := ∀ b ∈ w, b = 0x20 ∨ b = 0x09 ∨ b = 0x0A ∨ b = 0x0D

section Grammar
-- string body, key body, number
variable (S K N : Bytes → Prop)

mutual
/-- `GVal v t`: the text `v` (without surrounding white space) denotes the tree `t`. -/
inductive GVal : Bytes → JVal → Prop
  | null : GVal b!"null" .null
  | true : GVal b!"true" (.bool true)
  | false : GVal b!"false" (.bool false)
  | num {raw} : N raw → GVal raw (.num raw)
  | str {raw} : S raw → GVal ([34] ++ raw ++ [34]) (.str raw)
  | arr0 {w} : IsWs w → GVal ([91] ++ w ++ [93]) (.arr [])
  | arr {w body xs} : IsWs w → GElems body xs → GVal ([91] ++ w ++ body ++ [93]) (.arr xs)
  | obj0 {w} : IsWs w → GVal ([123] ++ w ++ [125]) (.obj [])
  | obj {w body ms} : IsWs w → GMembers body ms → GVal ([123] ++ w ++ body ++ [125]) (.obj ms)
/-- one or more comma-separated elements, each followed by optional white space -/
inductive GElems : Bytes → List JVal → Prop
  | one {v w x} : GVal v x → IsWs w → GElems (v ++ w) [x]
  | cons {v w w' x body xs} : GVal v x → IsWs w → IsWs w' → GElems body xs →
      GElems (v ++ w ++ [44] ++ w' ++ body) (x :: xs)
/-- one or more comma-separated members, each followed by optional white space -/
inductive GMembers : Bytes → List (Bytes × JVal) → Prop
  | one {k w₁ w₂ v w x} : K k → IsWs w₁ → IsWs w₂ → GVal v x → IsWs w →
      GMembers ([34] ++ k ++ [34] ++ w₁ ++ [58] ++ w₂ ++ v ++ w) [(k, x)]
  | cons {k w₁ w₂ v w w' x body ms} : K k → IsWs w₁ → IsWs w₂ → GVal v x → IsWs w → IsWs w' → GMembers body ms →
      GMembers ([34] ++ k ++ [34] ++ w₁ ++ [58] ++ w₂ ++ v ++ w ++ [44] ++ w' ++ body) ((k, x) :: ms)
end
end Grammar

/-! ## RFC 8259 -/

def IsDigitByte (b : UInt8) : Prop := 48 ≤ b.toNat ∧ b.toNat ≤ 57

/-- `1*DIGIT` -/
def Digits (s : Bytes) : Prop := s ≠ [] ∧ ∀ b ∈ s, IsDigitByte b

/-- `int = zero / ( digit1-9 *DIGIT )` -/
def RfcInt (s : Bytes) : Prop := s = [48] ∨ (Digits s ∧ s.head? ≠ some 48)

/-- `[ frac ]` -/
def RfcFrac (s : Bytes) : Prop := s = [] ∨ ∃ ds, s = 46 :: ds ∧ Digits ds

/-- `[ exp ]`, `exp = e [ minus / plus ] 1*DIGIT` -/
def RfcExp (s : Bytes) : Prop :=
  s = [] ∨ ∃ e sg ds, s = e :: (sg ++ ds) ∧ (e = 101 ∨ e = 69) ∧ (sg = [] ∨ sg = [43] ∨ sg = [45]) ∧ Digits ds

/-- `number = [ minus ] int [ frac ] [ exp ]` -/
def RfcNumber (s : Bytes) : Prop :=
  ∃ m i f e, s = m ++ i ++ f ++ e ∧ (m = [] ∨ m = [45]) ∧ RfcInt i ∧ RfcFrac f ∧ RfcExp e

/-- A value of RFC 8259 with the tree it denotes. -/
def RfcValue : Bytes → JVal → Prop := GVal RfcBody RfcBody RfcNumber

/-- `JSON-text = ws value ws` -/
def RfcText (s : Bytes) (t : JVal) : Prop := ∃ w v w', s = w ++ v ++ w' ∧ IsWs w ∧ RfcValue v t ∧ IsWs w'

/-! ## The parser's language -/

/-- Bytes between quotes where a backslash protects the next byte, whatever it is. -/
inductive EscBody : Bytes → Prop
  | nil : EscBody []
  | plain {c : UInt8} {s : Bytes} : c ≠ 34 → c ≠ 92 → EscBody s → EscBody (c :: s)
  | esc (c : UInt8) {s : Bytes} : EscBody s → EscBody (92 :: c :: s)

/-- String bodies the parser accepts: either no quote inside and no backslash at the end, or a first quote
directly after a backslash and an `EscBody` after it. -/
def LenientStr (raw : Bytes) : Prop :=
  (34 ∉ raw ∧ raw.getLast? ≠ some 92) ∨ ∃ p q, raw = p ++ [92, 34] ++ q ∧ 34 ∉ p ∧ EscBody q

/-- Bytes that end a number token. -/
def NumberEnd (b : UInt8) : Prop := b = 0x20 ∨ b = 0x09 ∨ b = 0x0A ∨ b = 0x0D ∨ b = 44 ∨ b = 93 ∨ b = 125

/-- Number tokens the parser accepts: a digit or minus sign followed by anything up to a delimiter. -/
def LenientNum (raw : Bytes) : Prop :=
  (∃ c r, raw = c :: r ∧ (IsDigitByte c ∨ c = 45)) ∧ ∀ b ∈ raw, ¬ NumberEnd b

/-- The parser's values. -/
def LenientValue : Bytes → JVal → Prop := GVal LenientStr EscBody LenientNum

/-- A number token must be followed by the end of the text or a delimiter. -/
def NumFollow : JVal → Bytes → Prop
  | .num _, r => r = [] ∨ ∃ b r', r = b :: r' ∧ NumberEnd b
  | _, _ => True

mutual
/-- All strings, keys and numbers of a tree satisfy the given predicates. -/
def AllRaw (S K N : Bytes → Prop) : JVal → Prop
  | .num raw => N raw
  | .str raw => S raw
  | .arr xs => AllRawElems S K N xs
  | .obj ms => AllRawMembers S K N ms
  | _ => True
def AllRawElems (S K N : Bytes → Prop) : List JVal → Prop
  | [] => True
  | x :: xs => AllRaw S K N x ∧ AllRawElems S K N xs
def AllRawMembers (S K N : Bytes → Prop) : List (Bytes × JVal) → Prop
  | [] => True
  | (k, x) :: ms => K k ∧ AllRaw S K N x ∧ AllRawMembers S K N ms
end

/-- The string bodies that the parser reads correctly. -/
def GoodEnd (raw : Bytes) : Prop := 34 ∈ raw ∨ raw.getLast? ≠ some 92

end Verif.Spec
