import Verif.Model.Float
import Verif.Model.Node

/-!
# Model of `numjson` (numjson.go, format.go) and of the numeric accessors of `node.go`

Go platform assumptions, all in one place:
* `float64`/`float32` arithmetic is IEEE 754 rounding to nearest even, without fused multiply-add (true on amd64;
  the Go specification lets other platforms fuse `x*y + z`). `uint64` and `int` are 64 bits wide and wrap around.
* `math.Pow10` is the standard library's product (quotient) of two table entries, the tables being the correctly
  rounded powers of ten.
* `strconv.ParseFloat` rounds the number it reads correctly and returns 0 with an error on texts that are no numerals. It stops
  reading an exponent when that has reached 10000 (`expVal`), so that it misreads some numerals of more than 9600 digits. Of its syntax (which also has hexadecimal floats, underscores, `inf`, ...) only what reaches it from ParseFloat is
  modelled: texts of the shape `-?digits[.digits][e[+-]*digits]`.
* `int64(f)` out of range is what amd64 does; no theorem depends on that.
-/

namespace Verif.NumJson
open Verif Verif.Float

/-! ## math.Pow10 -/

/-- math/pow10.go `pow10tab`, `pow10postab32`: `10 ^ k` as a float64 constant. -/
def tab (k : Nat) : Mag := round f64 (10 ^ k) 1
/-- math/pow10.go `pow10negtab32`: `10 ^ (-k)` as a float64 constant. -/
def tabNeg (k : Nat) : Mag := round f64 1 (10 ^ k)

/-- math/pow10.go `Pow10` -/
def pow10 (n : Int) : Mag :=
  if 0 ≤ n ∧ n ≤ 308 then
    match mul f64 (tab (32 * (n.toNat / 32))) (tab (n.toNat % 32)) with
    | some r => r
    | none => .inf -- not reached: the entries are finite
  else if -323 ≤ n ∧ n ≤ 0 then div f64 (tabNeg (32 * ((-n).toNat / 32))) (tab ((-n).toNat % 32))
  else if n > 0 then .inf
  else .fin 0 f64.emin

/-! ## strconv.ParseFloat -/

def isDig (c : UInt8) : Bool := 48 ≤ c && c ≤ 57

/-- The longest prefix of digits. -/
def spanDig : Bytes → Bytes × Bytes
  | [] => ([], [])
  | c :: s => if isDig c then let r := spanDig s; (c :: r.1, r.2) else ([], c :: s)

/-- The number a digit string denotes. -/
def digitsVal (ds : Bytes) : Nat := ds.foldl (fun n c => 10 * n + (c.toNat - 48)) 0

/-- A decimal numeral: sign, digits before and after the point, exponent. -/
structure Numeral where
  neg : Bool
  ip : Bytes
  fp : Bytes
  expNeg : Bool
  expDigits : Bytes

/-- numjson.go:23-26 (and strconv's own sign): a leading minus. -/
def splitSign (s : Bytes) : Bool × Bytes :=
  match s with
  | 45 :: t => (true, t)
  | _ => (false, s)

/-- An optional fraction. -/
def splitFrac (s : Bytes) : Bytes × Bytes :=
  match s with
  | 46 :: t => spanDig t
  | _ => ([], s)

/-- An optional exponent sign. -/
def splitExpSign (s : Bytes) : Bool × Bytes :=
  match s with
  | 45 :: t => (true, t)
  | 43 :: t => (false, t)
  | _ => (false, s)

/-- strconv/atof.go `readFloat`, restricted to decimal numerals with digits on both sides of a point. -/
def readNumeral (s : Bytes) : Option Numeral :=
  let sg := splitSign s
  let i := spanDig sg.2
  let f := splitFrac i.2
  if i.1 = [] then none
  else
    match f.2 with
    | [] => some ⟨sg.1, i.1, f.1, false, []⟩
    | c :: t =>
      if c = 101 ∨ c = 69 then
        let es := splitExpSign t
        let e := spanDig es.2
        if e.1 = [] ∨ e.2 ≠ [] then none else some ⟨sg.1, i.1, f.1, es.1, e.1⟩
      else none

/-- strconv/atof.go `readFloat`: `for ... { if e < 10000 { e = e*10 + int(s[i]) - '0' } }` -/
def expVal (ds : Bytes) : Nat := ds.foldl (fun e c => if e < 10000 then e * 10 + (c.toNat - 48) else e) 0

/-- The number that strconv takes a numeral for, as a fraction, without the sign. -/
def Numeral.frac (x : Numeral) : Nat × Nat :=
  let m := digitsVal (x.ip ++ x.fp)
  let e := expVal x.expDigits
  if x.expNeg then (m, 10 ^ (x.fp.length + e)) else (m * 10 ^ e, 10 ^ x.fp.length)

/-- strconv.ParseFloat(s, 64) without its error. -/
def strconvParseFloat (s : Bytes) : Flt :=
  match readNumeral s with
  | some x => .num x.neg (round f64 x.frac.1 x.frac.2)
  | none => .num false (.fin 0 f64.emin)

/-! ## numjson.ParseFloat -/

/-- numjson.go:33-45 and :59-69: accumulate digits in a `uint64`, count them, stop at the first other byte. -/
def scanDigits : Bytes → UInt64 → Nat → UInt64 × Nat × Bytes
  | [], num, j => (num, j, [])
  | c :: s, num, j =>
    if isDig c then scanDigits s (num * 10 + (c - 48).toUInt64) (j + 1) else (num, j, c :: s)

/-- 64-bit wrap-around of `int` -/
def wrap (x : Int) : Int := Int.bmod x (2 ^ 64)

/-- numjson.go:86-107: the exponent loop: `signed`, `exp`, `jj`; `none` for `return fNaN`. -/
def scanExp : Bytes → Bool → Int → Nat → Option (Bool × Int × Nat)
  | [], signed, exp, jj => some (signed, exp, jj)
  | c :: s, signed, exp, jj =>
    if isDig c then scanExp s signed (wrap (10 * exp + (c - 48).toNat)) (jj + 1)
    else if jj = 0 ∧ c = 45 then scanExp s true exp jj
    else if jj = 0 ∧ c = 43 then scanExp s signed exp jj
    else none

/-- `float64(u)` -/
def flt (u : UInt64) : Mag := ofNat f64 u.toNat

/-- The result: `f` negated if `signed`, or NaN. -/
def result (signed : Bool) : Option Mag → Flt
  | some r => .num signed r
  | none => .nan

/-- numjson.go:72 `float64(num) + float64(dec)*math.Pow10(-j)` -/
def decimalMag (num dec : UInt64) (j : Nat) : Option Mag :=
  match mul f64 (flt dec) (pow10 (wrap (-j))) with
  | some r => some (add f64 (flt num) r)
  | none => none

/-- numjson.go:114-118 -/
def scientificMag (num dec : UInt64) (j : Nat) (expSigned : Bool) (exp : Int) : Option Mag :=
  if expSigned then
    match decimalMag num dec j with
    | some r => mul f64 r (pow10 (wrap (-exp)))
    | none => none
  else
    match mul f64 (flt num) (pow10 exp), mul f64 (flt dec) (pow10 (wrap (exp - j))) with
    | some a, some b => some (add f64 a b)
    | _, _ => none

/-- numjson.go:80-121, from the label `scientific`: `c` is the current byte, `rest` what follows it. -/
def scientific (s : Bytes) (signed : Bool) (num dec : UInt64) (j : Nat) (c : UInt8) (rest : Bytes) : Flt :=
  if c = 101 ∨ c = 69 then
    match scanExp rest false 0 0 with
    | none => .nan
    | some (expSigned, exp, jj) =>
      if jj = 0 then .nan
      else if exp > 300 then strconvParseFloat s
      else result signed (scientificMag num dec j expSigned exp)
  else .nan

/-- numjson.go:57-83, from the label `decimal` -/
def decimal (s : Bytes) (signed : Bool) (num : UInt64) (j : Nat) (c : UInt8) (rest : Bytes) : Flt :=
  if c = 46 then
    match scanDigits rest 0 0 with
    | (dec, j, []) =>
      if 0 < j ∧ j ≤ 18 then result signed (decimalMag num dec j)
      else if j = 0 then .nan
      else strconvParseFloat s
    | (dec, j, c :: rest) => if j > 0 then scientific s signed num dec j c rest else .nan
  else scientific s signed num 0 j c rest

/-- numjson.go:11-130 `ParseFloat` -/
def parseFloat (s : Bytes) : Flt :=
  match s with
  | [c] => if isDig c then .num false (ofNat f64 (c - 48).toNat) else .nan
  | _ =>
    let sg := splitSign s
    match scanDigits sg.2 0 0 with
    | (num, j, []) =>
      if 0 < j ∧ j ≤ 18 then .num sg.1 (flt num)
      else if j = 0 then .nan
      else strconvParseFloat s
    | (num, j, c :: rest) => if j = 0 then .nan else decimal s sg.1 num j c rest

/-! ## Integers -/

/-- Truncation of a finite magnitude. -/
def truncMag (m : Nat) (e : Int) : Nat := let w := pow2 e; m * w.1 / w.2

/-- `math.Trunc(f) == f` -/
def isIntMag (m : Nat) (e : Int) : Bool := let w := pow2 e; m * w.1 % w.2 == 0

/-- The integer part of a float, with sign. -/
def truncFlt (neg : Bool) (m : Nat) (e : Int) : Int := if neg then -(truncMag m e : Int) else truncMag m e

/-- Comparison with an integer bound: `lo <= f && f < hi` (`math.MaxInt64` and `math.MaxUint64` become `2^63` and `2^64`
as float64 constants). The bounds and the floats that pass `isIntMag` are integers; for the others the flag is
false anyway. -/
def intFlag (lo hi : Int) : Flt → Bool
  | .num neg (.fin m e) => isIntMag m e && decide (lo ≤ truncFlt neg m e) && decide (truncFlt neg m e < hi)
  | _ => false

/-- `int64(f)`, `uint64(f)`; the value out of range is that of amd64. -/
def convInt (lo hi bad : Int) : Flt → Int
  | .num neg (.fin m e) => if lo ≤ truncFlt neg m e ∧ truncFlt neg m e < hi then truncFlt neg m e else bad
  | _ => bad

/-- numjson.go:133-136 `ParseInt` -/
def parseInt (s : Bytes) : Int × Bool :=
  let f := parseFloat s
  (convInt (-2 ^ 63) (2 ^ 63) (-2 ^ 63) f, intFlag (-2 ^ 63) (2 ^ 63) f)

/-- numjson.go:139-142 `ParseUint` -/
def parseUint (s : Bytes) : Int × Bool :=
  let f := parseFloat s
  (convInt 0 (2 ^ 64) (2 ^ 63) f, intFlag 0 (2 ^ 64) f)

/-! ## Accessors (node.go:95-119) -/

/-- node.go:95-101 `ToFloat` -/
def toFloat (h : Njson.Heap) (n : Njson.Node) : Flt × Bool :=
  match n.get h with
  | some d => (parseFloat d.raw, decide (parseFloat d.raw ≠ .nan))
  | none => (.num false (.fin 0 f64.emin), false)

/-- node.go:104-110 `ToInt` -/
def toInt (h : Njson.Heap) (n : Njson.Node) : Int × Bool :=
  match n.get h with
  | some d => parseInt d.raw
  | none => (0, false)

/-- node.go:113-119 `ToUint` -/
def toUint (h : Njson.Heap) (n : Njson.Node) : Int × Bool :=
  match n.get h with
  | some d => parseUint d.raw
  | none => (0, false)

/-! ## numjson.AppendFloat -/

/-- format.go:19-27: drop the zero of an exponent `e-0d`. -/
def fixExp (dst : Bytes) : Bytes :=
  let i := (dst.length : Int) - 4
  if 0 ≤ i then
    match dst.drop i.toNat with
    | [101, 45, 48, d] => dst.take i.toNat ++ [101, 45, d]
    | _ => dst
  else dst

/-- `a < b` on finite magnitudes -/
def ltMag : Mag → Mag → Bool
  | .fin m e, .fin m' e' => let w := pow2 e; let w' := pow2 e'; decide (m * w.1 * w'.2 < m' * w'.1 * w.2)
  | .fin _ _, .inf => true
  | .inf, _ => false

/-- `float32(x)` for a magnitude -/
def toF32 : Mag → Mag
  | .fin m e => let w := pow2 e; round f32 (m * w.1) w.2
  | .inf => .inf

def isZeroMag : Mag → Bool
  | .fin m _ => m == 0
  | .inf => false

/-- format.go:10-15: the format byte. NaN compares false with everything, so it is formatted with 'f'. -/
def fmtByte (f : Flt) (bits : Nat) : UInt8 :=
  match f with
  | .nan => 102
  | .num _ x =>
    if !isZeroMag x &&
        ((bits == 32 && (ltMag (toF32 x) (round f32 1 (10 ^ 6)) || !ltMag (toF32 x) (round f32 (10 ^ 21) 1))) ||
         (bits == 64 && (ltMag x (round f64 1 (10 ^ 6)) || !ltMag x (round f64 (10 ^ 21) 1))))
    then 101 else 102

/-- format.go:9-28 `AppendFloat`. `text fmt` is the text strconv.AppendFloat(nil, f, fmt, -1, bits) produces for the
given `f` and `bits`. -/
def appendFloat (dst : Bytes) (f : Flt) (bits : Nat) (text : UInt8 → Bytes) : Bytes :=
  let fmt := fmtByte f bits
  let dst := dst ++ text fmt
  if fmt = 101 then fixExp dst else dst

/-- format.go:31-35 `FormatFloat` -/
def formatFloat (f : Flt) (bits : Nat) (text : UInt8 → Bytes) : Bytes := appendFloat [] f bits text

end Verif.NumJson
