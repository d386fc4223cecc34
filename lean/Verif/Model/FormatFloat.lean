import Verif.Model.NumJson
import Verif.Model.UnTypes

/-!
# Model of `strconv.AppendFloat` with precision -1

Package strconv is not part of the repository. The rest of the model works with any formatting function (`Univ.fmtFloat`, the parameter `text` of
`NumJson.appendFloat`); this file has the one of the Go library, so that nothing need be assumed about it. What `roundShortest` in
strconv/ftoa.go computes digit by digit is written here with exact fractions. A `bits` other than 32 counts as 64 (strconv panics for sizes other
than 32 and 64).
-/

namespace Verif.Strconv
open Verif Verif.Float Verif.Unjson

/-- `10 ^ k` as a pair numerator, denominator. -/
def pow10 (k : Int) : Nat × Nat := if 0 ≤ k then (10 ^ k.toNat, 1) else (1, 10 ^ (-k).toNat)

/-- strconv/ftoa.go `roundShortest`, `lower`: halfway to the next smaller float, in units of `2 ^ (e - 2)` -/
def lower (F : Fmt) (m : Nat) (e : Int) : Nat := if m = 2 ^ (F.p - 1) ∧ e ≠ F.emin then 4 * m - 1 else 4 * m - 2

/-- strconv/ftoa.go `roundShortest`, `upper`: halfway to the next greater float, in units of `2 ^ (e - 2)` -/
def upper (m : Nat) : Nat := 4 * m + 2

/-- strconv/ftoa.go `roundShortest`, `inclusive`: the bounds themselves round to a float with an even mantissa -/
def within (m a b : Nat) : Bool := if m % 2 = 0 then decide (a ≤ b) else decide (a < b)

/-- strconv/ftoa.go `roundShortest`, the body of the loop: round down, up or to nearest (ties to even) to a multiple of `10 ^ k`, whatever stays between
the bounds -/
def pick (F : Fmt) (m : Nat) (e k : Int) : Option Nat :=
  let u := pow2 (e - 2)
  let t := pow10 k
  let q := 4 * m * u.1 * t.2 / (u.2 * t.1)
  let okdown := within m (lower F m e * u.1 * t.2) (q * (u.2 * t.1))
  let okup := within m ((q + 1) * (u.2 * t.1)) (upper m * u.1 * t.2)
  if okdown && okup then some (divRound (4 * m * u.1 * t.2) (u.2 * t.1))
  else if okdown then some q
  else if okup then some (q + 1)
  else none

/-- strconv/ftoa.go `roundShortest`, the loop over the digits. It ends before the fuel does, see `Strconv.search_ends`. -/
def search (F : Fmt) (m : Nat) (e : Int) : Nat → Int → Nat × Int
  | 0, k => (1, k)
  | fuel + 1, k =>
    match pick F m e k with
    | some d => (d, k)
    | none => search F m e fuel (k - 1)

/-- The position of the first digit of `n / d`: the greatest `k` with `10 ^ k ≤ n / d` -/
def log10 (n d : Nat) : Int :=
  if d ≤ n then (formatUint (n / d)).length - 1 else -((formatUint ((d - 1) / n)).length : Int)

/-- Without trailing zeros (strconv/decimal.go `trim`) -/
def trim (ds : Bytes) : Bytes := (ds.reverse.dropWhile fun c => c = 48).reverse

/-- The digits and the position of the decimal point (`decimalSlice` in strconv/ftoa.go). A float64 needs no more than 17 digits. -/
def digits (F : Fmt) (m : Nat) (e : Int) : Bytes × Int :=
  if m = 0 then ([], 0)
  else
    let r := search F m e 17 (log10 (m * (pow2 e).1) (pow2 e).2)
    (trim (formatUint r.1), r.2 + (formatUint r.1).length)

/-- The digits of an exponent: at least two (strconv/ftoa.go `fmtE`) -/
def expDigits (n : Nat) : Bytes := if n < 10 then 48 :: formatUint n else formatUint n

/-- strconv/ftoa.go `fmtE` with `prec = nd - 1` -/
def fmtE (d : Bytes × Int) : Bytes :=
  let exp : Int := if d.1 = [] then 0 else d.2 - 1
  (match d.1 with
    | [] => [48]
    | [c] => [c]
    | c :: cs => c :: 46 :: cs) ++ 101 :: (if exp < 0 then 45 else 43) :: expDigits exp.natAbs

/-- strconv/ftoa.go `fmtF` with `prec = max(nd - dp, 0)` -/
def fmtF (d : Bytes × Int) : Bytes :=
  (if 0 < d.2 then d.1.take d.2.toNat ++ List.replicate (d.2.toNat - d.1.length) 48 else [48]) ++
    if d.2 < d.1.length then 46 :: (if 0 < d.2 then d.1.drop d.2.toNat else List.replicate (-d.2).toNat 48 ++ d.1) else []

/-- strconv/ftoa.go `FormatFloat(f, c, -1, bits)` for `c` = 'e' and 'f' -/
def formatFloat (f : Flt) (bits : Nat) (c : UInt8) : Bytes :=
  match f with
  | .nan => b!"NaN"
  | .num neg x =>
    match if bits = 32 then NumJson.toF32 x else x with
    | .inf => if neg then b!"-Inf" else b!"+Inf"
    | .fin m e =>
      let d := digits (if bits = 32 then f32 else f64) m e
      (if neg then [45] else []) ++ if c = 101 then fmtE d else fmtF d

end Verif.Strconv
