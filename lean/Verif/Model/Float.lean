/-!
# Binary floating point (IEEE 754)

Go's `float64` and `float32` are IEEE 754 binary formats with rounding to nearest, ties to even. This is the part of
the platform that numjson relies on. A magnitude is `m * 2 ^ e` or infinity, a float a signed magnitude or NaN.
The format is a parameter. Only operations on non-negative numbers are needed: ParseFloat computes with magnitudes and
negates at the end. Fused multiply-add (which Go permits on some platforms, not on amd64) is not modelled.
-/

namespace Verif.Float

/-- A binary format: precision, least and greatest exponent of `m * 2 ^ e` with `m < 2 ^ p`. -/
structure Fmt where
  p : Nat
  emin : Int
  emax : Int

def f64 : Fmt := ⟨53, -1074, 971⟩
def f32 : Fmt := ⟨24, -149, 104⟩

/-- Magnitudes. -/
inductive Mag
  | fin (m : Nat) (e : Int)
  | inf
  deriving DecidableEq, Repr

/-- Floats. -/
inductive Flt
  | nan
  | num (neg : Bool) (x : Mag)
  deriving DecidableEq, Repr

/-- `2 ^ e` as a pair numerator, denominator. -/
def pow2 (e : Int) : Nat × Nat := if 0 ≤ e then (2 ^ e.toNat, 1) else (1, 2 ^ (-e).toNat)

/-- The integer nearest to `n / d`, ties to even. -/
def divRound (n d : Nat) : Nat :=
  let q := n / d
  let r := n % d
  if 2 * r > d ∨ (2 * r = d ∧ q % 2 = 1) then q + 1 else q

/-- The exponent at which `n / d` is rounded. -/
def roundExp (F : Fmt) (n d : Nat) : Int :=
  let e := max ((Nat.log2 n : Int) - Nat.log2 d - F.p) F.emin
  let w := pow2 (e + F.p)
  if n * w.2 < d * w.1 then e else e + 1

/-- Round the number `n / d` to the format (`d > 0`). -/
def round (F : Fmt) (n d : Nat) : Mag :=
  if n = 0 then .fin 0 F.emin
  else
    let e := roundExp F n d
    let w := pow2 e
    let m := divRound (n * w.2) (d * w.1)
    if m = 2 ^ F.p then (if e + 1 > F.emax then .inf else .fin (2 ^ (F.p - 1)) (e + 1))
    else (if e > F.emax then .inf else .fin m e)

/-- Conversion from an unsigned integer. -/
def ofNat (F : Fmt) (n : Nat) : Mag := round F n 1

/-- Sum of two magnitudes. -/
def add (F : Fmt) : Mag → Mag → Mag
  | .fin m e, .fin m' e' =>
    let w := pow2 e
    let w' := pow2 e'
    round F (m * w.1 * w'.2 + m' * w'.1 * w.2) (w.2 * w'.2)
  | _, _ => .inf

/-- Product of two magnitudes; `none` is NaN (zero times infinity). -/
def mul (F : Fmt) : Mag → Mag → Option Mag
  | .fin m e, .fin m' e' =>
    let w := pow2 (e + e')
    some (round F (m * m' * w.1) w.2)
  | .fin m _, .inf => if m = 0 then none else some .inf
  | .inf, .fin m _ => if m = 0 then none else some .inf
  | .inf, .inf => some .inf

/-- Quotient of a finite magnitude by a finite non-zero one (the only case that occurs, in math.Pow10). -/
def div (F : Fmt) : Mag → Mag → Mag
  | .fin m e, .fin m' e' =>
    let w := pow2 (e - e')
    round F (m * w.1) (m' * w.2)
  | _, _ => .inf

end Verif.Float
