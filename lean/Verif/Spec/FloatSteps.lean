import Verif.Spec.NumJson

/-!
# Specification: the sums and products ParseFloat computes

Arithmetic on non-negative `float64` numbers where every operation rounds its exact result to the nearest float
(`Nearest`); `none` stands for NaN. Nothing here computes: `Steps` relates the digits of a numeral to a result.
-/

namespace Verif.Spec
open Verif Verif.Float

/-- `r` is the float zero. -/
def zeroMag : Mag := .fin 0 f64.emin

/-- `r` is the sum of two magnitudes. -/
inductive Plus : Option Mag → Option Mag → Option Mag → Prop
  | fin {m e m' e' r} : Nearest f64 (val m e + val m' e') r → Plus (some (.fin m e)) (some (.fin m' e')) (some r)
  | infL {b} : Plus (some .inf) (some b) (some .inf)
  | infR {a} : Plus (some a) (some .inf) (some .inf)
  | nanL {b} : Plus none b none
  | nanR {a} : Plus a none none

/-- `r` is the product of two magnitudes: zero times infinity is NaN. -/
inductive Times : Option Mag → Mag → Option Mag → Prop
  | fin {m e m' e' r} : Nearest f64 (val m e * val m' e') r → Times (some (.fin m e)) (.fin m' e') (some r)
  | zeroInf {e} : Times (some (.fin 0 e)) .inf none
  | finInf {m e} : m ≠ 0 → Times (some (.fin m e)) .inf (some .inf)
  | infZero {e} : Times (some .inf) (.fin 0 e) none
  | infFin {m e} : m ≠ 0 → Times (some .inf) (.fin m e) (some .inf)
  | infInf : Times (some .inf) .inf (some .inf)
  | nan {b} : Times none b none

/-- `r` is `math.Pow10 n`: the product (quotient) of two rounded powers of ten, the first with an exponent that is a
multiple of 32, the second with one below 32; infinity above 308 and zero below -323. -/
inductive PowTen : ℤ → Mag → Prop
  | pos {n : ℕ} {m e m' e' r} : n ≤ 308 → Nearest f64 (10 ^ (32 * (n / 32))) (.fin m e) → Nearest f64 (10 ^ (n % 32)) (.fin m' e') →
      Nearest f64 (val m e * val m' e') r → PowTen n r
  | neg {n : ℕ} {m e m' e' r} : 1 ≤ n → n ≤ 323 → Nearest f64 (1 / 10 ^ (32 * (n / 32))) (.fin m e) →
      Nearest f64 (10 ^ (n % 32)) (.fin m' e') → Nearest f64 (val m e / val m' e') r → PowTen (-n) r
  | large {n : ℤ} : 308 < n → PowTen n .inf
  | small {n : ℤ} : n < -323 → PowTen n zeroMag

/-- The number of digits counted last before the exponent: those of the fraction or, without one, of the integer part. -/
def NumText.lastDigits (x : NumText) : ℕ :=
  match x.fp with
  | none => x.ip.length
  | some f => f.length

/-- The exponent digits as accumulated in a 64-bit `int`. -/
def expInt (ds : Bytes) : ℤ := Int.bmod (natOf ds) (2 ^ 64)

/-- ParseFloat computes the result itself: at most 18 digits in the last group of a number without exponent, an
exponent of at most 300 (as accumulated) otherwise. -/
def NumText.Direct (x : NumText) : Prop :=
  match x.ex with
  | none => x.lastDigits ≤ 18
  | some (_, _, ds) => expInt ds ≤ 300

/-- What is computed from the digits before and after the point. Both are taken modulo `2 ^ 64`. -/
def Steps (x : NumText) (r : Option Mag) : Prop :=
  ∃ a b, Nearest f64 (natOf x.ip % 2 ^ 64 : ℕ) a ∧ Nearest f64 (natOf x.frac % 2 ^ 64 : ℕ) b ∧
    match x.ex with
    | none => ∃ p q, PowTen (-x.lastDigits) p ∧ Times (some b) p q ∧ Plus (some a) q r
    | some (_, sg, ds) =>
      if 45 ∈ sg then
        -- (num + dec * 10^-j) * 10^-exp
        ∃ p q s p', PowTen (-x.lastDigits) p ∧ Times (some b) p q ∧ Plus (some a) q s ∧
          PowTen (Int.bmod (-expInt ds) (2 ^ 64)) p' ∧ Times s p' r
      else
        -- num * 10^exp + dec * 10^(exp-j)
        ∃ p q p' q', PowTen (expInt ds) p ∧ Times (some a) p q ∧
          PowTen (Int.bmod (expInt ds - x.lastDigits) (2 ^ 64)) p' ∧ Times (some b) p' q' ∧ Plus q q' r

/-- A magnitude with a sign, or NaN. -/
def signed (neg : Bool) : Option Mag → Flt
  | some r => .num neg r
  | none => .nan

end Verif.Spec
