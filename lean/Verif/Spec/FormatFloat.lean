import Verif.Spec.NumJson

/-!
# Specification: the shortest decimal of a float

Stated with rational numbers, without reference to how digits are computed.
-/

namespace Verif.Spec
open Verif Verif.Float

/-- `d * 10 ^ k` is the shortest decimal of the float `m * 2 ^ e`: it rounds to the float; no decimal with fewer digits does; among those with as
many digits it is the nearest to the float, and if two are equally near, the one with an even last digit. It has no trailing zeros. -/
structure ShortestDec (F : Fmt) (m : Nat) (e : Int) (d : Nat) (k : Int) : Prop where
  rounds : Nearest F (d * 10 ^ k) (.fin m e)
  short : ∀ d' k' n, Nearest F ((d' : ℕ) * 10 ^ (k' : ℤ)) (.fin m e) → d' < 10 ^ n → d < 10 ^ n
  near : ∀ d' k', Nearest F ((d' : ℕ) * 10 ^ (k' : ℤ)) (.fin m e) → (∀ n, d < 10 ^ n → d' < 10 ^ n) →
    |(d : ℚ) * 10 ^ k - val m e| ≤ |(d' : ℚ) * 10 ^ k' - val m e|
  even : ∀ d', d' ≠ d → Nearest F ((d' : ℕ) * 10 ^ k) (.fin m e) → |(d : ℚ) * 10 ^ k - val m e| = |(d' : ℚ) * 10 ^ k - val m e| → d % 2 = 0
  trimmed : d % 10 ≠ 0

/-- The notation without exponent: no superfluous zeros. -/
structure Plain (x : NumText) : Prop where
  ok : x.Ok
  int : RfcInt x.ip
  frac : ∀ f, x.fp = some f → f.getLast? ≠ some 48
  ex : x.ex = none

/-- The notation with exponent: one digit before the point, no superfluous zeros; the exponent has one sign, and no leading zeros. -/
structure Scientific (x : NumText) : Prop where
  ok : x.Ok
  int : ∃ d, x.ip = [d] ∧ d ≠ 48
  frac : ∀ f, x.fp = some f → f.getLast? ≠ some 48
  ex : ∃ sg ds, x.ex = some (101, [sg], ds) ∧ ds.head? ≠ some 48

end Verif.Spec
