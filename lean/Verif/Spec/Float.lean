import Verif.Model.Float
import Mathlib.Data.Rat.Defs
import Mathlib.Algebra.Order.Field.Power
import Mathlib.Data.Rat.Cast.Order
import Mathlib.Algebra.Order.Ring.Rat

/-!
# Specification: rounding to nearest even

Stated with rational numbers and without reference to how rounding is computed.
-/

namespace Verif.Float

/-- The number `m * 2 ^ e`. -/
def val (m : Nat) (e : Int) : ℚ := (m : ℚ) * 2 ^ e

/-- The finite magnitudes of a format. -/
def IsFloat (F : Fmt) (m : Nat) (e : Int) : Prop :=
  m < 2 ^ F.p ∧ F.emin ≤ e ∧ e ≤ F.emax ∧ (2 ^ (F.p - 1) ≤ m ∨ e = F.emin)

/-- Magnitudes of a format. -/
def IsMag (F : Fmt) : Mag → Prop
  | .fin m e => IsFloat F m e
  | .inf => True

/-- The first number that is too large to be rounded to a finite one. -/
def overflow (F : Fmt) : ℚ := (2 ^ F.p - 1 / 2) * 2 ^ F.emax

/-- `r` is the result of rounding `x` to the nearest float, ties to the even mantissa. -/
def Nearest (F : Fmt) (x : ℚ) : Mag → Prop
  | .fin m e => IsFloat F m e ∧ x < overflow F ∧
      ∀ m' e', IsFloat F m' e' →
        |val m e - x| ≤ |val m' e' - x| ∧ (|val m e - x| = |val m' e' - x| → (m, e) ≠ (m', e') → m % 2 = 0)
  | .inf => overflow F ≤ x

/-- Formats with at least two bits of precision and a non-empty exponent range. -/
def Fmt.Ok (F : Fmt) : Prop := 2 ≤ F.p ∧ F.emin < F.emax

end Verif.Float
