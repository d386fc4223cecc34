import Verif.Bytes
import Verif.Spec.NumJson

/-!
# Specification: integers as float64
-/

namespace Verif.Spec
open Verif Verif.Float

/-- `j` is the integer that `i` becomes as a float64, rounded to the nearest one, ties to the even mantissa. -/
def Rounds (i j : ℤ) : Prop := ∃ m e, Nearest f64 (i.natAbs : ℚ) (.fin m e) ∧ val m e = j.natAbs ∧ (j < 0 ↔ i < 0)

/-- What arrives of the decimal integer `i` in a variable of 64 bits with the range from `lo` to `hi - 1`: the rounded integer if it is in the
range, otherwise `i` itself if it is in the range, otherwise nothing. -/
inductive Arrives (lo hi i : ℤ) : Option ℤ → Prop
  | rounded {j} : Rounds i j → lo ≤ j → j < hi → Arrives lo hi i (some j)
  | itself : (∀ j, Rounds i j → ¬ (lo ≤ j ∧ j < hi)) → lo ≤ i → i < hi → Arrives lo hi i (some i)
  | rejected : (∀ j, Rounds i j → ¬ (lo ≤ j ∧ j < hi)) → ¬ (lo ≤ i ∧ i < hi) → Arrives lo hi i none

/-- A float64 that is the integer `j`. -/
def FloatInt (f : Flt) (j : ℤ) : Prop := ∃ neg m e, f = .num neg (.fin m e) ∧ val m e = j.natAbs ∧ (neg = true → j ≤ 0) ∧ (neg = false → 0 ≤ j)

/-- The texts that strconv.ParseInt(s, 10, 64) accepts. -/
def StrconvInt (s : Bytes) (i : ℤ) : Prop :=
  ∃ sign ds, s = sign ++ ds ∧ Digits ds ∧ (sign = [] ∨ sign = b!"+" ∨ sign = b!"-") ∧
    i = (if sign = b!"-" then -(natOf ds : ℤ) else natOf ds) ∧ -2 ^ 63 ≤ i ∧ i < 2 ^ 63

/-- The texts that strconv.ParseUint(s, 10, 64) accepts. -/
def StrconvUint (s : Bytes) (n : ℤ) : Prop := Digits s ∧ n = natOf s ∧ n < 2 ^ 64

/-- What arrives of a number text in a variable of 64 bits: the float that ParseFloat returns, if it is an integer in the range; otherwise
what strconv makes of the text. -/
inductive ArrivesText (lo hi : ℤ) (strconv : Bytes → ℤ → Prop) (f : Flt) (raw : Bytes) : Option ℤ → Prop
  | float {j} : FloatInt f j → lo ≤ j → j < hi → ArrivesText lo hi strconv f raw (some j)
  | strconv {i} : (∀ j, FloatInt f j → ¬ (lo ≤ j ∧ j < hi)) → strconv raw i → ArrivesText lo hi strconv f raw (some i)
  | rejected : (∀ j, FloatInt f j → ¬ (lo ≤ j ∧ j < hi)) → (∀ i, ¬ strconv raw i) → ArrivesText lo hi strconv f raw none

end Verif.Spec
