import Verif.Spec.NumJson

/-!
# Specification: the shortest decimal texts of a float64

What the documentation of strconv.AppendFloat says about its formats `'f'` and `'e'` with precision -1.
-/

namespace Verif.Spec
open Verif Verif.Float

/-- `text 'f'` and `text 'e'` are the texts of the float with magnitude `m * 2 ^ e`: at most 17 significant digits, rounding to the float. -/
structure ShortestTexts (neg : Bool) (m : Nat) (e : Int) (text : UInt8 → Bytes) : Prop where
  plain : ∃ x : NumText, x.Ok ∧ x.neg = neg ∧ x.ex = none ∧ text 102 = x.text ∧ Nearest f64 x.value (.fin m e) ∧
    (x.fp ≠ none → x.ip.length ≤ 17)
  exp : m ≠ 0 → ∃ (x : NumText) (d sg : UInt8) (ds : Bytes), x.Ok ∧ x.neg = neg ∧ x.ip = [d] ∧ d ≠ 48 ∧ x.frac.length ≤ 16 ∧
    x.ex = some (101, [sg], ds) ∧ 2 ≤ ds.length ∧ ds.length ≤ 3 ∧ text 101 = x.text ∧ Nearest f64 x.value (.fin m e)

end Verif.Spec
