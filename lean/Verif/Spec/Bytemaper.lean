import Verif.Spec.StructTag

/-! # Specification: arguments of bytemaper -/

namespace Verif.Spec
open Verif

/-- The text of a set of characters, with or without quotes, and the bytes it stands for. -/
def SetText (text v : Bytes) : Prop :=
  (∃ q, text = 34 :: (q ++ [34]) ∧ Unq q v) ∨ (2 ≤ text.length ∧ text.head? ≠ some 34 ∧ text.getLast? ≠ some 34 ∧ Unq text v)

/-- The names that stand for tables of their own. -/
def tableNames : List Bytes :=
  [b!"ToJSON", b!"ToISO3166", b!"ToISO639", b!"ToHex", b!"FromHex", b!"IsControl", b!"IsPunct", b!"IsDigit", b!"IsSpace", b!"IsPrint",
    b!"ToLower", b!"ToUpper", b!"ToTitle"]

end Verif.Spec
