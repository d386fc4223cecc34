import Verif.Spec.Json
import Verif.Spec.Float

/-!
# Specification: decimal numerals and the numbers they denote

Independent of the model.
-/

namespace Verif.Spec
open Verif

/-- The number a digit string denotes, most significant digit first. -/
def natOf : Bytes → Nat
  | [] => 0
  | c :: s => (c.toNat - 48) * 10 ^ s.length + natOf s

/-- The parts of a numeral `-? digits [. digits] [(e|E) signs digits]`. -/
structure NumText where
  neg : Bool
  ip : Bytes
  fp : Option Bytes
  ex : Option (UInt8 × Bytes × Bytes)

/-- The text of the part after the integer part. -/
def fracText : Option Bytes → Bytes
  | none => []
  | some f => 46 :: f

def expText : Option (UInt8 × Bytes × Bytes) → Bytes
  | none => []
  | some (c, sg, ds) => c :: (sg ++ ds)

/-- The numeral. -/
def NumText.text (x : NumText) : Bytes := (if x.neg then [45] else []) ++ (x.ip ++ (fracText x.fp ++ expText x.ex))

/-- Well-formedness; any number of exponent signs is allowed. -/
def NumText.Ok (x : NumText) : Prop :=
  Digits x.ip ∧ (∀ f, x.fp = some f → Digits f) ∧
  ∀ c sg ds, x.ex = some (c, sg, ds) → (c = 101 ∨ c = 69) ∧ (∀ b ∈ sg, b = 43 ∨ b = 45) ∧ Digits ds

/-- At most one exponent sign, as in RFC 8259. -/
def NumText.OneSign (x : NumText) : Prop := ∀ c sg ds, x.ex = some (c, sg, ds) → sg = [] ∨ sg = [43] ∨ sg = [45]

/-- The digits of the fraction. -/
def NumText.frac (x : NumText) : Bytes := x.fp.getD []

/-- The absolute value of the exponent. -/
def NumText.expAbs (x : NumText) : Nat :=
  match x.ex with
  | none => 0
  | some (_, _, ds) => natOf ds

/-- Whether the exponent has a minus sign. -/
def NumText.expNeg (x : NumText) : Bool :=
  match x.ex with
  | none => false
  | some (_, sg, _) => decide (45 ∈ sg)

def NumText.exp (x : NumText) : ℤ := if x.expNeg then -(x.expAbs : ℤ) else x.expAbs

/-- The number denoted, without its sign. -/
def NumText.value (x : NumText) : ℚ := ((natOf x.ip : ℚ) + natOf x.frac / 10 ^ x.frac.length) * 10 ^ x.exp

/-- The first five digits of a number (the number itself if it has no more). -/
def fiveDigits (n : Nat) : Nat := if n < 100000 then n else fiveDigits (n / 10)
decreasing_by omega

/-- The number denoted when the exponent is cut after five digits. -/
def NumText.cutValue (x : NumText) : ℚ :=
  ((natOf x.ip : ℚ) + natOf x.frac / 10 ^ x.frac.length) * 10 ^ (if x.expNeg then -(fiveDigits x.expAbs : ℤ) else fiveDigits x.expAbs)

/-- Numerals with an exponent of at most five digits, or at most 9600 digits before and after the point. -/
def NumText.Handy (x : NumText) : Prop := x.expAbs < 100000 ∨ (x.ip.length ≤ 9600 ∧ x.frac.length ≤ 9600)

/-- `s` is the decimal form of the integer `i` (leading zeros allowed). -/
def IsDecimal (i : ℤ) (s : Bytes) : Prop :=
  ∃ ds, Digits ds ∧ natOf ds = i.natAbs ∧ s = (if i < 0 then [45] else []) ++ ds

end Verif.Spec
