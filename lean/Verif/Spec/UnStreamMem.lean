import Verif.Spec.UnStream

/-! # Specification: the document of a LineDecoder over a sequence of calls -/

namespace Verif.Spec
open Verif Verif.Njson Verif.Unjson Verif.UnStream Verif.Props

/-- `d'` is the decoder `d` after calls of `Decode` with the arguments `xs`. -/
inductive AfterLines (U : Univ) (fuel : Nat) : LineDec → List (Option (Ty × GV)) → LineDec → Prop
  | nil (d) : AfterLines U fuel d [] d
  | call {d x xs r d1 d2} : d.decode U fuel x = some (r, d1) → AfterLines U fuel d1 xs d2 → AfterLines U fuel d (x :: xs) d2

/-- The number of values in the lines, one for each scalar, array and object at any depth. Lines that are no JSON do not count; what follows
the first value of a line does not count either. -/
inductive Values : List Bytes → Nat → Prop
  | nil : Values [] 0
  | value {l ls j n d' id tail} : Parses Doc.empty l d' id j tail → Values ls n → Values (l :: ls) (j.size + n)
  | wrong {l ls n} : (¬ ∃ d' id j tail, Parses Doc.empty l d' id j tail) → Values ls n → Values (l :: ls) n

end Verif.Spec
