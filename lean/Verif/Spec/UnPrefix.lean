import Verif.Model.UnRun

/-! # What a failing encoder returns -/

namespace Verif.Unjson
open Verif

/-- The slice begins with the one that was given, unless the error is that there is no encoder for a type: then it is nil. -/
def KeepsPrefix (out : Bytes) : Out Bytes → Prop
  | .panic => True
  | .done r (some .invalidType) => r = []
  | .done r _ => ∃ s, r = out ++ s

/-- `AppendJSON` methods of the program return what they were given with something appended to it, also with an error. -/
def Univ.KeepsOut (U : Univ) : Prop := ∀ t v out, ∃ s, (U.appendJSON t v out).1 = out ++ s

end Verif.Unjson
