import Verif.Spec.Tree

/-! # Trees whose texts can be read in one way -/

namespace Verif.Njson
open Verif Verif.Spec

/-- A backslash protects the next byte in all string values and keys of the tree, and no other quote is in them; numbers are tokens. So are the trees that are built
through the API with escaped keys and legal numbers. -/
def Protected (t : JVal) : Prop := AllRaw EscBody EscBody LenientNum t

/-- The string values are as `Parse` reads them: up to the first quote that no backslash precedes, or, if a backslash precedes the first quote, as above. -/
def AsParsed (t : JVal) : Prop := AllRaw LenientStr EscBody LenientNum t

end Verif.Njson
