import Verif.Props.Parse

/-! # Specification: values that stand one after another in a text -/

namespace Verif.Spec
open Verif Verif.Njson

/-- `Parse` is called again and again, each time with the tail of the call before: the documents, the ids and trees of the nodes, and what is left of the text. -/
inductive ParsesAll : Doc → Bytes → Doc → List (Nat × JVal) → Bytes → Prop
  | nil {d r} : ParsesAll d r d [] r
  | cons {d s d1 id t r d2 l r'} : Props.Parses d s d1 id t r → ParsesAll d1 r d2 l r' → ParsesAll d s d2 ((id, t) :: l) r'

/-- The text is these values, one after another and with white space before them, and a rest. Behind a number there is white space, a comma, a
closing bracket or the end of the text. -/
inductive Stands : Bytes → List JVal → Bytes → Prop
  | nil {r} : Stands r [] r
  | cons {w v s t ts r} : IsWs w → LenientValue v t → NumFollow t s → Stands s ts r → Stands (w ++ v ++ s) (t :: ts) r

end Verif.Spec
