import Verif.Spec.Unjson

/-! # Specification: what options mean and what encoders and decoders accept -/

namespace Verif.Unjson
open Verif Verif.Spec

/-- The options that are in force when a caller gives `o`: an empty tag key stands for "json", an empty method name for
"Omit", the flags are as given. -/
structure InForce (o o' : Options) : Prop where
  tag_default : o.tag = [] → o'.tag = b!"json"
  tag_given : o.tag ≠ [] → o'.tag = o.tag
  method_default : o.omitMethod = [] → o'.omitMethod = b!"Omit"
  method_given : o.omitMethod ≠ [] → o'.omitMethod = o.omitMethod
  omitEmpty : o'.omitEmpty = o.omitEmpty
  allowNaN : o'.allowNaN = o.allowNaN
  allowInf : o'.allowInf = o.allowInf

/-- What an `Encoder` with options `o` encodes an argument as: a pointer stands for what it points to. -/
def EncodesArg (U : Univ) (o : Options) (t : Ty) (v : GV) (j : JVal) : Prop :=
  ((∀ e, U.base t ≠ .ptr e) ∧ Encodes U o Hint.none t v j) ∨
  ∃ e x, v = .ptr x ∧ U.base t = .ptr e ∧ Encodes U o Hint.none e x j

/-- The options of a `Decoder` that was made with tag key `tag`. -/
structure InForceTag (tag : Bytes) (o' : Options) : Prop where
  tag_default : tag = [] → o'.tag = b!"json"
  tag_given : tag ≠ [] → o'.tag = tag
  rest : o'.omitMethod = [] ∧ o'.omitEmpty = false ∧ o'.allowNaN = false ∧ o'.allowInf = false

/-- The type whose values an `Encoder` made for `t` encodes: `t`, or what `t` points to. -/
def IsEncTarget (U : Univ) (t e : Ty) : Prop := U.base t = .ptr e ∨ ((∀ e, U.base t ≠ .ptr e) ∧ e = t)

end Verif.Unjson
