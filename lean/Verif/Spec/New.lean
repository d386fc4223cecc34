import Verif.Spec.Tree

/-! # Specification: the values that the constructors of a document make -/

namespace Verif.Njson
open Verif Verif.Spec

/-- The constructors of `Document`. The argument of `number` is the text of `numjson.FormatFloat(f, 64)` (C45). -/
inductive New
  | null
  | false_
  | true_
  | textRaw (s : Bytes)
  | text (s : Bytes)
  | textHTML (s : Bytes)
  | number (raw : Bytes)
  | object
  | array

/-- The call. -/
def New.run (d : Doc) : New → Doc × Nat
  | .null => d.null
  | .false_ => d.false_
  | .true_ => d.true_
  | .textRaw s => d.textRaw s
  | .text s => d.text s
  | .textHTML s => d.textHTML s
  | .number raw => d.number raw
  | .object => d.object
  | .array => d.array

/-- `r.X()`: the heap after the call and the node it returns. -/
def New.call (h : Heap) (r : Ref) (c : New) : Heap × Node :=
  let p := c.run (h r)
  (h.set r p.1, (h.set r p.1).node r p.2)

/-- The value that the constructor names. -/
def New.tree : New → JVal
  | .null => .null
  | .false_ => .bool false
  | .true_ => .bool true
  | .textRaw s => .str s
  | .text s => .str (StrJson.escaped s false false)
  | .textHTML s => .str (StrJson.escaped s true false)
  | .number raw => .num raw
  | .object => .obj []
  | .array => .arr []

end Verif.Njson
