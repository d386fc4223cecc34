import Verif.Spec.Json

/-!
# Specification: a JSON text without the white space between its tokens

Independent of the model and of trees: a scanner that knows only quotes and backslashes, and the deletion of bytes.
-/

namespace Verif.Spec
open Verif

/-- Where the scanner is: outside of strings, in a string, in a string behind a backslash -/
inductive Scan
  | out
  | str
  | esc

/-- Deletes the white space outside of strings -/
def compactFrom : Scan → Bytes → Bytes
  | _, [] => []
  | .out, c :: s =>
    if c = 0x20 ∨ c = 0x09 ∨ c = 0x0A ∨ c = 0x0D then compactFrom .out s
    else c :: compactFrom (if c = 34 then .str else .out) s
  | .str, c :: s => c :: compactFrom (if c = 34 then .out else if c = 92 then .esc else .str) s
  | .esc, c :: s => c :: compactFrom .str s

/-- A JSON text without the white space between its tokens, what `json.Compact` writes -/
def compact (s : Bytes) : Bytes := compactFrom .out s

/-- `s'` is `s` without some of its white space -/
inductive DropsWs : Bytes → Bytes → Prop
  | nil : DropsWs [] []
  | keep (c : UInt8) {s s' : Bytes} : DropsWs s s' → DropsWs (c :: s) (c :: s')
  | drop (c : UInt8) {s s' : Bytes} : c = 0x20 ∨ c = 0x09 ∨ c = 0x0A ∨ c = 0x0D → DropsWs s s' → DropsWs (c :: s) s'

end Verif.Spec
