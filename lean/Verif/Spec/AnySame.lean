import Verif.Model.Access
import Verif.Model.UnRun

/-! # Specification: what `ToInterface` returns as a value of type `interface{}` -/

namespace Verif.Unjson
open Verif Verif.Float Verif.Njson

/-- `numjson.ParseFloat`, which returns NaN for what is no number. -/
def floatOf (raw : Bytes) : Option Flt :=
  match NumJson.parseFloat raw with
  | .nan => none
  | f => some f

mutual
/-- The two ways of writing down a value of type `interface{}`: `GoVal` has maps as functions, `GV` as lists of entries with different keys. -/
inductive AsAny : GoVal Flt → GV → Prop
  | nil : AsAny .nil .nilIface
  | bool {b} : AsAny (.bool b) (.iface .bool (.bool b))
  | float {f} : AsAny (.float f) (.iface (.float .b64) (.float f))
  | str {s} : AsAny (.str s) (.iface .string (.str s))
  | slice {gs xs} : AsAnys gs xs → AsAny (.slice gs) (.iface (.slice .any) (.slice xs xs.length))
  | map {m es} : (es.map Prod.fst).Nodup → (∀ p ∈ es, ∃ k, p.1 = .str k) → (∀ k, m k = none ↔ ∀ x, (.str k, x) ∉ es) →
      (∀ k g x, m k = some g → (.str k, x) ∈ es → AsAny g x) → AsAny (.map m) (.iface (.map .string .any) (.map es))
inductive AsAnys : List (GoVal Flt) → List GV → Prop
  | nil : AsAnys [] []
  | cons {g x gs xs} : AsAny g x → AsAnys gs xs → AsAnys (g :: gs) (x :: xs)
end

end Verif.Unjson
