import Verif.Model.UnRun

/-!
# Model of the interface values that the constructors of codecs return

`newTypeEncoder` and `newTypeDecoder` (UnCodec.lean) give a codec or an error. Here are the two results of the Go functions: a value of interface type, and an error.
-/

namespace Verif.Unjson
open Verif Verif.Njson

/-- encode.go:19-22: a value of type `Encoder`: the nil interface, or a `*typeEncoder`, which may be a nil pointer. -/
inductive EncIface
  | nil
  | ptr (p : Option TypeEncoder)

/-- decode.go:24-27: a value of type `Decoder`: the nil interface, or a decoder. -/
inductive DecIface
  | nil
  | val (c : TypeDecoder)

/-- encode.go:71-97: the results of `newTypeEncoder`, a pointer and an error; `typ == nil` is `none`. The outer `none`: it does not return. -/
def encoderPtr (U : Univ) (o : Options) (fuel : Nat) : Option Ty → Option (Option TypeEncoder × Option UErr)
  | none => some (none, some .invalidType)
  | some t =>
    match newTypeEncoder U o fuel t with
    | .ok m => some (some m, none)
    | .err e => some (none, some e)
    | .diverge => none

/-- encode.go:66-69: `NewTypeEncoder` returns the pointer as an `Encoder` -/
def newTypeEncoderI (U : Univ) (o : Options) (fuel : Nat) (t : Option Ty) : Option (EncIface × Option UErr) :=
  (encoderPtr U o fuel t).map fun r => (.ptr r.1, r.2)

/-- decode.go:94-124: `NewTypeDecoder`; `typ == nil` is `none` -/
def newTypeDecoderI (U : Univ) (tag : Bytes) (fuel : Nat) : Option Ty → Option (DecIface × Option UErr)
  | none => some (.val .iface, none)
  | some t =>
    match newTypeDecoder U tag fuel t with
    | .ok c => some (.val c, none)
    | .err e => some (.nil, some e)
    | .diverge => none

/-- cache.go:44-66: `Cache.Encoder`; `enc` is what is in the map for the type. One call by itself; calls at the same time are in UnCache.lean. -/
def cacheEncoderI (U : Univ) (o : Options) (fuel : Nat) (enc : EncIface) (t : Option Ty) : Option (EncIface × Option UErr) :=
  match enc with
  | .ptr p => some (.ptr p, none)
  | .nil =>
    match newTypeEncoderI U o fuel t with
    | none => none
    | some (_, some e) => some (.nil, some e)
    | some (enc, none) => some (enc, none)

/-- cache.go:19-41: `Cache.Decoder` -/
def cacheDecoderI (U : Univ) (o : Options) (fuel : Nat) (dec : DecIface) (t : Option Ty) : Option (DecIface × Option UErr) :=
  match dec with
  | .val c => some (.val c, none)
  | .nil =>
    match newTypeDecoderI U o.tag fuel t with
    | none => none
    | some (_, some e) => some (.nil, some e)
    | some (dec, none) => some (dec, none)

/-- encode.go:39-51: a call of `Encode` on an `Encoder`: a nil interface has no method; a nil pointer has, but `m.typ` is behind it. -/
def EncIface.encode (U : Univ) (enc : EncIface) (fuel : Nat) (b : Bytes) (x : Option (Ty × GV)) : Option (Out Bytes) :=
  match enc, x with
  | .nil, _ => some .panic
  | .ptr none, none => some (.done b (some .invalidValueType))
  | .ptr none, some _ => some .panic
  | .ptr (some m), x => m.encodeArg U fuel b x

end Verif.Unjson
