import Verif.Model.UnTypes

/-! # Model of `unjson/options.go` -/

namespace Verif.Unjson
open Verif

/-- unjson/codec.go:264-270 `hint`: a set of flags. -/
structure Hint where
  raw : Bool := false
  html : Bool := false
  omitempty : Bool := false
  deriving DecidableEq

/-- The zero hint. -/
def Hint.none : Hint := ⟨false, false, false⟩

/-- unjson/options.go:9-15 `Options` -/
structure Options where
  tag : Bytes := []
  omitEmpty : Bool := false
  omitMethod : Bytes := []
  allowNaN : Bool := false
  allowInf : Bool := false

/-- unjson/options.go:46-49 -/
def defaultTag : Bytes := b!"json"
def defaultOmitMethod : Bytes := b!"Omit"

/-- unjson/options.go:17-22 `tagKey` -/
def Options.tagKey (o : Options) : Bytes := if o.tag ≠ [] then o.tag else defaultTag

/-- unjson/options.go:37-45 `normalize` -/
def Options.normalize (o : Options) : Options :=
  { o with tag := if o.tag = [] then defaultTag else o.tag
           omitMethod := if o.omitMethod = [] then defaultOmitMethod else o.omitMethod }

/-- strings.IndexByte(s, ',') as a split: what is before the first comma, and the rest from the comma on (empty when
there is no comma). -/
def splitComma : Bytes → Bytes × Bytes
  | [] => ([], [])
  | c :: s => if c = 44 then ([], c :: s) else let r := splitComma s; (c :: r.1, r.2)

/-- unjson/options.go:79-86 -/
def Hint.add (h : Hint) (opt : Bytes) : Hint :=
  if opt = b!"omitempty" then { h with omitempty := true }
  else if opt = b!"8bit" then { h with raw := true }
  else if opt = b!"html" then { h with html := true }
  else h

/-- unjson/options.go:67-89 `parseHints`: the loop; each round drops the leading byte and takes what is before the
next comma. The first argument bounds the number of rounds, which is at most the length. -/
def parseHintsLoop : Nat → Bytes → Hint → Hint
  | 0, _, h => h
  | fuel + 1, tag, h =>
    match tag with
    | [] => h
    | _ :: tag =>
      let r := splitComma tag
      parseHintsLoop fuel r.2 (h.add r.1)

def parseHints (tag : Bytes) : Hint := parseHintsLoop tag.length tag Hint.none

/-- reflect.StructTag.Lookup -/
def tagLookup (tag : List (Bytes × Bytes)) (key : Bytes) : Option Bytes := (tag.find? fun p => p.1 = key).map (·.2)

/-- unjson/options.go:91-99 `parseTag`. Its condition `i < len(tag)` compares with the length of the whole tag and
holds for every tag that is valid UTF-8 (unquoting does not make such a text longer). -/
def parseTag (tag : List (Bytes × Bytes)) (key : Bytes) : Bytes × Hint × Bool :=
  match tagLookup tag key with
  | some value =>
    let r := splitComma value
    if r.2 = [] then (value, Hint.none, true) else (r.1, parseHints r.2, true)
  | none => ([], Hint.none, false)

/-- unjson/options.go:24-35 `parseField` -/
def Options.parseField (o : Options) (f : Field) : Bytes × Hint × Bool :=
  let r := parseTag f.tag o.tagKey
  (if r.1 = [] then f.name else r.1, if o.omitEmpty then { r.2.1 with omitempty := true } else r.2.1, r.2.2)

end Verif.Unjson
