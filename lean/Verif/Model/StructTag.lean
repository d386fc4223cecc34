import Verif.Model.UnOptions
import Verif.Model.Utf8

/-!
# Model of struct tags as texts

`reflect.StructTag.Lookup` and `strconv.Unquote` (reflect/type.go, strconv/quote.go of Go 1.13, the version in go.mod) are not part of
the repository; they are modelled after their source so that `parseTag` and `ParseFieldTag` are functions of the text of the tag.
-/

namespace Verif.StructTag
open Verif Verif.Unjson

/-- strconv/quote.go `unhex` -/
def unhex (c : UInt8) : Option Nat :=
  if 48 ≤ c ∧ c ≤ 57 then some (c.toNat - 48)
  else if 97 ≤ c ∧ c ≤ 102 then some (c.toNat - 97 + 10)
  else if 65 ≤ c ∧ c ≤ 70 then some (c.toNat - 65 + 10)
  else none

/-- The loop of `UnquoteChar` over `n` hexadecimal digits: the value and the rest. -/
def hexDigits : Nat → Nat → Bytes → Option (Nat × Bytes)
  | 0, v, s => some (v, s)
  | _ + 1, _, [] => none
  | n + 1, v, c :: s =>
    match unhex c with
    | some x => hexDigits n (v * 16 + x) s
    | none => none

/-- strconv `UnquoteChar(s, '"')`, together with what `Unquote` appends to its buffer for the character: these bytes and the rest
of the text. A `\U` escape above 0x7FFFFFFF is a negative rune, which passes the test `v > utf8.MaxRune` and is appended as the byte
`byte(c)`. -/
def unquoteChar : Bytes → Option (Bytes × Bytes)
  | [] => none
  | c :: s =>
    if c = 34 then none
    else if 0x80 ≤ c then
      let r := decodeRune (c :: s)
      some (encodeRune r.1, (c :: s).drop r.2)
    else if c ≠ 92 then some ([c], s)
    else
      match s with
      | [] => none
      | d :: s =>
        if d = 97 then some ([7], s)          -- \a
        else if d = 98 then some ([8], s)     -- \b
        else if d = 102 then some ([12], s)   -- \f
        else if d = 110 then some ([10], s)   -- \n
        else if d = 114 then some ([13], s)   -- \r
        else if d = 116 then some ([9], s)    -- \t
        else if d = 118 then some ([11], s)   -- \v
        else if d = 120 then                  -- \x
          match hexDigits 2 0 s with
          | some (v, s) => some ([UInt8.ofNat v], s)
          | none => none
        else if d = 117 then                  -- \u
          match hexDigits 4 0 s with
          | some (v, s) => some (encodeRune v, s)
          | none => none
        else if d = 85 then                   -- \U
          match hexDigits 8 0 s with
          | some (v, s) =>
            if 0x80000000 ≤ v then some ([UInt8.ofNat v], s)
            else if 0x10FFFF < v then none
            else some (encodeRune v, s)
          | none => none
        else if 48 ≤ d ∧ d ≤ 55 then          -- octal
          match s with
          | e :: f :: s =>
            if 48 ≤ e ∧ e ≤ 55 ∧ 48 ≤ f ∧ f ≤ 55 then
              let v := (d.toNat - 48) * 64 + (e.toNat - 48) * 8 + (f.toNat - 48)
              if 255 < v then none else some ([UInt8.ofNat v], s)
            else none
          | _ => none
        else if d = 92 then some ([92], s)
        else if d = 34 then some ([34], s)
        else none

/-- The loop of strconv `Unquote`; the first argument bounds the number of rounds, which is at most the length. -/
def unquoteLoop : Nat → Bytes → Option Bytes
  | _, [] => some []
  | 0, _ :: _ => none
  | fuel + 1, c :: s =>
    match unquoteChar (c :: s) with
    | none => none
    | some (b, s) =>
      match unquoteLoop fuel s with
      | some t => some (b ++ t)
      | none => none

/-- `utf8.ValidString` -/
def validString : Nat → Bytes → Bool
  | _, [] => true
  | 0, _ :: _ => false
  | fuel + 1, c :: s =>
    if c < 0x80 then validString fuel s
    else
      let r := decodeRune (c :: s)
      if r.2 = 1 then false else validString fuel ((c :: s).drop r.2)

/-- strconv `Unquote` of `q` between double quotes -/
def unquote (q : Bytes) : Option Bytes :=
  if 10 ∈ q then none
  else if 92 ∉ q ∧ 34 ∉ q ∧ validString q.length q = true then some q
  else unquoteLoop q.length q

/-- `Lookup`: skip leading space -/
def skipSpaces : Bytes → Bytes
  | [] => []
  | c :: s => if c = 32 then skipSpaces s else c :: s

/-- `Lookup`: scan to the colon; a space, a quote or a control character ends the name -/
def scanName : Bytes → Bytes × Bytes
  | [] => ([], [])
  | c :: s =>
    if 32 < c ∧ c ≠ 58 ∧ c ≠ 34 ∧ c ≠ 0x7f then
      let r := scanName s
      (c :: r.1, r.2)
    else ([], c :: s)

/-- `Lookup`: scan the quoted string, after its opening quote: what is in the quotes, and what comes after them -/
def scanQuoted : Bytes → Option (Bytes × Bytes)
  | [] => none
  | c :: s =>
    if c = 34 then some ([], s)
    else if c = 92 then
      match s with
      | [] => none
      | d :: s =>
        match scanQuoted s with
        | some (q, r) => some (c :: d :: q, r)
        | none => none
    else
      match scanQuoted s with
      | some (q, r) => some (c :: q, r)
      | none => none

/-- `reflect.StructTag.Lookup`: the loop; the first argument bounds the number of rounds, which is at most the length. -/
def lookupLoop : Nat → Bytes → Bytes → Option Bytes
  | 0, _, _ => none
  | fuel + 1, tag, key =>
    let r := scanName (skipSpaces tag)
    if r.1 = [] then none
    else
      match r.2 with
      | 58 :: 34 :: s =>
        match scanQuoted s with
        | some (q, rest) => if key = r.1 then unquote q else lookupLoop fuel rest key
        | none => none
      | _ => none

/-- `reflect.StructTag.Lookup` -/
def lookup (tag key : Bytes) : Option Bytes := lookupLoop tag.length tag key

/-- unjson/options.go:91-99 `parseTag`, with its condition `i < len(tag)`, `i` being the index of the first comma of the value and
`tag` the text of the whole tag -/
def parseTagText (tag key : Bytes) : Bytes × Hint × Bool :=
  match lookup tag key with
  | some value =>
    let r := splitComma value
    if r.2 ≠ [] ∧ r.1.length < tag.length then (r.1, parseHints r.2, true) else (value, Hint.none, true)
  | none => ([], Hint.none, false)

/-- unjson/options.go:24-35 `parseField` -/
def parseFieldText (o : Options) (name tag : Bytes) : Bytes × Hint × Bool :=
  let r := parseTagText tag o.tagKey
  (if r.1 = [] then name else r.1, if o.omitEmpty then { r.2.1 with omitempty := true } else r.2.1, r.2.2)

/-- `strings.Index(s, sub) > 0`: the text occurs, but not first at the beginning -/
def indexPos (s sub : Bytes) : Bool :=
  match s with
  | [] => false
  | c :: s => !sub.isPrefixOf (c :: s) && go s sub
where
  /-- `strings.Contains` -/
  go : Bytes → Bytes → Bool
    | [], sub => sub.isEmpty
    | c :: s, sub => sub.isPrefixOf (c :: s) || go s sub

/-- internal/generator/options.go:209-227 `ParseFieldTag`: name, omitempty, ok -/
def parseFieldTag (tag key : Bytes) : Bytes × Bool × Bool :=
  match lookup tag (if key = [] then b!"json" else key) with
  | none => ([], false, false)
  | some value =>
    if value = b!"-" then (value, false, false)
    else
      let r := splitComma value
      if r.2 ≠ [] then (r.1, indexPos r.2 b!"omitempty", true) else (value, false, true)

end Verif.StructTag
