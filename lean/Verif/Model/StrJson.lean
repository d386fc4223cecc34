import Verif.Model.Tables
import Verif.Model.Utf8

/-!
# Model of package `strjson`

Index for index: `i` and `pos` are the Go variables, `b` is the builder (or the appended part of `dst`).
Every loop takes fuel; the callers pass `len(s)+1`, which the correctness theorems show to be enough for
every input (each iteration advances `i`).
-/

namespace Verif.StrJson
open Verif

/-- Go's `s[i]` (only evaluated where `i < len(s)`). -/
def at' (s : Bytes) (i : Nat) : UInt8 := s.getD i 0

/-- Go's `s[i:j]` -/
def sub (s : Bytes) (i j : Nat) : Bytes := (s.take j).drop i

/-- strjson/bytemaps.go:9-11 -/
def fromHex (c : UInt8) : UInt8 := tableAt bytemapFromHex c
/-- strjson/bytemaps.go:13-15 -/
def toHex (c : UInt8) : UInt8 := tableAt bytemapToHex c
/-- strjson/bytemaps.go:17-19 -/
def toJSON (c : UInt8) : UInt8 := tableAt bytemapToJSON c

/-- Go's `byte(r)` for a rune -/
def runeByte (r : Nat) : UInt8 := UInt8.ofNat r

/-- strjson/escape.go:175-182 `escapeUTF8`, also written out at escape.go:46-51 -/
def escapeUTF8 (dst : Bytes) (r : Nat) : Bytes :=
  dst ++ [92, 117, toHex (runeByte (r >>> 12)), toHex (runeByte (r >>> 8) &&& 0x0F),
    toHex (runeByte r >>> 4), toHex (runeByte r &&& 0x0F)]

/-- strjson/escape.go:171-173 `escapeByte`, also written out at escape.go:74-77 -/
def escapeByte (dst : Bytes) (c : UInt8) : Bytes :=
  dst ++ [92, 117, 48, 48, toHex (c >>> 4), toHex (c &&& 0x0F)]

/-- strjson/escape.go:29-85, the loop of `Escaped`. -/
def escapedLoop (html : Bool) (s : Bytes) : Nat → Nat → Nat → Bytes → Bytes
  | 0, _, _, b => b
  | fuel + 1, i, pos, b =>
    if i < s.length then
      let c := at' s i
      let e := toJSON c
      if e = 0x80 then escapedLoop html s fuel (i + 1) pos b
      else if e = 0xff then
        let (r, size) := decodeRune (s.drop i)
        if r = runeError ∨ r = 0x2028 ∨ r = 0x2029 then
          if size = 0 then escapedLoop html s fuel (i + 1) pos b
          else
            let b := if pos < i then b ++ sub s pos i else b
            escapedLoop html s fuel (i + size) (i + size) (escapeUTF8 b r)
        else escapedLoop html s fuel (i + (size - 1) + 1) pos b
      else if e = 1 ∧ html = false then escapedLoop html s fuel (i + 1) pos b
      else
        let e := if e = 1 then 0 else e
        let b := if pos < i then b ++ sub s pos i else b
        if e = 92 then escapedLoop html s fuel (i + 1) (i + 1) (b ++ [92, c])
        else if e = 0 then escapedLoop html s fuel (i + 1) (i + 1) (escapeByte b c)
        else escapedLoop html s fuel (i + 1) (i + 1) (b ++ [92, e])
    else if pos < s.length then b ++ s.drop pos else b

/-- strjson/escape.go:10-90 `Escaped` -/
def escaped (s : Bytes) (html quoted : Bool) : Bytes :=
  if s.length = 0 then (if quoted then [34, 34] else [])
  else
    let b : Bytes := if quoted then [34] else []
    let b := escapedLoop html s (s.length + 1) 0 0 b
    if quoted then b ++ [34] else b

/-- strjson/escape.go:111-160, the loop of `AppendEscaped` (a second copy of the loop in the source, so a
second copy here). -/
def appendEscapedLoop (html : Bool) (s : Bytes) : Nat → Nat → Nat → Bytes → Bytes
  | 0, _, _, dst => dst
  | fuel + 1, i, pos, dst =>
    if i < s.length then
      let c := at' s i
      let e := toJSON c
      if e = 0x80 then appendEscapedLoop html s fuel (i + 1) pos dst
      else if e = 0xff then
        let (r, size) := decodeRune (s.drop i)
        if r = runeError ∨ r = 0x2028 ∨ r = 0x2029 then
          if size = 0 then appendEscapedLoop html s fuel (i + 1) pos dst
          else
            let dst := if pos < i then dst ++ sub s pos i else dst
            appendEscapedLoop html s fuel (i + size) (i + size) (escapeUTF8 dst r)
        else appendEscapedLoop html s fuel (i + (size - 1) + 1) pos dst
      else if e = 1 ∧ html = false then appendEscapedLoop html s fuel (i + 1) pos dst
      else
        let e := if e = 1 then 0 else e
        let dst := if pos < i then dst ++ sub s pos i else dst
        if e = 92 then appendEscapedLoop html s fuel (i + 1) (i + 1) (dst ++ [92, c])
        else if e = 0 then appendEscapedLoop html s fuel (i + 1) (i + 1) (escapeByte dst c)
        else appendEscapedLoop html s fuel (i + 1) (i + 1) (dst ++ [92, e])
    else if pos < s.length then dst ++ s.drop pos else dst

/-- strjson/escape.go:93-161 `AppendEscaped`. The capacity pre-allocation at :104-109 copies `dst` to a
bigger array and does not change its visible bytes. -/
def appendEscaped (dst s : Bytes) (html : Bool) : Bytes :=
  if s.length = 0 then dst else appendEscapedLoop html s (s.length + 1) 0 0 dst

/-! ## Unescape -/

/-- strjson/unescape.go:69-72: four digits of `ss` from offset `k`, `rune(fromHex(ss[k]))<<12 | ...`. The
table gives digits up to 35 and 0xff, so the `|` is kept as a bitwise or. -/
def hex4 (ss : Bytes) (k : Nat) : Nat :=
  ((fromHex (at' ss k)).toNat <<< 12) ||| ((fromHex (at' ss (k + 1))).toNat <<< 8) |||
    ((fromHex (at' ss (k + 2))).toNat <<< 4) ||| (fromHex (at' ss (k + 3))).toNat

/-- strjson/unescape.go:35-53: the byte a two-character escape stands for (`none`: not one of them). -/
def simpleEscape (c : UInt8) : Option UInt8 :=
  if c = 34 ∨ c = 47 ∨ c = 92 then some c
  else if c = 110 then some 10
  else if c = 114 then some 13
  else if c = 116 then some 9
  else if c = 98 then some 8
  else if c = 102 then some 12
  else none

/-- strjson/unescape.go:78-90 (and :223-235): `i` and the rune after the first four digits `r1 ≥ RuneSelf`;
`i` is the index of the `u`, `ss = s[i:]`. Returns the rune to encode and the new `i`. -/
def unescapeRune (ss : Bytes) (i r1 : Nat) : Nat × Nat :=
  let i := i + 5
  if isSurrogate r1 then
    if ss.length > 10 ∧ at' ss 5 = 92 ∧ at' ss 6 = 117 then
      (utf16DecodeRune r1 (hex4 ss 7), i + 6)
    else (runeError, i)
  else (r1, i)

/-- strjson/unescape.go:171-249, the loop of `Unescaped`. -/
def unescapedLoop (s : Bytes) : Nat → Nat → Nat → Bytes → Bytes
  | 0, _, _, b => b
  | fuel + 1, i, pos, b =>
    if i < s.length then
      if at' s i ≠ 92 then unescapedLoop s fuel (i + 1) pos b
      else
        let b := if pos < i then b ++ sub s pos i else b
        let i := i + 1
        if i < s.length then
          let c := at' s i
          match simpleEscape c with
          | some c => unescapedLoop s fuel (i + 1) (i + 1) (b ++ [c])
          | none =>
            if c = 117 then
              let ss := s.drop i
              if ss.length > 4 then
                let r1 := hex4 ss 1
                if r1 < runeSelf then
                  let i := i + 4
                  unescapedLoop s fuel (i + 1) (i + 1) (b ++ [runeByte r1])
                else
                  let (r1, i) := unescapeRune ss i r1
                  unescapedLoop s fuel i i (b ++ encodeRune r1)
              else unescapedLoop s fuel (i + 1) (i + 1) (b ++ [92] ++ [117])
            else unescapedLoop s fuel (i + 1) (i + 1) (b ++ [92] ++ [c])
        else b ++ [92]
    else if pos < s.length then b ++ s.drop pos else b

/-- `strings.IndexByte` (standard library): the index of the first occurrence, `none` for -1. -/
def indexByte (s : Bytes) (c : UInt8) : Option Nat := s.findIdx? (· == c)

/-- strjson/unescape.go:156-251 `Unescaped` -/
def unescaped (s : Bytes) : Bytes :=
  if s.length = 0 then []
  else match indexByte s 92 with
    | none => s
    | some i => unescapedLoop s (s.length + 1) i 0 []

/-- Overwrite `dst[j:j+len(p)]` with `p` (Go's `copy(dst[j:], p)` where it fits). -/
def overwrite (dst : Bytes) (j : Nat) (p : Bytes) : Bytes :=
  dst.take j ++ p ++ dst.drop (j + p.length)

/-- strjson/unescape.go:118-126 `writeStringAt`: the new buffer and the number of bytes written. -/
def writeStringAt (dst p : Bytes) (pos : Nat) : Bytes × Nat :=
  if pos < dst.length ∧ p.length ≤ dst.length - pos then (overwrite dst pos p, p.length) else (dst, 0)

/-- unescape.go:57-60, :100-103, :105-108: `if 0 <= j && j < len(dst) { dst[j] = c; j++ }`. -/
def writeByteAt (dst : Bytes) (c : UInt8) (j : Nat) : Bytes × Nat :=
  if j < dst.length then (overwrite dst j [c], j + 1) else (dst, j)

/-- unescape.go:91-93: `if 0 <= j && j < len(dst) { j += utf8.EncodeRune(dst[j:], r) }`;
`none` when `EncodeRune` panics because the rune does not fit. -/
def writeRuneAt (dst : Bytes) (r j : Nat) : Option (Bytes × Nat) :=
  if j < dst.length then
    let p := encodeRune r
    if p.length ≤ dst.length - j then some (overwrite dst j p, j + p.length) else none
  else some (dst, j)

/-- strjson/unescape.go:23-111, the loop of `Unescape`: the buffer and `j` at return, `none` for a panic. -/
def unescapeLoop (s : Bytes) : Nat → Nat → Nat → Nat → Bytes → Option (Bytes × Nat)
  | 0, _, _, j, dst => some (dst, j)
  | fuel + 1, i, pos, j, dst =>
    if i < s.length then
      if at' s i ≠ 92 then unescapeLoop s fuel (i + 1) pos j dst
      else
        let (dst, j) :=
          if pos < i then
            let (dst', n) := writeStringAt dst (sub s pos i) j
            (dst', j + n)
          else (dst, j)
        let i := i + 1
        if i < s.length then
          let c := at' s i
          match simpleEscape c with
          | some c =>
            let (dst, j) := writeByteAt dst c j
            unescapeLoop s fuel (i + 1) (i + 1) j dst
          | none =>
            if c = 117 then
              let ss := s.drop i
              if ss.length > 4 then
                let r1 := hex4 ss 1
                if r1 < runeSelf then
                  let i := i + 4
                  let (dst, j) := writeByteAt dst (runeByte r1) j
                  unescapeLoop s fuel (i + 1) (i + 1) j dst
                else
                  let (r1, i) := unescapeRune ss i r1
                  match writeRuneAt dst r1 j with
                  | none => none
                  | some (dst, j) => unescapeLoop s fuel i i j dst
              else
                let (dst, j) := writeByteAt dst 92 j
                let (dst, j) := writeByteAt dst 117 j
                unescapeLoop s fuel (i + 1) (i + 1) j dst
            else
              let (dst, j) := writeByteAt dst 92 j
              let (dst, j) := writeByteAt dst c j
              unescapeLoop s fuel (i + 1) (i + 1) j dst
        else some (writeByteAt dst 92 j)
    else if pos < s.length then
      let (dst', n) := writeStringAt dst (s.drop pos) j
      some (dst', j + n)
    else some (dst, j)

/-- strjson/unescape.go:13-111 `Unescape`: the buffer afterwards and the returned count; `none` for a panic. -/
def unescape (dst s : Bytes) : Option (Bytes × Nat) :=
  if s.length = 0 then some (dst, 0) else unescapeLoop s (s.length + 1) 0 0 0 dst

/-- strjson/unescape.go:130-151 `AppendUnescaped`. `dst` is the visible part, `spare` the bytes between its
length and its capacity. `none` for a panic; the inner `none` of Go's `return nil` cannot be told from an
empty slice and is `[]` here. -/
def appendUnescaped (dst spare s : Bytes) : Option Bytes :=
  if s.length = 0 then some dst
  else
    let offset := dst.length
    let n := offset + s.length
    if dst.length + spare.length < n then
      -- buf = make([]byte, n); copy(buf, dst); dst = buf; Unescape(buf[offset:], s)
      match unescape (List.replicate (n - offset) 0) s with
      | none => none
      | some (buf, k) => if k + offset ≤ n then some ((dst ++ buf).take (k + offset)) else some []
    else
      match unescape spare s with
      | none => none
      | some (buf, k) =>
        if k + offset ≤ dst.length + spare.length then some ((dst ++ buf).take (k + offset)) else some []

end Verif.StrJson
