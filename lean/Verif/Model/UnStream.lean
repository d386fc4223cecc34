import Verif.Model.UnRun

/-!
# Model of `unjson/stream.go`: line delimited JSON

The `bufio.Reader` of the standard library is modelled after its source (functions `fill`, `readErr`, `ReadSlice` and
`ReadLine` of bufio/bufio.go, Go 1.13), with the unread part of the buffer as a list.
-/

namespace Verif.UnStream
open Verif Verif.Njson Verif.Unjson

/-- What an `io.Reader` is going to return: the results of the calls of `Read` with an unlimited buffer. A call with a
smaller one returns the beginning of the data. After the end it returns `io.EOF`. -/
abbrev Src := List (Bytes × Option UErr)

/-- `Read(p)` with `len(p) = n` -/
def Src.read (n : Nat) : Src → Bytes × Option UErr × Src
  | [] => ([], some .eof, [])
  | (d, e) :: s => if d.length ≤ n then (d, e, s) else (d.take n, none, (d.drop n, e) :: s)

/-- `bufio.Reader`: `size` is `len(b.buf)`, `unread` is `b.buf[b.r:b.w]`. -/
structure BufR where
  size : Nat
  unread : Bytes
  err : Option UErr
  src : Src

/-- bufio `fill`: at most 100 attempts -/
def BufR.fillLoop : Nat → BufR → BufR
  | 0, b => { b with err := some .noProgress }
  | i + 1, b =>
    match b.src.read (b.size - b.unread.length) with
    | (d, some e, s) => { b with unread := b.unread ++ d, src := s, err := some e }
    | (d, none, s) =>
      if d = [] then fillLoop i { b with src := s }
      else { b with unread := b.unread ++ d, src := s }

/-- bufio `fill` -/
def BufR.fill (b : BufR) : BufR := b.fillLoop 100

/-- `bytes.IndexByte(s, '\n')`: the text up to and including the first newline, and the rest -/
def cut : Bytes → Option (Bytes × Bytes)
  | [] => none
  | c :: cs =>
    if c = 10 then some ([c], cs)
    else
      match cut cs with
      | some (l, r) => some (c :: l, r)
      | none => none

/-- How `ReadSlice` ends: at the newline, with a full buffer, with an error. -/
inductive SliceEnd
  | found
  | full
  | err (e : UErr)

/-- bufio `ReadSlice('\n')` -/
def BufR.readSlice : Nat → BufR → Option (Bytes × SliceEnd × BufR)
  | 0, _ => none
  | fuel + 1, b =>
    match cut b.unread with
    | some (l, r) => some (l, .found, { b with unread := r })
    | none =>
      match b.err with
      | some e => some (b.unread, .err e, { b with unread := [], err := none })
      | none => if b.size ≤ b.unread.length then some (b.unread, .full, { b with unread := [] }) else b.fill.readSlice fuel

/-- The end of `ReadLine`: drop "\n" or "\r\n". -/
def dropEol (line : Bytes) : Bytes :=
  if line.getLast? = some 10 then
    if line.dropLast.getLast? = some 13 then line.dropLast.dropLast else line.dropLast
  else line

/-- bufio `ReadLine`: `line, isPrefix` or the error -/
def BufR.readLine (b : BufR) : Option (Except UErr (Bytes × Bool) × BufR) :=
  match b.readSlice (b.size + 2) with
  | none => none -- not reached
  | some (line, .full, b) =>
    -- `b.r--` when "\r\n" may straddle the buffer
    if line.getLast? = some 13 then some (.ok (line.dropLast, true), { b with unread := [13] }) else some (.ok (line, true), b)
  | some (line, .found, b) => some (.ok (dropEol line, false), b)
  | some (line, .err e, b) => if line = [] then some (.error e, b) else some (.ok (dropEol line, false), b)

/-- The number of bytes still to come. -/
def BufR.pending (b : BufR) : Nat := b.unread.length + (b.src.map fun p => p.1.length).sum

/-- stream.go:35-45: the loop of `Decode` up to the call of `Parse`: the pieces of a line are put together. -/
def nextLine : Nat → BufR → Bytes → Option (Except UErr Bytes × BufR)
  | 0, _, _ => none
  | fuel + 1, b, s =>
    match b.readLine with
    | none => none
    | some (.error e, b) => some (.error e, b)
    | some (.ok (line, true), b) => nextLine fuel b (s ++ line)
    | some (.ok (line, false), b) => some (.ok (s ++ line), b)

/-- `strings.TrimSpace(s) == ""`: only white space in the sense of Unicode -/
def isBlank : Bytes → Bool
  | [] => true
  | 0xC2 :: 0x85 :: s => isBlank s
  | 0xC2 :: 0xA0 :: s => isBlank s
  | 0xE1 :: 0x9A :: 0x80 :: s => isBlank s
  | 0xE2 :: 0x80 :: c :: s => ((0x80 ≤ c && c ≤ 0x8A) || c = 0xA8 || c = 0xA9 || c = 0xAF) && isBlank s
  | 0xE2 :: 0x81 :: 0x9F :: s => isBlank s
  | 0xE3 :: 0x80 :: 0x80 :: s => isBlank s
  | c :: s => ((9 ≤ c && c ≤ 13) || c = 32) && isBlank s

/-- stream.go:13-17 `LineDecoder` -/
structure LineDec where
  dec : Option TypeDecoder
  r : BufR
  doc : Doc

/-- stream.go:20-31 `NewLineDecoder` for a `bufio.Reader` with a buffer of the given size; for another reader the size is
4096. `bufio.NewReaderSize` makes it at least 16. -/
def LineDec.new (size : Nat) (src : Src) : LineDec := ⟨none, ⟨size, [], none, src⟩, Doc.empty⟩

/-- `dec.Decode(x, n)` for `x` that may be nil: decode.go:41-43, :67-72, :81-87, :374-382, :486-491 -/
def decodeWith (U : Univ) (c : TypeDecoder) (fuel : Nat) (h : Heap) (n : Node) (x : Option (Ty × GV)) : Option (Out (Option (Ty × GV))) :=
  match x with
  | none =>
    match c with
    | .iface => some (.done none (some (.typeError (n.typ h) tAnyValue)))
    | _ => some (.done none (some .invalidValueType))
  | some (t, v) =>
    match c.decode U fuel h n t v with
    | none => none
    | some .panic => some .panic
    | some (.done v e) => some (.done (some (t, v)) e)

/-- stream.go:34-57 `Decode`. The document is not reset, it keeps the nodes of all lines. -/
def LineDec.decode (U : Univ) (fuel : Nat) (d : LineDec) (x : Option (Ty × GV)) : Option (Out (Option (Ty × GV)) × LineDec) :=
  match nextLine (d.r.pending + 2) d.r [] with
  | none => none -- not reached
  | some (.error e, b) => some (.done x (some e), { d with r := b })
  | some (.ok s, b) =>
    match Heap.parse (fun _ => d.doc) 0 s with
    | (h, n, .ok _ tail) =>
      if isBlank tail then
        let r := match d.dec with
          | none => unmarshalFromNode U fuel h n x
          | some c => decodeWith U c fuel h n x
        match r with
        | none => none
        | some r => some (r, { d with r := b, doc := h 0 })
      else some (.done x (some .line), { d with r := b, doc := h 0 })
    | (_, _, .crash) => some (.panic, { d with r := b }) -- not reached (C16)
    | (h, _, _) => some (.done x (some .parse), { d with r := b, doc := h 0 })

/-- Calls of `Decode` one after the other; the results in order. -/
def LineDec.run (U : Univ) (fuel : Nat) : LineDec → List (Option (Ty × GV)) → Option (List (Out (Option (Ty × GV))))
  | _, [] => some []
  | d, x :: xs =>
    match d.decode U fuel x with
    | none => none
    | some (r, d) =>
      match LineDec.run U fuel d xs with
      | none => none
      | some rs => some (r :: rs)

/-- stream.go:60-64 `LineEncoder`. `out` is what the writer has received; it accepts everything. -/
structure LineEnc where
  enc : Option TypeEncoder
  out : Bytes

/-- stream.go:77-81: the text of a value -/
def LineEnc.text (U : Univ) (fuel : Nat) (enc : Option TypeEncoder) (x : Option (Ty × GV)) : Option (Out Bytes) :=
  match enc, x with
  | none, _ => Unjson.appendJSON U fuel [] x
  | some c, some (t, v) => c.encode U fuel [] t v
  | some _, none => some (.done [] (some .invalidValueType)) -- encode.go:40-42

/-- stream.go:76-88 `Encode`: the error and the encoder afterwards. The content of the buffer does not matter. -/
def LineEnc.encode (U : Univ) (fuel : Nat) (e : LineEnc) (x : Option (Ty × GV)) : Option (Out Unit × LineEnc) :=
  match LineEnc.text U fuel e.enc x with
  | none => none
  | some .panic => some (.panic, e)
  | some (.done _ (some err)) => some (.done () (some err), e)
  | some (.done text none) => some (.done () none, { e with out := e.out ++ text ++ [10] })

/-- Calls of `Encode` one after the other; the results in order and the encoder at the end. -/
def LineEnc.run (U : Univ) (fuel : Nat) : LineEnc → List (Option (Ty × GV)) → Option (List (Out Unit) × LineEnc)
  | e, [] => some ([], e)
  | e, x :: xs =>
    match e.encode U fuel x with
    | none => none
    | some (r, e) =>
      match LineEnc.run U fuel e xs with
      | none => none
      | some (rs, e) => some (r :: rs, e)

end Verif.UnStream
