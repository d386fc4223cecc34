import Verif.Model.Tables
import Verif.Model.Doc
import Verif.Model.StrJson

/-!
# Model of `parser.go`

The parser functions take the position `pos` and the remaining input `rest = s[pos:]`. Loops of the form
`for ; pos < len(s); pos++ { c = s[pos]; ... }` that skip white space are `skipSpace` followed by a decision
on the next byte (no delimiter is in the space table, so the order of the tests does not matter).
Recursion takes fuel; `Parse` passes `2*len(s)+2`, proved to be enough for every input. Running out of fuel
and dereferencing a nil node pointer are both the outcome `crash`, which is proved unreachable.
-/

namespace Verif.Njson
open Verif

/-- bytemaps.go:17-19 (`bytemapIsSpace[c] == 0` in the parser) -/
def isSpace (c : UInt8) : Bool := tableAt bytemapIsSpace c ≠ 0
/-- bytemaps.go:9-11 -/
def isDigit (c : UInt8) : Bool := tableAt bytemapIsDigit c = 1
/-- bytemaps.go:13-15 (`bytemapIsNumberEnd[c] == 0` in the parser) -/
def isNumberEnd (c : UInt8) : Bool := tableAt bytemapIsNumberEnd c ≠ 0

/-- What was found at an error position: a byte or a string (parser.go:121, :179, ...). -/
inductive Got
  | byte (c : UInt8)
  | str (s : Bytes)
  deriving DecidableEq, Repr

/-- What was wanted: a string or a set of delimiters (parser.go:121, :271, ...). -/
inductive Want
  | str (s : Bytes)
  | oneOf (cs : Bytes)
  deriving DecidableEq, Repr

/-- error.go:22-28 `ParseError` and error.go:48 `UnexpectedEOF`. -/
inductive PErr
  | eof (typ : Typ)
  | abort (pos : Nat) (typ : Typ) (got : Got) (want : Want)
  deriving DecidableEq, Repr

/-- parser.go:7-11 `parser` (the error is part of the result). `nodes` has full length. -/
structure P where
  nodes : List NodeD
  n : Nat
  deriving DecidableEq, Repr

/-- Outcome of a parser function: the state is kept on error too (the document's spare nodes are written). -/
inductive PRes
  | ok (p : P) (pos : Nat) (rest : Bytes)
  | err (p : P) (e : PErr)
  | crash
  deriving DecidableEq, Repr

/-- Skip white space: the loop headers at parser.go:89-91, :223-225, :249, :291, :333, :359, :364. -/
def skipSpace (pos : Nat) : Bytes → Nat × Bytes
  | [] => (pos, [])
  | c :: r => if isSpace c then skipSpace (pos + 1) r else (pos, c :: r)

/-- parser.go:49-64 `node`: the new state and the index of the node handed out; `none` is the nil pointer. -/
def P.node (p : P) : P × Option Nat :=
  if p.n < p.nodes.length then ({ p with n := p.n + 1 }, some p.n)
  else
    let nodes := p.nodes ++ List.replicate (p.nodes.length + 1) NodeD.zero
    if p.n < nodes.length then ({ nodes := nodes, n := p.n + 1 }, some p.n)
    else ({ nodes := nodes, n := p.n }, none)

/-- Write through a node pointer. -/
def P.setNode (p : P) (i : Nat) (f : NodeD → NodeD) : P :=
  { p with nodes := p.nodes.modify i f }

/-- parser.go:65-76 `appendV`, on the full backing array `values`. -/
def appendV (values : List V) (key : Bytes) (id i : Nat) : List V :=
  if i < values.length then values.set i ⟨id, key⟩
  else (values ++ List.replicate (values.length + 1) V.zero).set i ⟨id, key⟩

/-- parser.go:127-136: length of the number token (up to the first number-end byte or the end of input). -/
def numberLen : Bytes → Nat
  | [] => 0
  | c :: r => if isNumberEnd c then 0 else numberLen r + 1

/-- parser.go:148-159 and :323-347: scan for the closing quote from index `i`, jumping over the byte after a
backslash. -/
def scanQuote : Bytes → Nat → Option Nat
  | [], _ => none
  | c :: r, i =>
    if c = 34 then some i
    else if c = 92 then
      match r with
      | [] => none
      | _ :: r' => scanQuote r' (i + 2)
    else scanQuote r (i + 1)

/-- parser.go:139-170: length of a string value whose opening quote has been consumed; `none` is
UnexpectedEOF. `i = strings.IndexByte(s, '"') - 1`. -/
def scanString (s : Bytes) : Option Nat :=
  match StrJson.indexByte s 34 with
  | none => none                          -- i = -2
  | some 0 => some 0                      -- i = -1
  | some (i + 1) =>
    if StrJson.at' s i = 92 then
      -- Advance past '\' and '"' and scan the remaining string
      scanQuote (s.drop (i + 2)) (i + 2)
    else some (i + 1)

/-- parser.go:202-209 `done:` -/
def P.scalar (p : P) (typ : Typ) (raw : Bytes) (pos : Nat) (rest : Bytes) : PRes :=
  match p.node with
  | (_, none) => .crash
  | (p, some i) =>
    .ok (p.setNode i fun n => { typ := typ, root := false, raw := raw, values := ⟨n.values.zeroVis, 0⟩ }) pos rest

/-- parser.go:172-201: `true`, `false`, `null`. `s = s[pos:]` starts at the literal. -/
def P.literal (p : P) (typ : Typ) (lit : Bytes) (pos : Nat) (s : Bytes) : PRes :=
  if lit.length ≤ s.length then
    if s.take lit.length = lit then p.scalar typ lit (pos + lit.length) (s.drop lit.length)
    else .err p (.abort pos typ (.str (s.take lit.length)) (.str lit))
  else .err p (.eof typ)

/-- parser.go:256-267 and :375-390: the `values` slice stored at the end of a container. `nvals` is the
node's slice as it was when the container was entered (nothing writes that header in between: nested values
only touch later nodes), `values` the backing array being filled. -/
def finishValues (nvals : Slice) (values : List V) (numV : Nat) : Slice :=
  if numV < nvals.len then
    -- values = n.values[:numV]; zero n.values[numV:]
    ⟨values.take numV ++ List.replicate (min nvals.len values.length - numV) V.zero ++ values.drop nvals.len, numV⟩
  else if numV < values.length then ⟨values, numV⟩
  else ⟨values, values.length⟩

/-- parser.go:260-263 etc.: set a node's values by id. -/
def setValues (v : Slice) (n : NodeD) : NodeD := { n with values := v }

/-- `n.set(info, "")` for a container (document.go:44-47, parser.go:221, :289) -/
def setContainer (typ : Typ) (n : NodeD) : NodeD := { n with typ := typ, root := false, raw := [] }

mutual

/-- parser.go:83-210 `parseValue` -/
def parseValue : Nat → P → Nat → Bytes → PRes
  | 0, _, _, _ => .crash
  | fuel + 1, p, pos, rest =>
    match skipSpace pos rest with
    | (_, []) => .err p (.eof tAnyValue)
    | (pos, c :: r) =>
      if c = 34 then
        -- readString
        match r with
        | [] => .err p (.eof tString)
        | _ =>
          match scanString r with
          | none => .err p (.eof tString)
          | some i => p.scalar tString (r.take i) (pos + 1 + 1 + i) (r.drop (i + 1))
      else if c = 123 then
        -- parser.go:279-310 parseObject
        match p.node with
        | (_, none) => .crash
        | (p', some id) =>
          let nvals := (p'.nodes.getD id NodeD.zero).values
          let p := p'.setNode id (setContainer tObject)
          match skipSpace (pos + 1) r with
          | (_, []) => .err p (.eof tObject)
          | (pos, c :: r) =>
            if c = 125 then .ok (p.setNode id (setValues ⟨nvals.zeroVis, 0⟩)) (pos + 1) r
            else if c = 34 then parseMembers fuel p id nvals nvals.arr 0 (pos + 1) r
            else .err p (.abort pos tObject (.byte c) (.oneOf [125, 34]))
      else if c = 91 then
        -- parser.go:212-238 parseArray
        match p.node with
        | (_, none) => .crash
        | (p', some id) =>
          let nvals := (p'.nodes.getD id NodeD.zero).values
          let p := p'.setNode id (setContainer tArray)
          match skipSpace (pos + 1) r with
          | (_, []) => .err p (.eof tArray)
          | (pos, c :: r) =>
            if c = 93 then .ok (p.setNode id (setValues ⟨nvals.zeroVis, 0⟩)) (pos + 1) r
            else parseElems fuel p id nvals nvals.arr 0 pos (c :: r)
      else if isDigit c then
        let i := numberLen (c :: r)
        p.scalar tNumber ((c :: r).take i) (pos + i) ((c :: r).drop i)
      else if c = 110 then p.literal tNull strNull pos (c :: r)
      else if c = 45 then
        let i := numberLen (c :: r)
        p.scalar tNumber ((c :: r).take i) (pos + i) ((c :: r).drop i)
      else if c = 102 then p.literal tBoolean strFalse pos (c :: r)
      else if c = 116 then p.literal tBoolean strTrue pos (c :: r)
      else .err p (.abort pos tAnyValue (.byte c) (.str b!"any value"))

/-- parser.go:239-275: the array loop from label `readValue` -/
def parseElems : Nat → P → Nat → Slice → List V → Nat → Nat → Bytes → PRes
  | 0, _, _, _, _, _, _, _ => .crash
  | fuel + 1, p, id, nvals, values, numV, pos, rest =>
    let values := appendV values [] p.n numV
    let numV := numV + 1
    match parseValue fuel p pos rest with
    | .crash => .crash
    | .err p e => .err p e
    | .ok p pos rest =>
      match skipSpace pos rest with
      | (_, []) => .err p (.eof tArray)
      | (pos, c :: r) =>
        if c = 44 then parseElems fuel p id nvals values numV (pos + 1) r
        else if c = 93 then .ok (p.setNode id (setValues (finishValues nvals values numV))) (pos + 1) r
        else .err p (.abort pos tArray (.byte c) (.oneOf [44, 93]))

/-- parser.go:313-398: the object loop from label `readKey`, just after the key's opening quote -/
def parseMembers : Nat → P → Nat → Slice → List V → Nat → Nat → Bytes → PRes
  | 0, _, _, _, _, _, _, _ => .crash
  | fuel + 1, p, id, nvals, values, numV, pos, key =>
    match scanQuote key 0 with
    | none => .err p (.eof tObject)
    | some i =>
      let values := appendV values (key.take i) p.n numV
      let numV := numV + 1
      match skipSpace (pos + 1 + i) (key.drop (i + 1)) with
      | (_, []) => .err p (.eof tObject)
      | (pos, c :: r) =>
        if c = 58 then
          match parseValue fuel p (pos + 1) r with
          | .crash => .crash
          | .err p e => .err p e
          | .ok p pos rest =>
            match skipSpace pos rest with
            | (_, []) => .err p (.eof tObject)
            | (pos, c :: r) =>
              if c = 44 then
                match skipSpace (pos + 1) r with
                | (_, []) => .err p (.eof tObject)
                | (pos, c :: r) =>
                  if c = 34 then parseMembers fuel p id nvals values numV (pos + 1) r
                  else .err p (.abort pos tObject (.byte c) (.oneOf [34]))
              else if c = 125 then .ok (p.setNode id (setValues (finishValues nvals values numV))) (pos + 1) r
              else .err p (.abort pos tObject (.byte c) (.oneOf [44, 125]))
        else .err p (.abort pos tObject (.byte c) (.oneOf [58]))

end

/-- Result of `Document.Parse` (parser.go:14-34): a node id with the tail, `UnexpectedEOF` with the input
handed back, or a `ParseError` with an empty tail. -/
inductive ParseOut
  | ok (id : Nat) (tail : Bytes)
  | eof (typ : Typ) (tail : Bytes)
  | err (pos : Nat) (typ : Typ) (got : Got) (want : Want) (tail : Bytes)
  | crash
  deriving DecidableEq, Repr

/-- parser.go:14-34 `Document.Parse`. On success the document takes the parser's array. On error `d.nodes`
keeps its length; the spare region of its old array has been overwritten by the parser. When the parser
did not reallocate this is exactly `p.nodes`; when it did, the old array holds some earlier state of the
same slots. The model keeps the first `cap` slots in both cases: everything after `len` is spare, and
`C18` shows that no observation depends on it. -/
def Doc.parse (d : Doc) (s : Bytes) : Doc × ParseOut :=
  let p : P := ⟨d.arr, d.len⟩
  let id := p.n
  match parseValue (2 * s.length + 2) p 0 s with
  | .crash => (d, .crash)
  | .ok p pos _ =>
    ({ d with
        arr := p.nodes.modify id (fun n => { n with root := true })
        len := p.n },
      .ok id (if pos < s.length then s.drop pos else []))
  | .err p (.eof typ) => ({ d with arr := p.nodes.take d.arr.length }, .eof typ s)
  | .err p (.abort pos typ got want) => ({ d with arr := p.nodes.take d.arr.length }, .err pos typ got want [])

end Verif.Njson
