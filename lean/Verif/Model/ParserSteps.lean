import Verif.Model.Parser

/-!
# How many steps `parser.go` takes

The functions here follow Parser.lean branch by branch and add up the work that is done on the way: one step for each byte that is looked at in a
loop, for each node or child reference that is written, cleared, copied or allocated, and for each decision between the loops. What is
returned by a call, and so where the parser goes on, is taken from Parser.lean.
-/

namespace Verif.Njson
open Verif

/-- parser.go:89-91, :224-226, :252, :292, :332, :359, :363: the rounds of a loop that skips white space; the last one sees another byte or the end. -/
def spaceSteps : Bytes → Nat
  | [] => 1
  | c :: r => if isSpace c then spaceSteps r + 1 else 1

/-- parser.go:148-159 and :322-351: the rounds of the loop that looks for the closing quote -/
def quoteSteps : Bytes → Nat
  | [] => 1
  | c :: r =>
    if c = 34 then 1
    else if c = 92 then
      match r with
      | [] => 2
      | _ :: r' => quoteSteps r' + 1
    else quoteSteps r + 1

/-- `strings.IndexByte` (standard library): the bytes up to the one that is found, or all -/
def indexSteps (s : Bytes) : Nat :=
  match StrJson.indexByte s 34 with
  | none => s.length
  | some i => i + 1

/-- parser.go:139-170 `readString` -/
def stringSteps (s : Bytes) : Nat :=
  indexSteps s + 1 +
    match StrJson.indexByte s 34 with
    | none => 0
    | some 0 => 0
    | some (i + 1) => if StrJson.at' s i = 92 then quoteSteps (s.drop (i + 2)) else 0

/-- parser.go:49-64 `node`; `make` clears a new array, `copy` copies the old one -/
def P.nodeSteps (p : P) : Nat :=
  if p.n < p.nodes.length then 1 else 1 + (2 * p.nodes.length + 1) + p.nodes.length

/-- parser.go:65-76 `appendV` -/
def appendVSteps (values : List V) (i : Nat) : Nat :=
  if i < values.length then 1 else 1 + (2 * values.length + 1) + values.length

/-- parser.go:202-209 `done:`, with the loop that clears `n.values` -/
def P.scalarSteps (p : P) : Nat :=
  p.nodeSteps + 1 + (p.nodes.getD p.n NodeD.zero).values.len

/-- parser.go:172-201: the comparison with `lit`, and `done:` if they are equal -/
def P.literalSteps (p : P) (lit s : Bytes) : Nat :=
  if lit.length ≤ s.length then lit.length + if s.take lit.length = lit then p.scalarSteps else 0
  else 1

mutual

/-- parser.go:83-210 `parseValue`, with the beginnings of `parseArray` and `parseObject` -/
def valueSteps : Nat → P → Nat → Bytes → Nat
  | 0, _, _, _ => 0
  | fuel + 1, p, pos, rest =>
    spaceSteps rest + 1 +
    match skipSpace pos rest with
    | (_, []) => 0
    | (pos, c :: r) =>
      if c = 34 then
        match r with
        | [] => 0
        | _ => stringSteps r + match scanString r with
          | none => 0
          | some _ => p.scalarSteps
      else if c = 123 then
        match p.node with
        | (_, none) => 0
        | (p', some id) =>
          let nvals := (p'.nodes.getD id NodeD.zero).values
          let p1 := p'.setNode id (setContainer tObject)
          p.nodeSteps + spaceSteps r +
          match skipSpace (pos + 1) r with
          | (_, []) => 0
          | (pos, c :: r) =>
            if c = 125 then nvals.len
            else if c = 34 then memberSteps fuel p1 id nvals nvals.arr 0 (pos + 1) r
            else 0
      else if c = 91 then
        match p.node with
        | (_, none) => 0
        | (p', some id) =>
          let nvals := (p'.nodes.getD id NodeD.zero).values
          let p1 := p'.setNode id (setContainer tArray)
          p.nodeSteps + spaceSteps r +
          match skipSpace (pos + 1) r with
          | (_, []) => 0
          | (pos, c :: r) =>
            if c = 93 then nvals.len
            else elemSteps fuel p1 id nvals nvals.arr 0 pos (c :: r)
      else if isDigit c then numberLen (c :: r) + 1 + p.scalarSteps
      else if c = 110 then p.literalSteps strNull (c :: r)
      else if c = 45 then numberLen (c :: r) + 1 + p.scalarSteps
      else if c = 102 then p.literalSteps strFalse (c :: r)
      else if c = 116 then p.literalSteps strTrue (c :: r)
      else 0

/-- parser.go:239-275: the array loop from label `readValue`; at its end unused children are cleared -/
def elemSteps : Nat → P → Nat → Slice → List V → Nat → Nat → Bytes → Nat
  | 0, _, _, _, _, _, _, _ => 0
  | fuel + 1, p, id, nvals, values, numV, pos, rest =>
    let values' := appendV values [] p.n numV
    let numV' := numV + 1
    appendVSteps values numV + valueSteps fuel p pos rest +
    match parseValue fuel p pos rest with
    | .crash => 0
    | .err _ _ => 0
    | .ok p pos rest =>
      spaceSteps rest +
      match skipSpace pos rest with
      | (_, []) => 0
      | (pos, c :: r) =>
        if c = 44 then elemSteps fuel p id nvals values' numV' (pos + 1) r
        else if c = 93 then nvals.len - numV'
        else 0

/-- parser.go:313-398: the object loop from label `readKey`, just after the key's opening quote -/
def memberSteps : Nat → P → Nat → Slice → List V → Nat → Nat → Bytes → Nat
  | 0, _, _, _, _, _, _, _ => 0
  | fuel + 1, p, id, nvals, values, numV, pos, key =>
    quoteSteps key +
    match scanQuote key 0 with
    | none => 0
    | some i =>
      let values' := appendV values (key.take i) p.n numV
      let numV' := numV + 1
      appendVSteps values numV + spaceSteps (key.drop (i + 1)) +
      match skipSpace (pos + 1 + i) (key.drop (i + 1)) with
      | (_, []) => 0
      | (pos, c :: r) =>
        if c = 58 then
          valueSteps fuel p (pos + 1) r +
          match parseValue fuel p (pos + 1) r with
          | .crash => 0
          | .err _ _ => 0
          | .ok p pos rest =>
            spaceSteps rest +
            match skipSpace pos rest with
            | (_, []) => 0
            | (pos, c :: r) =>
              if c = 44 then
                spaceSteps r +
                match skipSpace (pos + 1) r with
                | (_, []) => 0
                | (pos, c :: r) =>
                  if c = 34 then memberSteps fuel p id nvals values' numV' (pos + 1) r
                  else 0
              else if c = 125 then nvals.len - numV'
              else 0
        else 0

end

/-- parser.go:14-34 `Document.Parse`: the steps of `parseValue`, and one for the rest -/
def Doc.parseSteps (d : Doc) (s : Bytes) : Nat := 1 + valueSteps (2 * s.length + 2) ⟨d.arr, d.len⟩ 0 s

end Verif.Njson
