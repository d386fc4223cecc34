import Verif.Model.Node

/-!
# How deep `parser.go` and `AppendJSON` recurse

The functions here follow Parser.lean and Node.lean branch by branch and return how many calls of `parseValue`, or of `appendJSON`, are in progress at the same
time, at most. With each call of `parseValue` there is at most one of `parseArray` or `parseObject` in progress. What is returned by a
call is taken from those files.
-/

namespace Verif.Njson
open Verif

mutual

/-- parser.go:83-210 `parseValue`, with the beginnings of `parseArray` and `parseObject` -/
def valueDepth : Nat → P → Nat → Bytes → Nat
  | 0, _, _, _ => 0
  | fuel + 1, p, pos, rest =>
    1 +
    match skipSpace pos rest with
    | (_, []) => 0
    | (pos, c :: r) =>
      if c = 123 then
        match p.node with
        | (_, none) => 0
        | (p', some id) =>
          let nvals := (p'.nodes.getD id NodeD.zero).values
          let p1 := p'.setNode id (setContainer tObject)
          match skipSpace (pos + 1) r with
          | (_, []) => 0
          | (pos, c :: r) => if c = 34 then memberDepth fuel p1 id nvals nvals.arr 0 (pos + 1) r else 0
      else if c = 91 then
        match p.node with
        | (_, none) => 0
        | (p', some id) =>
          let nvals := (p'.nodes.getD id NodeD.zero).values
          let p1 := p'.setNode id (setContainer tArray)
          match skipSpace (pos + 1) r with
          | (_, []) => 0
          | (pos, c :: r) => if c = 93 then 0 else elemDepth fuel p1 id nvals nvals.arr 0 pos (c :: r)
      else 0

/-- parser.go:239-275: the array loop from label `readValue` -/
def elemDepth : Nat → P → Nat → Slice → List V → Nat → Nat → Bytes → Nat
  | 0, _, _, _, _, _, _, _ => 0
  | fuel + 1, p, id, nvals, values, numV, pos, rest =>
    let values' := appendV values [] p.n numV
    max (valueDepth fuel p pos rest)
      (match parseValue fuel p pos rest with
      | .crash => 0
      | .err _ _ => 0
      | .ok p pos rest =>
        match skipSpace pos rest with
        | (_, []) => 0
        | (pos, c :: r) => if c = 44 then elemDepth fuel p id nvals values' (numV + 1) (pos + 1) r else 0)

/-- parser.go:313-398: the object loop from label `readKey`, just after the key's opening quote -/
def memberDepth : Nat → P → Nat → Slice → List V → Nat → Nat → Bytes → Nat
  | 0, _, _, _, _, _, _, _ => 0
  | fuel + 1, p, id, nvals, values, numV, pos, key =>
    match scanQuote key 0 with
    | none => 0
    | some i =>
      let values' := appendV values (key.take i) p.n numV
      match skipSpace (pos + 1 + i) (key.drop (i + 1)) with
      | (_, []) => 0
      | (pos, c :: r) =>
        if c = 58 then
          max (valueDepth fuel p (pos + 1) r)
            (match parseValue fuel p (pos + 1) r with
            | .crash => 0
            | .err _ _ => 0
            | .ok p pos rest =>
              match skipSpace pos rest with
              | (_, []) => 0
              | (pos, c :: r) =>
                if c = 44 then
                  match skipSpace (pos + 1) r with
                  | (_, []) => 0
                  | (pos, c :: r) => if c = 34 then memberDepth fuel p id nvals values' (numV + 1) (pos + 1) r else 0
                else 0)
        else 0

end

/-- parser.go:14-34 `Document.Parse` -/
def Doc.parseDepth (d : Doc) (s : Bytes) : Nat := valueDepth (2 * s.length + 2) ⟨d.arr, d.len⟩ 0 s

/-- document.go:264-275, :280-288: the loops of `appendJSON`; they end at the first error. `rec` is the depth of a call, `done` says whether it returns without an error. -/
def childDepth (rec : Nat → Nat) (done : Nat → Bool) : List V → Nat
  | [] => 0
  | v :: vs => max (rec v.id) (if done v.id then childDepth rec done vs else 0)

/-- document.go:256-299 `appendJSON` -/
def appendDepth (get : Nat → Option NodeD) : Nat → Nat → Nat
  | 0, _ => 0
  | fuel + 1, id =>
    1 +
    match get id with
    | none => 0
    | some n =>
      if n.typ = tObject ∨ n.typ = tArray then
        childDepth (appendDepth get fuel) (fun id => (appendJSON get fuel [] id).any fun r => !r.2) n.values.vis
      else 0

/-- node.go:62-67 `Node.AppendJSON` of a live node -/
def Node.jsonDepth (h : Heap) (fuel : Nat) (n : Node) : Nat := appendDepth (getOf h n.doc) fuel n.id

end Verif.Njson
