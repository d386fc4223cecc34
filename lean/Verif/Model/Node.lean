import Verif.Model.Parser

/-!
# Model of `document.go` and `node.go`

Documents live in a heap indexed by references; a `Node` is `(id, rev, doc)` as in node.go:17-21.
Functions that follow child references recursively (`appendJSON`, `ncopy`, `Strip`) take fuel and return `none`
when it runs out: on a cyclic document the Go function recurses forever (stack overflow).
-/

namespace Verif.Njson
open Verif

/-! ## document.go -/

/-- document.go:49-58 `reset(inf, raw, n.values[:0])`: the visible values are zeroed and dropped. -/
def NodeD.reset (n : NodeD) (typ : Typ) (root : Bool) (raw : Bytes) : NodeD :=
  ⟨typ, root, raw, ⟨n.values.zeroVis, 0⟩⟩

/-- `append(s, v)`: writes into spare capacity, or reallocates (the new capacity is not observable; the model
takes the smallest). -/
def Slice.append (s : Slice) (v : V) : Slice :=
  if s.len < s.arr.length then ⟨s.arr.set s.len v, s.len + 1⟩ else ⟨s.vis ++ [v], s.len + 1⟩

/-- document.go:357-364 `grow`: the new node is the one at the old length. A reused slot keeps its old content. -/
def Doc.grow (d : Doc) : Doc :=
  if d.len < d.arr.length then { d with len := d.len + 1 }
  else { d with arr := d.arr.take d.len ++ [NodeD.zero], len := d.len + 1 }

/-- Write through a node pointer. -/
def Doc.setNode (d : Doc) (i : Nat) (f : NodeD → NodeD) : Doc := { d with arr := d.arr.modify i f }

/-- document.go:99-164: the common part of the constructors: grow, `reset(typ|infRoot, raw, n.values[:0])`. The
id returned is the old length. -/
def Doc.add (d : Doc) (typ : Typ) (raw : Bytes) : Doc × Nat :=
  (d.grow.setNode d.len fun n => n.reset typ true raw, d.len)

/-- document.go:100-105 -/
def Doc.null (d : Doc) := d.add tNull strNull
/-- document.go:108-113 -/
def Doc.false_ (d : Doc) := d.add tBoolean strFalse
/-- document.go:116-121 -/
def Doc.true_ (d : Doc) := d.add tBoolean strTrue
/-- document.go:124-130 -/
def Doc.textRaw (d : Doc) (s : Bytes) := d.add tString s
/-- document.go:133-135 -/
def Doc.text (d : Doc) (s : Bytes) := d.textRaw (StrJson.escaped s false false)
/-- document.go:138-140 -/
def Doc.textHTML (d : Doc) (s : Bytes) := d.textRaw (StrJson.escaped s true false)
/-- document.go:143-148 -/
def Doc.object (d : Doc) := d.add tObject []
/-- document.go:151-156 -/
def Doc.array (d : Doc) := d.add tArray []
/-- document.go:159-164; `raw` is the text of `numjson.FormatFloat(f, 64)`. -/
def Doc.number (d : Doc) (raw : Bytes) := d.add tNumber raw

/-- document.go:167-171 `Reset` (`rev++` wraps at 2^64). -/
def Doc.reset (d : Doc) : Doc := { d with len := 0, rev := d.rev + 1 }

/-- document.go:78-91: the index denoted by a key: 64-bit wrap-around, `none` when a byte is not a digit. -/
def keyIndex : Bytes → UInt64 → Option UInt64
  | [], i => some i
  | c :: r, i => if (c - 48).toNat ≤ 9 then keyIndex r (i * 10 + (c - 48).toUInt64) else none

/-- First member with a key (document.go:71-77, node.go:245-250). -/
def findKey (key : Bytes) : List V → Option Nat
  | [] => none
  | v :: vs => if v.key = key then some v.id else findKey key vs

/-- document.go:61-97 `lookup` (`get` is `Document.get`, `none` for a nil document). -/
def lookup (get : Nat → Option NodeD) (id : Nat) : List Bytes → Nat
  | [] => id
  | key :: path =>
    match get id with
    | none => maxUint
    | some n =>
      if n.typ = tObject then
        match findKey key n.values.vis with
        | some id => lookup get id path
        | none => maxUint
      else if n.typ = tArray then
        match keyIndex key 0 with
        | none => maxUint
        | some i =>
          -- `0 <= i` on the signed 64-bit value
          if i.toNat < 2 ^ 63 then
            match n.values.vis[i.toNat]? with
            | some v => lookup get v.id path
            | none => maxUint
          else maxUint
      else maxUint

/-- document.go:280-288: the array loop of `appendJSON`; `rec` is `appendJSON` on a child. The flag is "an
error was returned". -/
def appendElems (rec : Bytes → Nat → Option (Bytes × Bool)) : List V → Bool → Bytes → Option (Bytes × Bool)
  | [], _, dst => some (dst, false)
  | v :: vs, first, dst =>
    match rec (if first then dst else dst ++ [44]) v.id with
    | none => none
    | some (dst, true) => some (dst, true)
    | some (dst, false) => appendElems rec vs false dst

/-- document.go:264-275: the object loop of `appendJSON`. -/
def appendMembers (rec : Bytes → Nat → Option (Bytes × Bool)) : List V → Bool → Bytes → Option (Bytes × Bool)
  | [], _, dst => some (dst, false)
  | v :: vs, first, dst =>
    match rec ((if first then dst else dst ++ [44]) ++ [34] ++ v.key ++ [34, 58]) v.id with
    | none => none
    | some (dst, true) => some (dst, true)
    | some (dst, false) => appendMembers rec vs false dst

/-- document.go:256-299 `appendJSON`: the bytes and whether an error was returned. -/
def appendJSON (get : Nat → Option NodeD) : Nat → Bytes → Nat → Option (Bytes × Bool)
  | 0, _, _ => none
  | fuel + 1, dst, id =>
    match get id with
    | none => some (dst, true)
    | some n =>
      if n.typ = tObject then
        match appendMembers (appendJSON get fuel) n.values.vis true (dst ++ [123]) with
        | some (dst, false) => some (dst ++ [125], false)
        | r => r
      else if n.typ = tArray then
        match appendElems (appendJSON get fuel) n.values.vis true (dst ++ [91]) with
        | some (dst, false) => some (dst ++ [93], false)
        | r => r
      else if n.typ = tString then some (dst ++ [34] ++ n.raw ++ [34], false)
      else some (dst ++ n.raw, false)

/-- document.go:310-317: the loop of `ncopy`. `rec` copies one node into the document, `get` is `other.get`
(evaluated on the growing document when `other` is the same one). -/
def ncopyVals (get : Doc → Nat → Option NodeD) (rec : Doc → NodeD → Option (Doc × Nat)) :
    List V → Doc → List V → Nat → Option (Doc × List V × Nat)
  | [], d, values, numV => some (d, values, numV)
  | v :: vs, d, values, numV =>
    match get d v.id with
    | none => ncopyVals get rec vs d values numV
    | some n =>
      match rec d n with
      | none => none
      | some (d, id) => ncopyVals get rec vs d (appendV values v.key id numV) (numV + 1)

/-- document.go:301-320 `ncopy` -/
def ncopy (get : Doc → Nat → Option NodeD) : Nat → Doc → NodeD → Option (Doc × Nat)
  | 0, _, _ => none
  | fuel + 1, d, n =>
    let id := d.len
    let d := d.grow
    let values := ((d.arr.getD id NodeD.zero).values).arr
    let d := d.setNode id fun _ => ⟨n.typ, n.root, n.raw, Slice.nil⟩
    match ncopyVals get (ncopy get fuel) n.values.vis d values 0 with
    | none => none
    | some (d, values, numV) => some (d.setNode id (setValues ⟨values, numV⟩), id)

/-! ## Heap and nodes (node.go) -/

abbrev Ref := Nat

/-- The documents of the program. -/
abbrev Heap := Ref → Doc

def Heap.set (h : Heap) (r : Ref) (d : Doc) : Heap := fun r' => if r' = r then d else h r'

/-- node.go:17-21 -/
structure Node where
  id : Nat
  rev : UInt64
  doc : Option Ref
  deriving DecidableEq, Repr

/-- The Go zero value `Node{}`. -/
def Node.zero : Node := ⟨0, 0, none⟩

/-- node.go:34-37 `With` -/
def Node.with_ (n : Node) (id : Nat) : Node := { n with id := id }

/-- document.go:182-184 `Document.Node` -/
def Heap.node (h : Heap) (r : Ref) (id : Nat) : Node := ⟨id, (h r).rev, some r⟩

/-- document.go:187-189 `Document.Root` -/
def Heap.root (h : Heap) (r : Ref) : Node := ⟨0, (h r).rev, some r⟩

/-- node.go:40-47 `Document` -/
def Node.document (h : Heap) (n : Node) : Option Ref :=
  match n.doc with
  | some r => if (h r).rev = n.rev then some r else none
  | none => none

/-- node.go:49-59 `get` -/
def Node.get (h : Heap) (n : Node) : Option NodeD :=
  match n.document h with
  | some r => (h r).get n.id
  | none => none

/-- `Document.get` on a possibly nil document (document.go:174-179). -/
def getOf (h : Heap) : Option Ref → Nat → Option NodeD
  | some r, id => (h r).get id
  | none, _ => none

/-- node.go:62-67 `AppendJSON`: `nil` bytes for a dead node. -/
def Node.appendJSON (h : Heap) (fuel : Nat) (n : Node) (dst : Bytes) : Option (Bytes × Bool) :=
  match n.get h with
  | some _ => Njson.appendJSON (getOf h n.doc) fuel dst n.id
  | none => some ([], true)

/-- document.go:252-254 `Document.AppendJSON` -/
def Doc.appendJSON (d : Doc) (fuel : Nat) (dst : Bytes) : Option (Bytes × Bool) := Njson.appendJSON d.get fuel dst 0

/-- node.go:71-76 -/
def Node.raw (h : Heap) (n : Node) : Bytes := match n.get h with | some d => d.raw | none => []
/-- node.go:79-84 -/
def Node.unescaped (h : Heap) (n : Node) : Bytes :=
  match n.get h with
  | some d => if d.typ = tString then StrJson.unescaped d.raw else []
  | none => []
/-- node.go:87-92 -/
def Node.data (h : Heap) (n : Node) : Bytes × Typ := match n.get h with | some d => (d.raw, d.typ) | none => ([], tInvalid)
/-- node.go:122-132 -/
def Node.toBool (h : Heap) (n : Node) : Bool × Bool :=
  match n.get h with
  | some d =>
    if d.typ = tBoolean then
      if d.raw = strTrue then (true, true) else if d.raw = strFalse then (false, true) else (false, false)
    else (false, false)
  | none => (false, false)
/-- node.go:135-140 -/
def Node.typ (h : Heap) (n : Node) : Typ := match n.get h with | some d => d.typ | none => tInvalid
/-- node.go:143-148, the values an iterator runs over -/
def Node.values (h : Heap) (n : Node) : List V := match n.get h with | some d => d.values.vis | none => []
/-- node.go:156-158 -/
def Node.lookup (h : Heap) (n : Node) (path : List Bytes) : Node :=
  n.with_ (Njson.lookup (getOf h (n.document h)) n.id path)
/-- node.go:243-254 -/
def Node.getKey (h : Heap) (n : Node) (key : Bytes) : Node :=
  match n.get h with
  | some d =>
    if d.typ = tObject then
      match findKey key d.values.vis with
      | some id => n.with_ id
      | none => n.with_ maxUint
    else n.with_ maxUint
  | none => n.with_ maxUint
/-- node.go:260-267 -/
def Node.index (h : Heap) (n : Node) (i : Int) : Node :=
  match n.get h with
  | some d =>
    if d.typ = tArray ∧ 0 ≤ i ∧ i < d.values.vis.length then
      match d.values.vis[i.toNat]? with
      | some v => n.with_ v.id
      | none => n.with_ maxUint
    else n.with_ maxUint
  | none => n.with_ maxUint

/-! ### mutation -/

/-- document.go:343-355 `copyOrAdopt` on document `r`; `none` when the copy diverges. -/
def copyOrAdopt (h : Heap) (fuel : Nat) (r : Ref) (other : Option Ref) (id to : Nat) : Option (Heap × Nat) :=
  match getOf h other id with
  | none => some (h, maxUint)
  | some n =>
    if other = some r ∧ id ≠ to ∧ n.root = true ∧ id ≠ 0 then
      some (h.set r ((h r).setNode id fun n => { n with root := false }), id)
    else
      let get := fun d id => if other = some r then d.get id else getOf h other id
      match ncopy get fuel (h r) n with
      | none => none
      | some (d, id) => some (h.set r d, id)

/-- node.go:280-290: assign an existing key or append a member. -/
def setKey (s : Slice) (key : Bytes) (id : Nat) : Slice :=
  match s.vis.findIdx? (fun v => v.key = key) with
  | some i => { s with arr := s.arr.modify i fun v => { v with id := id } }
  | none => s.append ⟨id, key⟩

/-- node.go:272-293 `Set` -/
def Node.set (h : Heap) (fuel : Nat) (n : Node) (key : Bytes) (value : Node) : Option Heap :=
  match n.get h, n.doc with
  | some nn, some r =>
    if nn.typ = tObject then
      match copyOrAdopt h fuel r (value.document h) value.id n.id with
      | none => none
      | some (h, id) =>
        if id < maxUint then
          some (h.set r ((h r).setNode n.id fun nn => { nn with values := setKey nn.values key id }))
        else some h
    else some h
  | _, _ => some h

/-- node.go:302-307: the loop of `Append`. -/
def appendLoop (fuel : Nat) (r : Ref) (to : Nat) : List Node → Heap → Slice → Option (Heap × Slice)
  | [], h, vv => some (h, vv)
  | v :: vs, h, vv =>
    match copyOrAdopt h fuel r (v.document h) v.id to with
    | none => none
    | some (h, id) => appendLoop fuel r to vs h (vv.append ⟨id, []⟩)

/-- node.go:296-311 `Append` -/
def Node.append (h : Heap) (fuel : Nat) (n : Node) (values : List Node) : Option Heap :=
  if values.length = 0 then some h
  else
    match n.get h, n.doc with
    | some nn, some r =>
      if nn.typ = tArray then
        match appendLoop fuel r n.id values h nn.values with
        | none => none
        | some (h, vv) => some (h.set r ((h r).setNode n.id (setValues vv)))
      else some h
    | _, _ => some h

/-- node.go:323-332 `Replace` -/
def Node.replace (h : Heap) (fuel : Nat) (n : Node) (i : Int) (value : Node) : Option Heap :=
  match n.get h, n.doc with
  | some nn, some r =>
    if nn.typ = tArray ∧ 0 ≤ i ∧ i < nn.values.vis.length then
      match copyOrAdopt h fuel r (value.document h) value.id n.id with
      | none => none
      | some (h, id) =>
        if id < maxUint then
          some (h.set r ((h r).setNode n.id fun nn =>
            { nn with values := { nn.values with arr := nn.values.arr.set i.toNat ⟨id, []⟩ } }))
        else some h
    else some h
  | _, _ => some h

/-- Mutations that only touch the addressed node. -/
def Node.update (h : Heap) (n : Node) (f : NodeD → NodeD) : Heap :=
  match n.get h, n.doc with
  | some _, some r => h.set r ((h r).setNode n.id f)
  | _, _ => h

/-- node.go:316-320 `Slice`: the backing array before `i` becomes unreachable. -/
def Node.slice (h : Heap) (n : Node) (i j : Int) : Heap :=
  n.update h fun n =>
    if n.typ = tArray ∧ 0 ≤ i ∧ i < j ∧ j < n.values.vis.length then
      { n with values := ⟨n.values.arr.drop i.toNat, (j - i).toNat⟩ }
    else n

/-- node.go:335-345 `Remove`: shift left, zero the last slot, shorten. -/
def Slice.remove (s : Slice) (i : Nat) : Slice :=
  ⟨s.vis.eraseIdx i ++ [V.zero] ++ s.arr.drop s.vis.length, s.vis.length - 1⟩

/-- node.go:335-345 `Remove` -/
def Node.remove (h : Heap) (n : Node) (i : Int) : Heap :=
  n.update h fun n =>
    if n.typ = tArray ∧ 0 ≤ i ∧ i < n.values.vis.length then { n with values := n.values.remove i.toNat } else n

/-- node.go:375-379 and :353-356: move the last value into slot `i`, zero the last slot, shorten. -/
def Slice.swapRemove (s : Slice) (i : Nat) : Slice :=
  let j := s.vis.length - 1
  ⟨(s.arr.set i (s.arr.getD j V.zero)).set j V.zero, j⟩

/-- node.go:371-384 `Del` -/
def Node.del (h : Heap) (n : Node) (key : Bytes) : Heap :=
  n.update h fun n =>
    if n.typ = tObject then
      match n.values.vis.findIdx? (fun v => v.key = key) with
      | some i => { n with values := n.values.swapRemove i }
      | none => n
    else n

/-- node.go:386-447: the common part of the setters, `reset(typ|Flags(), raw, n.values[:0])`. -/
def Node.setScalar (h : Heap) (n : Node) (typ : Typ) (raw : Bytes) : Heap :=
  n.update h fun n => n.reset typ n.root raw
/-- node.go:422-426 -/
def Node.setStringRaw (h : Heap) (n : Node) (s : Bytes) : Heap := n.setScalar h tString s
/-- node.go:410-412 -/
def Node.setString (h : Heap) (n : Node) (s : Bytes) : Heap := n.setStringRaw h (StrJson.escaped s false false)
/-- node.go:415-417 -/
def Node.setStringHTML (h : Heap) (n : Node) (s : Bytes) : Heap := n.setStringRaw h (StrJson.escaped s true false)
/-- node.go:429-433 -/
def Node.setFalse (h : Heap) (n : Node) : Heap := n.setScalar h tBoolean strFalse
/-- node.go:436-440 -/
def Node.setTrue (h : Heap) (n : Node) : Heap := n.setScalar h tBoolean strTrue
/-- node.go:443-447 -/
def Node.setNull (h : Heap) (n : Node) : Heap := n.setScalar h tNull strNull
/-- node.go:387-407 `SetInt`, `SetUint`, `SetFloat`; `raw` is the text of strconv.FormatInt/FormatUint or
numjson.FormatFloat. -/
def Node.setNumber (h : Heap) (n : Node) (raw : Bytes) : Heap := n.setScalar h tNumber raw

/-- node.go:357-359: strip the values from index `j` on; `k` bounds the number of iterations (the values
never get longer). -/
def stripFrom (rec : Doc → Nat → Option Doc) (id : Nat) : Nat → Nat → Doc → Option Doc
  | 0, _, d => some d
  | k + 1, j, d =>
    match d.get id with
    | none => none
    | some nn =>
      match nn.values.vis[j]? with
      | none => some d
      | some v =>
        match rec d v.id with
        | none => none
        | some d => stripFrom rec id k (j + 1) d

/-- node.go:350-364: the loop of `Strip` from index `i`; `k` values of the original length remain. Indexing
`nn.values[i]` out of range (possible only if a child call shortened this very node) panics. -/
def stripLoop (rec : Doc → Nat → Option Doc) (id : Nat) (key : Bytes) : Nat → Nat → Doc → Option Doc
  | 0, _, d => some d
  | k + 1, i, d =>
    match d.get id with
    | none => none
    | some nn =>
      match nn.values.vis[i]? with
      | none => none
      | some v =>
        if v.key = key then
          let d := d.setNode id (setValues (nn.values.swapRemove i))
          stripFrom rec id nn.values.vis.length i d
        else
          match rec d v.id with
          | none => none
          | some d => stripLoop rec id key k (i + 1) d

/-- node.go:348-367 `Strip` within one document -/
def Doc.strip (key : Bytes) : Nat → Doc → Nat → Option Doc
  | 0, _, _ => none
  | fuel + 1, d, id =>
    match d.get id with
    | none => some d
    | some nn =>
      if nn.typ = tObject then stripLoop (Doc.strip key fuel) id key nn.values.vis.length 0 d
      else some d

/-- node.go:348-367 `Strip` -/
def Node.strip (h : Heap) (fuel : Nat) (n : Node) (key : Bytes) : Option Heap :=
  match n.document h with
  | some r =>
    match (h r).strip key fuel n.id with
    | some d => some (h.set r d)
    | none => none
  | none => some h

/-! ### parsing through a document reference -/

/-- parser.go:14-34 with the returned `Node`: the zero Node on error. -/
def Heap.parse (h : Heap) (r : Ref) (s : Bytes) : Heap × Node × ParseOut :=
  let (d, out) := (h r).parse s
  let h' := h.set r d
  match out with
  | .ok id _ => (h', h'.node r id, out)
  | _ => (h', Node.zero, out)

end Verif.Njson
