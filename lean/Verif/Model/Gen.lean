import Verif.Model.UnRun

/-!
# Model of `internal/generator`: generated `AppendJSON` and `UnmarshalNodeJSON` methods

The command `njson` writes Go source. The model has the code blocks that the templates of append.go and unmarshal.go
write as syntax trees (`ABlock`, `UBlock`): the functions that choose templates, what the Go compiler says about the
result, and what the code does when it runs. Each constructor shows the template.

Simplifications. Package `alxarch/meta` is not part of the repository: what `meta.NewFields`, `meta.ParseTag` and `time.Parse` return
is in `Env`, and arbitrary. Its `Code` values are taken to be the text with the arguments inserted, and the error of any argument.
The import lists are in GenFile.lean; `uintptr`, complex numbers and unsafe pointers are not modelled. No type has the name of a variable or a
package in the templates (`n`, `r`, `v`, `strconv`, ...), which would hide it. The compiler is modelled (in
GenRun.lean) by what the Go specification says about the code in the templates: assignability, selectors, method sets,
unused and undefined variables. The texts of tags are taken to be valid UTF-8 without NUL, as source text is.
-/

namespace Verif.Gen
open Verif Verif.Float Verif.Njson Verif.Unjson

/-- `meta.Field`: a field of a struct or of an embedded struct. -/
structure GField where
  /-- `meta.FieldName(field)` -/
  name : Bytes
  exported : Bool
  typ : Ty
  /-- the number of the field at each step from the struct -/
  path : List Nat
  /-- the text of the tag -/
  tag : Bytes

/-- The package for which code is generated. -/
structure Env where
  U : Univ
  /-- `meta.NewFields(t, true)` for struct type `i`: the lists of fields with the same name, in the order in which the
  map is iterated over -/
  fields : Nat → List (List GField)
  /-- `meta.ParseTag(field.WithTag(key).Tag, key)`: name and parameters -/
  parseTag : Bytes → Bytes → Option (Bytes × List Bytes)
  /-- unmarshal.go:52-64 `isTime`, `isDuration` -/
  isTime : Ty → Bool
  isDuration : Ty → Bool
  /-- `time.Parse(time.RFC3339, s)` -/
  parseTime : Bytes → Option GV
  /-- struct type `i` is declared in the package, so that its unexported fields can be used -/
  here : Nat → Bool

/-- options.go:16-27 `options`; `nil` functions are the identity and `true`. `selfName`: the generated methods are called
`AppendJSON` (and not something else, options.go:46-52). -/
structure GenOptions where
  tagKey : Bytes := []
  omitMethod : Bytes := b!"Omit"
  selfName : Bool := true
  onlyExported : Bool := false
  onlyTagged : Bool := false
  forceOmitEmpty : Bool := false
  matchField : Bytes → Bool := fun _ => true
  fieldName : Bytes → Bytes := id

/-- options.go:98-103 `TagKey` -/
def GenOptions.key (o : GenOptions) : Bytes := if o.tagKey = [] then b!"json" else o.tagKey

/-- options.go:109-146 `parseField`, with the choice at append.go:137-139 and unmarshal.go:319-321: the name in JSON and the parameters
of the tag, or `none` when the field is left out. -/
def parseField (E : Env) (o : GenOptions) (f : GField) : Option (Bytes × List Bytes) :=
  if f.name = b!"_" then none
  else if !o.matchField f.name then none
  else if o.onlyExported && !f.exported then none
  else
    match E.parseTag f.tag o.key with
    | none => if o.onlyTagged then none else some (nameOf [] , force [])
    | some (name, params) => if name = b!"-" then none else some (nameOf name, force params)
where
  nameOf (name : Bytes) : Bytes :=
    let n := if name = [] then o.fieldName f.name else name
    if n = [] then f.name else n
  force (params : List Bytes) : List Bytes := if o.forceOmitEmpty then b!"omitempty" :: params else params

/-! ## The generated code for AppendJSON -/

/-- append.go:54-86: the conditions of `TypeOmiter` -/
inductive Cond
  /-- `v != nil` -/
  | notNil
  /-- `len(v) > 0` -/
  | nonEmpty
  /-- `v` -/
  | isTrue
  /-- `v != 0` -/
  | notZero
  /-- `!v.Omit()` with the method of type `t` -/
  | method (name : Bytes) (t : Ty)

mutual
/-- The blocks of `AppendJSON`. The variable `v` has the value, `out` the output so far. -/
inductive ABlock
  /-- `if out, err = v.AppendJSON(out); err != nil { return out, err }` -/
  | callAppend
  /-- `data, err := v.MarshalJSON(); if err != nil { return out, err }; out = append(out, data...)` -/
  | callJSON
  /-- the same with `v.MarshalText()`, between quotes -/
  | callText
  /-- `if v == nil { out = append(out, "null"...) } else { BLOCK }`; in the block `v` is still the pointer -/
  | ptr (b : ABlock)
  /-- `for k, v := range v { ...; out = append(out, '"'); { v := k; KEY }; out = append(out, '"', ':'); ELEM }` -/
  | map (key elem : ABlock)
  /-- `for i, v := range v { if i > 0 { out = append(out, ',') }; ELEM }` -/
  | slice (elem : ABlock)
  /-- `more := 0; FIELDS; out = append(out, "{}"[more:]...)` -/
  | struct (fs : AFields)
  /-- `if v { out = append(out, "true"...) } else { out = append(out, "false"...) }` -/
  | bool
  /-- `out = append(out, v...)` between quotes -/
  | raw
  /-- `out = strjson.AppendEscaped(out, v, false)` between quotes -/
  | str
  /-- `out = numjson.AppendFloat(out, float64(v), 64)` -/
  | float
  /-- `out = strconv.AppendUint(out, uint64(v), 10)` -/
  | uint
  /-- `out = strconv.AppendInt(out, int64(v), 10)` -/
  | int
  /-- `if data, err := json.Marshal(v); err == nil { out = append(out, data) } else { return out, err }` -/
  | any
inductive AFields
  | nil
  /-- `if v.G1 != nil && v.G2 != nil { v := v.PATH; if COND { append "{,"[more]; more = 1; append "NAME":; { BLOCK } } }`; without guards
  the first line is a mere `{` -/
  | cons (name : Bytes) (path : List Nat) (guards : List (List Nat)) (cond : Option Cond) (b : ABlock) (rest : AFields)
end

/-- append.go:52-95 `TypeOmiter`: the condition (`none` for the empty one) or an error -/
def typeOmiter (E : Env) (o : GenOptions) (t : Ty) : Res (Option Cond) :=
  if (E.U.omitMethod o.omitMethod t).isSome then .ok (some (.method o.omitMethod t))
  else
    match E.U.base t with
    | .ptr _ => .ok (some .notNil)
    | .map _ _ => .ok (some .nonEmpty)
    | .slice _ => .ok (some .nonEmpty)
    | .struct _ => .err .invalidType
    | .bool => .ok (some .isTrue)
    | .string => .ok (some .nonEmpty)
    | .int _ => .ok (some .notZero)
    | .uint _ => .ok (some .notZero)
    | .float _ => .ok (some .notZero)
    | .iface m _ => .ok (if m = 0 then some .notNil else none)
    | _ => .ok none

/-- The type of the field with number `i` of a struct, or of the struct a pointer points to. -/
def fieldTy (U : Univ) (t : Ty) (i : Nat) : Option Ty :=
  match U.base t with
  | .struct j => ((U.fields j)[i]?).map Field.typ
  | .ptr e =>
    match U.base e with
    | .struct j => ((U.fields j)[i]?).map Field.typ
    | _ => none
  | _ => none

/-- The type of `v.PATH` for a `v` of type `t` -/
def pathTy (U : Univ) : Ty → List Nat → Option Ty
  | t, [] => some t
  | t, i :: is => (fieldTy U t i).bind fun t' => pathTy U t' is

/-- append.go:98-104 `EnsureReversePath`: the parts of the path that are pointers, the last field included -/
def guardsOf (U : Univ) (t : Ty) : List Nat → List Nat → List (List Nat)
  | _, [] => []
  | pre, i :: is =>
    match fieldTy U t i with
    | some t' =>
      (match U.base t' with
        | .ptr _ => [pre ++ [i]]
        | _ => []) ++ guardsOf U t' (pre ++ [i]) is
    | none => []

/-- `a < b` on strings -/
def bytesLt : Bytes → Bytes → Bool
  | _, [] => false
  | [], _ :: _ => true
  | a :: as, b :: bs => if a < b then true else if b < a then false else bytesLt as bs

/-- Insertion into a sorted list, behind equal elements -/
def insertField (f : GField) : List GField → List GField
  | [] => [f]
  | g :: gs => if bytesLt f.tag g.tag then f :: g :: gs else g :: insertField f gs

/-- `sort.SliceStable` by tag -/
def sortFields (fs : List GField) : List GField := fs.foldl (fun acc f => insertField f acc) []

def mapR {α β : Type} (f : α → β) : Res α → Res β
  | .ok a => .ok (f a)
  | .err e => .err e
  | .diverge => .diverge

/-- The results of two calls; both are made. -/
def both {α β γ : Type} (a : Res α) (b : Res β) (f : α → β → γ) : Res γ :=
  match a, b with
  | .diverge, _ => .diverge
  | _, .diverge => .diverge
  | .err e, _ => .err e
  | .ok _, .err e => .err e
  | .ok x, .ok y => .ok (f x y)

/-- append.go:131-161: the fields in order; `rec` is `TypeAppender`, `used` the names so far -/
def appendFields (E : Env) (o : GenOptions) (rec : Ty → List Bytes → Res ABlock) (t : Ty) : List GField → List Bytes → Res AFields
  | [], _ => .ok .nil
  | f :: fs, used =>
    match parseField E o f with
    | none => appendFields E o rec t fs used
    | some (name, params) =>
      if name ∈ used then appendFields E o rec t fs used
      else
        both (both (rec f.typ params) (if b!"omitempty" ∈ params then typeOmiter E o f.typ else .ok none) Prod.mk)
          (appendFields E o rec t fs (name :: used))
          fun bc rest => .cons name f.path (guardsOf E.U t [] f.path) bc.2 bc.1 rest

/-- append.go:167-278 `TypeAppender`, with `StructAppender` (append.go:120-165) -/
def typeAppender (E : Env) (o : GenOptions) : Nat → Ty → List Bytes → Res ABlock
  | 0, _, _ => .diverge
  | fuel + 1, t, params =>
    if E.U.impl t .appender then .ok .callAppend
    else if E.U.impl t .jsonMarshaler then .ok .callJSON
    else if E.U.impl t .textMarshaler then .ok .callText
    else
      match E.U.base t with
      | .ptr e => mapR .ptr (typeAppender E o fuel e params)
      | .map k e => both (typeAppender E o fuel k []) (typeAppender E o fuel e params) .map
      | .slice e => mapR .slice (typeAppender E o fuel e params)
      | .struct j => mapR .struct (appendFields E o (typeAppender E o fuel) t (sortFields (E.fields j).flatten) [])
      | .bool => .ok .bool
      | .string => .ok (if b!"raw" ∈ params then .raw else .str)
      | .float _ => .ok .float
      | .uint _ => .ok .uint
      | .int _ => .ok .int
      | .iface m _ => if m = 0 then .ok .any else .err .invalidType
      | _ => .err .invalidType

/-! ## The generated code for UnmarshalNodeJSON -/

mutual
/-- The blocks of `UnmarshalNodeJSON`. The variable `r` is a pointer to the destination, `n` the node. -/
inductive UBlock
  /-- `if t, err := time.Parse(time.RFC3339, n.Raw()); err != nil { return err } else { *r = t }` -/
  | time
  /-- `switch n.Type() { case njson.Number: ... n.ToNumber() ... }` -/
  | duration
  /-- `if err := v.UnmarshalNodeJSON(n); err != nil { return err }` -/
  | callNode
  /-- `if err := n.WrapUnmarshalJSON(r); err != nil { return err }` -/
  | callJSON
  /-- `if err := n.WrapUnmarshalText(r); err != nil { return err }` -/
  | callText
  /-- `case njson.TypeArray: if cap(*r) < size { *r = make([]E, len(*r) + size) } else { *r = (*r)[:size] }; s := *r; for ... { r := &s[i];
  n := ...; BLOCK }; case njson.TypeNull: *r = nil; default: return n.TypeError(njson.TypeArray|njson.TypeNull)` -/
  | slice (e : Ty) (b : UBlock)
  /-- `case n.Type() == njson.TypeNull: *r = nil; case *r == nil: *r = new(E); fallthrough; default: r := *r; BLOCK` -/
  | ptr (e : Ty) (b : UBlock)
  /-- `case njson.TypeNull: *r = nil; case njson.TypeObject: if *r == nil { *r = make(map[K]E, ...) }; for ... { var v E; { n := ...;
  r := &v; BLOCK }; m[values.Key()] = v }; default: return n.TypeError(njson.TypeObject|njson.TypeNull)` -/
  | map (k e : Ty) (b : UBlock)
  /-- `if n.Type() != njson.TypeObject { return n.TypeError(njson.TypeObject) }; for ... { switch values.Key() { CASES } }` -/
  | struct (cs : UCases)
  /-- `if x, ok := n.ToInterface(); ok { *r = x } else { return n.TypeError(njson.AnyValue) }` -/
  | any
  /-- `if b, ok := n.ToBool(); ok { *r = T(b) } else { return n.TypeError(njson.TypeBoolean) }` -/
  | bool (t : Ty)
  /-- `*r = T(n.Unescaped())` -/
  | str (t : Ty)
  /-- `*r = T(n.Raw())` -/
  | raw (t : Ty)
  /-- `if i, ok := n.ToInt(); ok { *r = T(i) } else { return n.TypeError(njson.TypeNumber) }`, and with ToUint, ToFloat -/
  | int (t : Ty)
  | uint (t : Ty)
  | float (t : Ty)
inductive UCases
  | nil
  /-- ``case `NAME`: n := n.With(values.ID()); if r.P1 == nil { r.P1 = new(E1) } ...; { r := &r.PATH; BLOCK }`` -/
  | cons (name : Bytes) (ensure : List (List Nat × Ty)) (path : List Nat) (b : UBlock) (rest : UCases)
end

/-- unmarshal.go:357-390 `CanUnmarshal` -/
def canUnmarshal (U : Univ) : Nat → Ty → Res Bool
  | 0, _ => .diverge
  | fuel + 1, t =>
    match U.base t with
    | .map _ _ => .ok true
    | .struct j => .ok (U.fields j ≠ [])
    | .slice e => canUnmarshal U fuel e
    | .ptr e => canUnmarshal U fuel e
    | .bool => .ok true
    | .string => .ok true
    | .int _ => .ok true
    | .uint _ => .ok true
    | .float _ => .ok true
    | .iface m _ => .ok (m = 0)
    | _ => .ok false

/-- unmarshal.go:178-194 `EnsurePath`: the embedded pointers on the way and what they point to -/
def ensureOf (U : Univ) (t : Ty) : List Nat → List Nat → List (List Nat × Ty)
  | _, [] => []
  | _, [_] => []
  | pre, i :: j :: is =>
    match fieldTy U t i with
    | some t' =>
      (match t' with
        | .ptr e => [(pre ++ [i], e)]
        | _ => []) ++ ensureOf U t' (pre ++ [i]) (j :: is)
    | none => []

/-- unmarshal.go:306-344: the fields of a struct; `can` is `CanUnmarshal`, `rec` is `TypeUnmarshaler`. An error ends the loop. -/
def unmarshalFields (E : Env) (o : GenOptions) (can : Ty → Res Bool) (rec : Ty → Res UBlock) (t : Ty) : List GField → List Bytes → Res UCases
  | [], _ => .ok .nil
  | f :: fs, used =>
    if f.name = b!"_" then unmarshalFields E o can rec t fs used
    else
      match can f.typ with
      | .err e => .err e
      | .diverge => .diverge
      | .ok false => unmarshalFields E o can rec t fs used
      | .ok true =>
        match parseField E o f with
        | none => unmarshalFields E o can rec t fs used
        | some (name, params) =>
          if name ∈ used then unmarshalFields E o can rec t fs used
          else
            match (if b!"raw" ∈ params ∧ E.U.base f.typ = .string then .ok (.raw f.typ) else rec f.typ) with
            | .err e => .err e
            | .diverge => .diverge
            | .ok b => mapR (.cons name (ensureOf E.U t [] f.path) f.path b) (unmarshalFields E o can rec t fs (name :: used))

/-- unmarshal.go:66-105 `TypeUnmarshaler`, with the functions for the kinds of types (:107-176, :196-355) -/
def typeUnmarshaler (E : Env) (o : GenOptions) : Nat → Ty → Res UBlock
  | 0, _ => .diverge
  | fuel + 1, t =>
    if E.isTime t then .ok .time
    else if E.isDuration t then .ok .duration
    else if E.U.impl (.ptr t) .unmarshaler then .ok .callNode
    else if E.U.impl (.ptr t) .jsonUnmarshaler then .ok .callJSON
    else if E.U.impl (.ptr t) .textUnmarshaler then .ok .callText
    else
      match E.U.base t with
      | .map k e => mapR (.map k e) (typeUnmarshaler E o fuel e)
      | .struct j => mapR .struct (unmarshalFields E o (canUnmarshal E.U fuel) (typeUnmarshaler E o fuel) t (E.fields j).flatten [])
      | .slice e => mapR (.slice e) (typeUnmarshaler E o fuel e)
      | .ptr e => mapR (.ptr e) (typeUnmarshaler E o fuel e)
      | .bool => .ok (.bool t)
      | .string => .ok (.str t)
      | .int _ => .ok (.int t)
      | .uint _ => .ok (.uint t)
      | .float _ => .ok (.float t)
      | .iface m _ => if m = 0 then .ok .any else .err .invalidType
      | _ => .err .invalidType

end Verif.Gen
