import Verif.Model.UnCodec

/-!
# Model of encoding, decoding and omission (unjson/codec.go, encode.go, decode.go, omit.go, unjson.go)

Functions return `none` when the fuel was not enough. `Out.panic` is a run-time panic: of package reflect when it
is used on a value of another kind, of a failed type assertion, of an assignment to a nil map. The branches
commented "reflect panics" are those for values whose kind does not fit the codec.
-/

namespace Verif.Unjson
open Verif Verif.Float Verif.Njson

/-! ## reflect -/

/-- `v.Field(i)`; `none` is a panic. -/
def RV.field (U : Univ) (rv : RV) (i : Nat) : Option RV :=
  match U.base rv.t, rv.v with
  | .struct j, .struct fs =>
    match (U.fields j)[i]?, fs[i]? with
    | some f, some v => some ⟨f.typ, v, rv.addr⟩
    | _, _ => none
  | _, _ => none

/-- codec.go:181-193 `fieldByIndex`; `none` is a panic, `some none` the zero `reflect.Value`. -/
def fieldByIndex (U : Univ) : List Int → RV → Option (Option RV)
  | [], rv => some (some rv)
  | i :: is, rv =>
    if i = -1 then
      match U.base rv.t, rv.v with
      | .ptr _, .nilPtr => some none
      | .ptr t, .ptr v => fieldByIndex U is ⟨t, v, true⟩
      | _, _ => none
    else
      match rv.field U i.toNat with
      | some rv => fieldByIndex U is rv
      | none => none

/-- The type of the elements of a slice, array, pointer or map. -/
def Univ.elem (U : Univ) (t : Ty) : Ty :=
  match U.base t with
  | .ptr e => e
  | .slice e => e
  | .array _ e => e
  | .map _ e => e
  | _ => t

/-- `v.Interface()`: the dynamic type and value; `none` for a nil interface. -/
def RV.dyn (U : Univ) (rv : RV) : Option (Ty × GV) :=
  match U.base rv.t, rv.v with
  | .iface _ _, .iface t v => some (t, v)
  | .iface _ _, _ => none
  | _, _ => some (rv.t, rv.v)

/-- Continue after a call that returned without an error. -/
def andThen {α β : Type} (x : Option (Out α)) (fail : α → β) (f : α → Option (Out β)) : Option (Out β) :=
  match x with
  | none => none
  | some .panic => some .panic
  | some (.done a (some e)) => some (.done (fail a) (some e))
  | some (.done a none) => f a

/-! ## Omission -/

/-- omit.go:150-157: all elements are omitted; `rec` is the omiter of the elements. -/
def omitAll (rec : RV → Option (Out Bool)) : List RV → Option (Out Bool)
  | [] => some (.done true none)
  | x :: xs => andThen (rec x) id fun b => if b then omitAll rec xs else some (.done false none)

/-- codec.go:47-55: all fields are omitted -/
def omitFields (U : Univ) (rec : Omiter → RV → Option (Out Bool)) (rv : RV) : List Codec → Option (Out Bool)
  | [] => some (.done true none)
  | c :: cs =>
    match fieldByIndex U c.index rv with
    | none => some .panic
    | some none => omitFields U rec rv cs
    | some (some f) => andThen (rec c.om f) id fun b => if b then omitFields U rec rv cs else some (.done false none)

/-- omit.go:21-113, codec.go:47-55: the `omit` methods -/
def omitRun (U : Univ) (objs : List Obj) : Nat → Omiter → RV → Option (Out Bool)
  | 0, _, _ => none
  | fuel + 1, o, rv =>
    match o with
    | .never => some (.done false none)
    | .always => some (.done true none)
    | .nil =>
      match rv.v with
      | .nilPtr => some (.done true none)
      | .ptr _ => some (.done false none)
      | .nilIface => some (.done true none)
      | .iface _ _ => some (.done false none)
      | .nilSlice => some (.done true none)
      | .slice _ _ => some (.done false none)
      | .nilMap => some (.done true none)
      | .map _ => some (.done false none)
      | _ => some .panic -- reflect panics
    | .float =>
      match rv.v with
      | .float (.num _ (.fin m _)) => some (.done (m == 0) none)
      | .float _ => some (.done false none)
      | _ => some .panic -- reflect panics
    | .int =>
      match rv.v with
      | .int i => some (.done (i == 0) none)
      | _ => some .panic -- reflect panics
    | .uint =>
      match rv.v with
      | .uint n => some (.done (n == 0) none)
      | _ => some .panic -- reflect panics
    | .bool =>
      match rv.v with
      | .bool b => some (.done (!b) none)
      | _ => some .panic -- reflect panics
    | .zeroLen =>
      match rv.v with
      | .nilSlice => some (.done true none)
      | .slice _ len => some (.done (len == 0) none)
      | .nilMap => some (.done true none)
      | .map es => some (.done es.isEmpty none)
      | .str s => some (.done s.isEmpty none)
      | .array xs => some (.done xs.isEmpty none)
      | _ => some .panic -- reflect panics
    | .method name t =>
      match U.omitMethod name t with
      | some m => if U.omitPanics name t rv.v then some .panic else some (.done (m rv.v) none)
      | none => some .panic -- not reached: the method exists
    | .ptrMethod name t =>
      match rv.v, U.omitMethod name t with
      | .nilPtr, _ => some (.done true none)
      | .ptr v, some m => if U.omitPanics name t v then some .panic else some (.done (m v) none)
      | _, _ => some .panic -- reflect panics
    | .elemMethod name t =>
      match U.omitMethod name t with
      | some m => if rv.addr && U.omitPanics name t (.ptr rv.v) then some .panic else some (.done (rv.addr && m (.ptr rv.v)) none)
      | none => some .panic -- not reached
    | .array n o =>
      match rv.v with
      | .array xs =>
        if n ≤ xs.length then omitAll (omitRun U objs fuel o) ((xs.take n).map fun x => ⟨U.elem rv.t, x, rv.addr⟩)
        else some .panic -- reflect panics
      | _ => some .panic -- reflect panics
    | .struct r =>
      match objs[r]? with
      | some (.struct _ fs) => omitFields U (omitRun U objs fuel) rv fs
      | _ => some .panic -- not reached: `r` is a struct codec

/-! ## Encoding -/

/-- encode.go:320-327, :354-362: elements with commas between; `rec` encodes one. -/
def encElems (rec : Bytes → RV → Option (Out Bytes)) : List RV → Bool → Bytes → Option (Out Bytes)
  | [], _, b => some (.done b none)
  | x :: xs, first, b => andThen (rec (if first then b else b ++ [44]) x) id fun b => encElems rec xs false b

/-- encode.go:255-267: the entries of a map -/
def encEntries (key val : Bytes → RV → Option (Out Bytes)) : List (RV × RV) → Bool → Bytes → Option (Out Bytes)
  | [], _, b => some (.done b none)
  | (k, x) :: es, first, b =>
    andThen (key (if first then b else b ++ [44]) k) id fun b => andThen (val (b ++ [58]) x) id fun b =>
      encEntries key val es false b

/-- codec.go:68-86: the fields of a struct; `more` tells whether one was written. -/
def encFields (U : Univ) (rec : Enc → Bytes → RV → Option (Out Bytes)) (om : Omiter → RV → Option (Out Bool)) (rv : RV) :
    List Codec → Bool → Bytes → Option (Out Bytes)
  | [], more, b => some (.done (b ++ (if more then [125] else [123, 125])) none)
  | c :: cs, more, b =>
    match fieldByIndex U c.index rv with
    | none => some .panic
    | some none => encFields U rec om rv cs more b
    | some (some f) => andThen (om c.om f) (fun _ => b) fun skip =>
      if skip then encFields U rec om rv cs more b
      else andThen (rec c.enc (b ++ [if more then 44 else 123] ++ [34] ++ c.key ++ [34, 58]) f) id fun b =>
        encFields U rec om rv cs true b

/-- encode.go:399-418 `floatEncoder.encode` -/
def encFloat (U : Univ) (bits : Nat) (allowInf allowNaN : Bool) (b : Bytes) (f : Flt) : Out Bytes :=
  match f with
  | .num neg .inf =>
    if allowInf then .done (b ++ (if neg then b!"-Inf" else b!"+Inf")) none else .done b (some .value)
  | .nan => if allowNaN then .done (b ++ b!"NaN") none else .done b (some .value)
  | f => .done (NumJson.appendFloat b f bits (U.fmtFloat f bits)) none

/-- encode.go:146-158, :209-217: encoders that call a method of the dynamic type. A nil interface, or a type that does
not have the method, fails the type assertion. -/
def encMethod (U : Univ) (m : Meth) (b : Bytes) (rv : RV) : Out Bytes :=
  match rv.dyn U with
  | none => .panic
  | some (t, v) =>
    if U.impl t m then
      match m with
      | .appender =>
        if U.panics m t v b then .panic else let r := U.appendJSON t v b; .done r.1 (if r.2 then some .hook else none)
      | .textMarshaler =>
        if U.panics m t v [] then .panic else
        match U.marshal m t v with
        | some s => .done (b ++ [34] ++ s ++ [34]) none
        | none => .done b (some .hook)
      | _ =>
        if U.panics m t v [] then .panic else
        match U.marshal m t v with
        | some s => .done (b ++ s) none
        | none => .done b (some .hook)
    else .panic

/-- The encode methods of encode.go and codec.go. `interfaceEncoder` (encode.go:200-205) calls `AppendJSON`
(unjson.go:95-104), which gets an encoder for the dynamic type with the default options (the package-wide cache only
saves time) and calls `typeEncoder.Encode` (encode.go:39-51): that dereferences a pointer. -/
def encode (U : Univ) (objs : List Obj) : Nat → Enc → Bytes → RV → Option (Out Bytes)
  | 0, _, _, _ => none
  | fuel + 1, e, b, rv =>
    match e with
    | .njson => some (encMethod U .appender b rv)
    | .json => some (encMethod U .jsonMarshaler b rv)
    | .text => some (encMethod U .textMarshaler b rv)
    | .bool =>
      match rv.v with
      | .bool x => some (.done (b ++ (if x then strTrue else strFalse)) none)
      | _ => some .panic -- reflect panics
    | .int =>
      match rv.v with
      | .int i => some (.done (b ++ formatInt i) none)
      | _ => some .panic -- reflect panics
    | .uint =>
      match rv.v with
      | .uint n => some (.done (b ++ formatUint n) none)
      | _ => some .panic -- reflect panics
    | .float bits inf nan =>
      match rv.v with
      | .float f => some (encFloat U bits inf nan b f)
      | _ => some .panic -- reflect panics
    | .str html =>
      match rv.v with
      | .str s => some (.done (StrJson.appendEscaped (b ++ [34]) s html ++ [34]) none)
      | _ => some .panic -- `v.String()` does not panic, but this is not reached
    | .rawStr =>
      match rv.v with
      | .str s => some (.done (b ++ [34] ++ s ++ [34]) none)
      | _ => some .panic -- not reached either
    | .ptr r =>
      match rv.v, objs[r]? with
      | .nilPtr, _ => some (.done (b ++ strNull) none)
      -- an embedded pointer to a slice or map (see `embedding`): `IsNil` works on these too
      | .nilSlice, _ => some (.done (b ++ strNull) none)
      | .nilMap, _ => some (.done (b ++ strNull) none)
      | .ptr v, some (.ptrE _ _ (some e)) => encode U objs fuel e b ⟨U.elem rv.t, v, true⟩
      | _, _ => some .panic -- reflect panics
    | .slice r =>
      match rv.v, objs[r]? with
      | .nilSlice, _ => some (.done (b ++ [91, 93]) none)
      | .slice arr len, some (.sliceE _ _ (some e)) =>
        andThen (encElems (encode U objs fuel e) ((arr.take len).map fun x => ⟨U.elem rv.t, x, true⟩) true (b ++ [91])) id
          fun b => some (.done (b ++ [93]) none)
      | _, _ => some .panic -- reflect panics
    | .array r =>
      match rv.v, objs[r]? with
      | .array xs, some (.arrayE _ _ n (some e)) =>
        if n ≤ xs.length then
          andThen (encElems (encode U objs fuel e) ((xs.take n).map fun x => ⟨U.elem rv.t, x, rv.addr⟩) true (b ++ [91])) id
            fun b => some (.done (b ++ [93]) none)
        else some .panic -- reflect panics
      | _, _ => some .panic -- reflect panics
    | .map r =>
      match rv.v, objs[r]? with
      | .nilMap, _ => some (.done (b ++ strNull) none)
      | .map es, some (.mapE t k (some e)) =>
        let kt := match U.base t with | .map kt _ => kt | _ => t
        andThen (encEntries (encode U objs fuel k) (encode U objs fuel e)
            (es.map fun p => (⟨kt, p.1, false⟩, ⟨U.elem rv.t, p.2, false⟩)) true (b ++ [123])) id
          fun b => some (.done (b ++ [125]) none)
      | _, _ => some .panic -- reflect panics
    | .struct r =>
      match objs[r]? with
      | some (.struct _ fs) => encFields U (encode U objs fuel) (omitRun U objs fuel) rv fs false b
      | _ => some .panic -- not reached: `r` is a struct codec
    | .iface =>
      match rv.v with
      | .nilIface => some (.done (b ++ strNull) none)
      | .iface t v =>
        match newTypeEncoder U {} fuel t with
        | .diverge => none
        | .err e => some (.done [] (some e))
        | .ok m =>
          match U.base t, v with
          | .ptr t', .ptr v' => if t' = m.typ then encode U m.objs fuel m.enc b ⟨t', v', true⟩ else some (.done b (some .invalidValueType))
          | .ptr _, _ => some .panic -- `Elem` of a nil pointer is the zero Value, which has no type
          | _, _ => if t = m.typ then encode U m.objs fuel m.enc b ⟨t, v, false⟩ else some (.done b (some .invalidValueType))
      | _ => some .panic -- reflect panics

/-- encode.go:39-51 `typeEncoder.Encode` on a value of dynamic type `t` -/
def TypeEncoder.encode (U : Univ) (m : TypeEncoder) (fuel : Nat) (b : Bytes) (t : Ty) (v : GV) : Option (Out Bytes) :=
  match U.base t, v with
  | .ptr t', .ptr v' =>
    if t' = m.typ then Unjson.encode U m.objs fuel m.enc b ⟨t', v', true⟩ else some (.done b (some .invalidValueType))
  | .ptr _, _ => some .panic
  | _, _ => if t = m.typ then Unjson.encode U m.objs fuel m.enc b ⟨t, v, false⟩ else some (.done b (some .invalidValueType))

/-- encode.go:39-42: `Encode(out, x)`, `none` for the nil interface -/
def TypeEncoder.encodeArg (U : Univ) (m : TypeEncoder) (fuel : Nat) (b : Bytes) (x : Option (Ty × GV)) : Option (Out Bytes) :=
  match x with
  | none => some (.done b (some .invalidValueType))
  | some (t, v) => m.encode U fuel b t v

/-- unjson.go:95-104 `AppendJSON` on `x`, `none` for the nil interface -/
def appendJSON (U : Univ) (fuel : Nat) (out : Bytes) (x : Option (Ty × GV)) : Option (Out Bytes) :=
  match x with
  | none => some (.done (out ++ strNull) none)
  | some (t, v) =>
    match newTypeEncoder U {} fuel t with
    | .diverge => none
    | .err e => some (.done [] (some e))
    | .ok m => m.encode U fuel out t v

/-- unjson.go:86-88 `Marshal` -/
def marshal (U : Univ) (fuel : Nat) (x : Option (Ty × GV)) : Option (Out Bytes) := appendJSON U fuel [] x

/-! ## Decoding -/

/-- `m[key] = val` on a map -/
def setEntry (key : Bytes) (val : GV) : List (GV × GV) → List (GV × GV)
  | [] => [(.str key, val)]
  | (.str k, x) :: es => if k = key then (.str k, val) :: es else (.str k, x) :: setEntry key val es
  | e :: es => e :: setEntry key val es

/-- document.go:239-249: the loop of `toInterfaceSlice` -/
def toAnySlice (rec : Nat → Option (Option GV)) : List V → List GV → Option (Option GV)
  | [], xs => some (some (.iface (.slice .any) (.slice xs xs.length)))
  | v :: vs, xs =>
    match rec v.id with
    | none => none
    | some none => some none
    | some (some g) => toAnySlice rec vs (xs ++ [g])

/-- document.go:223-235: the loop of `toInterfaceMap` -/
def toAnyMap (rec : Nat → Option (Option GV)) : List V → List (GV × GV) → Option (Option GV)
  | [], es => some (some (.iface (.map .string .any) (.map es)))
  | v :: vs, es =>
    match rec v.id with
    | none => none
    | some none => some none
    | some (some g) => toAnyMap rec vs (setEntry v.key g es)

/-- document.go:192-221 `toInterface`, with the result as a value of type `interface{}`. (`Model/Access.lean` has the same
function with maps as functions; here the entries are needed.) -/
def toAny (get : Nat → Option NodeD) : Nat → Nat → Option (Option GV)
  | 0, _ => none
  | fuel + 1, id =>
    match get id with
    | none => some none
    | some n =>
      if n.typ = tObject then toAnyMap (toAny get fuel) n.values.vis []
      else if n.typ = tArray then toAnySlice (toAny get fuel) n.values.vis []
      else if n.typ = tString then some (some (.iface .string (.str (StrJson.unescaped n.raw))))
      else if n.typ = tBoolean then
        if n.raw = strTrue then some (some (.iface .bool (.bool true)))
        else if n.raw = strFalse then some (some (.iface .bool (.bool false)))
        else some none
      else if n.typ = tNull then some (some .nilIface)
      else if n.typ = tNumber then
        match NumJson.parseFloat n.raw with
        | .nan => some none
        | f => some (some (.iface (.float .b64) (.float f)))
      else some none

/-- document.go:192-221, :233, :247: the value that `toInterface` returns along with `false`: nil, NaN for a number, a nil slice for an array. -/
def toAnyRest (get : Nat → Option NodeD) (id : Nat) : GV :=
  match get id with
  | none => .nilIface
  | some n =>
    if n.typ = tArray then .iface (.slice .any) .nilSlice
    else if n.typ = tNumber then .iface (.float .b64) (.float .nan)
    else .nilIface

/-- The children of a node in the order in which `Values()` iterates over them (C34), with their keys. -/
def kids (h : Heap) (n : Node) : List (Bytes × Node) := (n.iter h).values.map fun v => (v.key, n.with_ v.id)

/-- decode.go:200-211: the elements of an array; errors are not looked at. -/
def decArray (rec : Node → GV → Option (Out GV)) (zero : GV) : List GV → List Node → Option (Option (List GV))
  | [], _ => some (some [])
  | _ :: xs, [] => some (some (zero :: xs.map fun _ => zero))
  | x :: xs, n :: ns =>
    match rec n x with
    | none => none
    | some .panic => some none
    | some (.done y _) =>
      match decArray rec zero xs ns with
      | some (some ys) => some (some (y :: ys))
      | r => r

/-- decode.go:256-263: the elements of a slice from index `i` on: the backing array and the length of the slice
afterwards. -/
def decSlice (rec : Node → GV → Option (Out GV)) : List Node → Nat → List GV → Nat → Option (Option (List GV × Nat))
  | [], _, arr, len => some (some (arr, len))
  | n :: ns, i, arr, len =>
    match arr[i]? with
    | none => some none -- not reached: the capacity is at least the number of elements
    | some x =>
      match rec n x with
      | none => none
      | some .panic => some none
      | some (.done y none) => decSlice rec ns (i + 1) (arr.set i y) len
      | some (.done y (some _)) => some (some (arr.set i y, i))

/-- decode.go:310-317: the entries of a map. The key is the raw text, a value of type `string`, and must be assignable to
the key type; an assignment to a nil map panics. -/
def decMap (rec : Node → GV → Option (Out GV)) (zero : GV) (keyIsString : Bool) :
    List (Bytes × Node) → GV → Option (Out GV)
  | [], m => some (.done m none)
  | (k, n) :: ns, m =>
    andThen (rec n zero) (fun _ => m) fun y =>
      if keyIsString then
        match m with
        | .map es => decMap rec zero keyIsString ns (.map (setEntry k y es))
        | _ => some .panic
      else some .panic

/-- codec.go:212-230: decode into the field with the given index. A nil embedded pointer is replaced by a fresh variable
that is stored nowhere (codec.go:222-224). -/
def decodeAt (U : Univ) (f : RV → Option (Out GV)) : List Int → RV → Option (Out GV)
  | [], rv => f rv
  | i :: is, rv =>
    if i = -1 then
      match U.base rv.t, rv.v with
      | .ptr t, .nilPtr =>
        match decodeAt U f is ⟨t, U.zero t, true⟩ with
        | some (.done _ e) => some (.done .nilPtr e)
        | r => r
      | .ptr t, .ptr v =>
        match decodeAt U f is ⟨t, v, true⟩ with
        | some (.done v e) => some (.done (.ptr v) e)
        | r => r
      | _, _ => some .panic -- reflect panics
    else
      match rv.field U i.toNat, rv.v with
      | some x, .struct fs =>
        match decodeAt U f is x with
        | some (.done v e) => some (.done (.struct (fs.set i.toNat v)) e)
        | r => r
      | _, _ => some .panic -- reflect panics

/-- codec.go:206-234: the members of an object -/
def decFields (U : Univ) (rec : Dec → Node → RV → Option (Out GV)) (fs : List Codec) (t : Ty) :
    List (Bytes × Node) → GV → Option (Out GV)
  | [], v => some (.done v none)
  | (k, n) :: ns, v =>
    match getCodec fs k with
    | none => decFields U rec fs t ns v
    | some c =>
      if c.index = [] then decFields U rec fs t ns v
      else andThen (decodeAt U (rec c.dec n) c.index ⟨t, v, true⟩) id fun v => decFields U rec fs t ns v

/-- decode.go:74-76, :89-91, :479-484: decoders that call a method of the dynamic type (see `encMethod`); node.go:193-238 for
the wrappers. -/
def decMethod (U : Univ) (m : Meth) (fuel : Nat) (h : Heap) (n : Node) (t : Ty) (v : GV) : Option (Out GV) :=
  match m with
  | .unmarshaler => if U.panicsNode t v h n then some .panic else let r := U.unmarshalNode t v h n; some (.done r.1 (if r.2 then some .hook else none))
  | .textUnmarshaler =>
    match n.wrapUnmarshalText h with
    | .called s => if U.panics m t v s then some .panic else let r := U.unmarshal m t v s; some (.done r.1 (if r.2 then some .hook else none))
    | .typeError g w => some (.done v (some (.typeError g w)))
    | .jsonError => some (.done v (some .json))
  | _ =>
    match n.wrapUnmarshalJSON h fuel with
    | none => none
    | some (.called s) => if U.panics m t v s then some .panic else let r := U.unmarshal m t v s; some (.done r.1 (if r.2 then some .hook else none))
    | some (.typeError g w) => some (.done v (some (.typeError g w)))
    | some .jsonError => some (.done v (some .json))

/-- The same on a `reflect.Value`: `v.Interface().(...)`. What the method does to the dynamic value of an interface is
stored back; in Go that is so when the dynamic value is a pointer. -/
def decMethodRV (U : Univ) (m : Meth) (fuel : Nat) (h : Heap) (n : Node) (rv : RV) : Option (Out GV) :=
  match rv.dyn U with
  | none => some .panic
  | some (t, v) =>
    if U.impl t m then
      match U.base rv.t, decMethod U m fuel h n t v with
      | .iface _ _, some (.done v e) => some (.done (.iface t v) e)
      | _, r => r
    else some .panic

/-- A type error; the destination is unchanged. -/
def typeErr (h : Heap) (n : Node) (want : Typ) (rv : RV) : Option (Out GV) :=
  some (.done rv.v (some (.typeError (n.typ h) want)))

/-- decode.go:413-430 `uintDecoder.decode`: what is stored, or the error -/
def decUint (U : Univ) (h : Heap) (n : Node) (rv : RV) : Option (Out GV) :=
  match U.base rv.t, rv.v with
  | .uint k, .uint old =>
    let raw := (n.data h).1
    if n.typ h = tNumber then
      let p := NumJson.parseUint raw
      if p.2 then some (.done (.uint (wrapUint k p.1.toNat)) none)
      else
        match parseUint64 raw with
        | some x => some (.done (.uint (wrapUint k x)) none)
        | none => some (.done (.uint old) (some .strconv))
    else if n.typ h = tNull then some (.done (.uint 0) none)
    else typeErr h n tNumber rv
  | _, _ => some .panic -- reflect panics

/-- decode.go:435-452 `intDecoder.decode` -/
def decInt (U : Univ) (h : Heap) (n : Node) (rv : RV) : Option (Out GV) :=
  match U.base rv.t, rv.v with
  | .int k, .int old =>
    let raw := (n.data h).1
    if n.typ h = tNumber then
      let p := NumJson.parseInt raw
      if p.2 then some (.done (.int (wrapInt k p.1)) none)
      else
        match parseInt64 raw with
        | some x => some (.done (.int (wrapInt k x)) none)
        | none => some (.done (.int old) (some .strconv))
    else if n.typ h = tNull then some (.done (.int 0) none)
    else typeErr h n tNumber rv
  | _, _ => some .panic -- reflect panics

/-- decode.go:457-475 `floatDecoder.decode` -/
def decFloat (U : Univ) (h : Heap) (n : Node) (rv : RV) : Option (Out GV) :=
  match U.base rv.t, rv.v with
  | .float k, .float old =>
    let raw := (n.data h).1
    if n.typ h = tNumber then
      match NumJson.parseFloat raw with
      | .nan =>
        match U.atof raw with
        | some f => some (.done (.float (setFloat k f)) none)
        | none => some (.done (.float old) (some .strconv))
      | f => some (.done (.float (setFloat k f)) none)
    else if n.typ h = tNull then some (.done (U.zero (.float k)) none)
    else typeErr h n tNumber rv
  | _, _ => some .panic -- reflect panics

/-- decode.go:398-409 `boolDecoder.decode` -/
def decBool (h : Heap) (n : Node) (rv : RV) : Option (Out GV) :=
  match rv.v with
  | .bool _ =>
    let b := n.toBool h
    if b.2 then some (.done (.bool b.1) none)
    else if n.typ h = tNull then some (.done (.bool false) none)
    else typeErr h n tBoolean rv
  | _ => some .panic -- reflect panics

/-- decode.go:359-370 `stringDecoder.decode` -/
def decString (h : Heap) (n : Node) (rv : RV) : Option (Out GV) :=
  match rv.v with
  | .str _ =>
    if n.typ h = tString then some (.done (.str (StrJson.unescaped (n.data h).1)) none)
    else if n.typ h = tNull then some (.done (.str []) none)
    else typeErr h n tString rv
  | _ => some .panic -- reflect panics

/-- decode.go:384-394 `interfaceDecoder.decode`. Every destination is addressable: it is reached from the pointer
passed to `Decode` or from `reflect.New`. A defined empty interface type fails the type assertion. -/
def decIface (fuel : Nat) (h : Heap) (n : Node) (rv : RV) : Option (Out GV) :=
  match toAny (getOf h (n.document h)) fuel n.id with
  | none => none
  | some (some x) => if rv.t = .any then some (.done x none) else some .panic
  | some none => typeErr h n tAnyValue rv

/-- The decode methods of decode.go and codec.go: the value of the destination afterwards and the error. -/
def decode (U : Univ) (objs : List Obj) (h : Heap) : Nat → Dec → Node → RV → Option (Out GV)
  | 0, _, _, _ => none
  | fuel + 1, d, n, rv =>
    match d with
    | .njson => decMethodRV U .unmarshaler fuel h n rv
    | .json => decMethodRV U .jsonUnmarshaler fuel h n rv
    | .text =>
      if n.typ h = tString then decMethodRV U .textUnmarshaler fuel h n rv else typeErr h n tString rv
    | .bool => decBool h n rv
    | .int => decInt U h n rv
    | .uint => decUint U h n rv
    | .float => decFloat U h n rv
    | .string => decString h n rv
    | .iface => decIface fuel h n rv
    | .ptr r =>
      match objs[r]? with
      | some (.ptrD t (some d)) =>
        -- `v.Set` with a value of the type `*t` panics when the destination has another type
        match U.base rv.t with
        | .ptr t' =>
          if t' = t then
            if n.typ h = tNull then some (.done .nilPtr none)
            else
              match decode U objs h fuel d n ⟨t, match rv.v with | .ptr v => v | _ => U.zero t, true⟩ with
              | some (.done v e) => some (.done (.ptr v) e)
              | r => r
          else some .panic
        | _ => some .panic
      | _ => some .panic -- not reached: `r` is a pointer decoder
    | .slice r =>
      match objs[r]? with
      | some (.sliceD t (some d)) =>
        if n.typ h = tNull then
          match rv.v with
          | .slice arr _ => some (.done (.slice arr 0) none)
          | .nilSlice => some (.done .nilSlice none)
          | _ => some .panic -- reflect panics
        else if n.typ h = tArray then
          let ns := (kids h n).map (·.2)
          let fresh := List.replicate ns.length (U.zero (U.elem t))
          let arr? := match rv.v with
            | .slice arr _ => some (if arr.length < ns.length then fresh else arr)
            | .nilSlice => some fresh
            | _ => none -- reflect panics
          match arr? with
          | none => some .panic
          | some arr =>
            match decSlice (fun n v => decode U objs h fuel d n ⟨U.elem t, v, true⟩) ns 0 arr ns.length with
            | none => none
            | some none => some .panic
            | some (some (arr, len)) => some (.done (.slice arr len) none)
        else typeErr h n (tArray ||| tNull) rv
      | _ => some .panic -- not reached
    | .array r =>
      match objs[r]?, rv.v with
      | some (.arrayD size el (some d)), .array xs =>
        if xs.length = size then
          if n.typ h = tArray then
            match decArray (fun n v => decode U objs h fuel d n ⟨el, v, true⟩) (U.zero el) xs ((kids h n).map (·.2)) with
            | none => none
            | some none => some .panic
            | some (some xs) => some (.done (.array xs) none)
          else if n.typ h = tNull then some (.done (.array (List.replicate size (U.zero el))) none)
          else typeErr h n tArray rv
        else some .panic -- reflect panics
      | _, _ => some .panic -- reflect panics
    | .map r =>
      match objs[r]? with
      | some (.mapD t (some d)) =>
        if n.typ h = tNull then some (.done rv.v none)
        else if n.typ h = tObject then
          let kt := match U.base t with | .map kt _ => kt | _ => t
          decMap (fun n v => decode U objs h fuel d n ⟨U.elem t, v, true⟩) (U.zero (U.elem t)) (decide (kt = .string))
            (kids h n) rv.v
        else typeErr h n (tObject ||| tNull) rv
      | _ => some .panic -- not reached
    | .struct r =>
      match objs[r]? with
      | some (.struct t fs) =>
        if n.typ h = tNull then some (.done (U.zero t) none)
        else if n.typ h = tObject then decFields U (decode U objs h fuel) fs rv.t (kids h n) rv.v
        else typeErr h n (tObject ||| tNull) rv
      | _ => some .panic -- not reached

/-- `dec.Decode(x, n)` for `x` of dynamic type `t` and value `v`, as returned: decode.go:40-54 `typeDecoder`, :67-72, :81-87,
:374-382, :486-491. The result is the value of `x` afterwards, that is, what it points to. -/
def TypeDecoder.decode (U : Univ) (c : TypeDecoder) (fuel : Nat) (h : Heap) (n : Node) (t : Ty) (v : GV) : Option (Out GV) :=
  match c with
  | .njson => if U.impl t .unmarshaler then decMethod U .unmarshaler fuel h n t v else some (.done v (some .invalidValueType))
  | .json => if U.impl t .jsonUnmarshaler then decMethod U .jsonUnmarshaler fuel h n t v else some (.done v (some .invalidValueType))
  | .text => if U.impl t .textUnmarshaler then decMethod U .textUnmarshaler fuel h n t v else some (.done v (some .invalidValueType))
  | .iface =>
    match t, v with
    | .ptr t', .ptr _ =>
      if t' = .any then
        match toAny (getOf h (n.document h)) fuel n.id with
        | none => none
        | some (some x) => some (.done (.ptr x) none)
        | some none => some (.done (.ptr (toAnyRest (getOf h (n.document h)) n.id)) (some (.typeError (n.typ h) tAnyValue)))
      else some (.done v (some (.typeError (n.typ h) tAnyValue)))
    | .ptr t', _ => if t' = .any then some .panic else some (.done v (some (.typeError (n.typ h) tAnyValue)))
    | _, _ => some (.done v (some (.typeError (n.typ h) tAnyValue)))
  | .typ ty d objs =>
    if t = ty then
      match U.base t, v with
      | .ptr e, .ptr x =>
        match Unjson.decode U objs h fuel d n ⟨e, x, true⟩ with
        | some (.done x e) => some (.done (.ptr x) e)
        | r => r
      | .ptr _, .nilPtr =>
        if n.typ h = tNull then some (.done .nilPtr none)
        else some .panic -- `v.Set` on `reflect.ValueOf(x)`, which is not addressable
      | _, _ => some .panic -- not reached: `ty` is a pointer type
    else some (.done v (some .invalidValueType))

/-- `dec.Decode(x, n)`, `none` for the nil interface: decode.go:40-43 `typeDecoder.Decode`; the type assertions at :67, :82, :375 and
:487 fail. -/
def TypeDecoder.decodeArg (U : Univ) (c : TypeDecoder) (fuel : Nat) (h : Heap) (n : Node) (x : Option (Ty × GV)) : Option (Out (Option (Ty × GV))) :=
  match x with
  | none =>
    match c with
    | .iface => some (.done none (some (.typeError (n.typ h) tAnyValue)))
    | _ => some (.done none (some .invalidValueType))
  | some (t, v) =>
    match c.decode U fuel h n t v with
    | none => none
    | some .panic => some .panic
    | some (.done v e) => some (.done (some (t, v)) e)

/-- unjson.go:49-58 `UnmarshalFromNode` -/
def unmarshalFromNode (U : Univ) (fuel : Nat) (h : Heap) (n : Node) (x : Option (Ty × GV)) : Option (Out (Option (Ty × GV))) :=
  match x with
  | none => some (.done none (some .invalidValueType))
  | some (t, v) =>
    match newTypeDecoder U [] fuel t with
    | .diverge => none
    | .err e => some (.done x (some e))
    | .ok c =>
      match c.decode U fuel h n t v with
      | none => none
      | some .panic => some .panic
      | some (.done v e) => some (.done (some (t, v)) e)

/-- unjson.go:65-80 `UnmarshalFromString` (and `Unmarshal`, :40-42). `d` is the document from the pool (C38). What follows
the first value in the text is ignored. -/
def unmarshal (U : Univ) (fuel : Nat) (d : Doc) (s : Bytes) (x : Option (Ty × GV)) : Option (Out (Option (Ty × GV))) :=
  match x with
  | none => some (.done none (some .invalidValueType))
  | some (t, v) =>
    match newTypeDecoder U [] fuel t with
    | .diverge => none
    | .err e => some (.done x (some e))
    | .ok c =>
      match Heap.parse (fun _ => d) 0 s with
      | (h, n, .ok _ _) =>
        match c.decode U fuel h n t v with
        | none => none
        | some .panic => some .panic
        | some (.done v e) => some (.done (some (t, v)) e)
      | (_, _, .crash) => some .panic -- not reached (C16)
      | (_, _, _) => some (.done x (some .parse))

end Verif.Unjson
