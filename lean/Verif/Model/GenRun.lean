import Verif.Model.Gen

/-! # Model of the generated code: does it compile, and what does it do -/

namespace Verif.Gen
open Verif Verif.Float Verif.Njson Verif.Unjson

/-! ### What the compiler says -/

/-- `v.M()` for a variable `v`: the method is in the method set of the type or of the pointer to it -/
def callable (U : Univ) (t : Ty) (m : Meth) : Bool := U.impl t m || U.impl (.ptr t) m

/-- The field with number `i` can be selected: it exists, and it is exported or the struct type is declared in the package. -/
def canSelect (E : Env) (t : Ty) (i : Nat) : Bool :=
  let ok j := match (E.U.fields j)[i]? with
    | some f => f.exported || E.here j
    | none => false
  match E.U.base t with
  | .struct j => ok j
  | .ptr e =>
    match E.U.base e with
    | .struct j => ok j
    | _ => false
  | _ => false

/-- The selector `v.PATH` compiles. -/
def canReach (E : Env) : Ty → List Nat → Bool
  | _, [] => true
  | t, i :: is => canSelect E t i && (match fieldTy E.U t i with | some t' => canReach E t' is | none => false)

/-- A comparison with nil compiles. -/
def nilable : Ty → Bool
  | .ptr _ => true
  | .slice _ => true
  | .map _ _ => true
  | .iface _ _ => true
  | _ => false

def numeric : Ty → Bool
  | .int _ => true
  | .uint _ => true
  | .float _ => true
  | _ => false

/-- The condition compiles for a `v` of type `t`. -/
def Cond.compiles (U : Univ) (t : Ty) : Cond → Bool
  | .notNil => nilable (U.base t)
  | .nonEmpty => match U.base t with
    | .string => true
    | .slice _ => true
    | .map _ _ => true
    | .array _ _ => true
    | _ => false
  | .isTrue => U.base t = .bool
  | .notZero => numeric (U.base t)
  | .method name t' => t' = t && (U.omitMethod name t).isSome

/-- A text that stands for itself in an interpreted string literal. (A text with a backslash may compile and stand for something
else; that is not modelled.) -/
def litOk (s : Bytes) : Bool := s.all fun c => c != 34 && c != 92 && c != 10

/-- The block mentions `v`. A variable that is declared and not used is an error. -/
def ABlock.usesV : ABlock → Bool
  | .struct .nil => false
  | _ => true

mutual
/-- The block compiles when `v` has type `t`. -/
def ABlock.compiles (E : Env) : ABlock → Ty → Bool
  | .callAppend, t => callable E.U t .appender
  | .callJSON, t => callable E.U t .jsonMarshaler
  | .callText, t => callable E.U t .textMarshaler
  | .ptr b, t => nilable (E.U.base t) && b.compiles E t
  | .map kb b, t =>
    match E.U.base t with
    | .map k e => kb.compiles E k && kb.usesV && b.compiles E e && b.usesV
    | _ => false
  | .slice b, t =>
    match E.U.base t with
    | .slice e => b.compiles E e && b.usesV
    | _ => false
  | .struct fs, t => fs.compiles E t
  | .bool, t => E.U.base t = .bool
  | .raw, t => E.U.base t = .string
  | .str, t => t = .string -- a value of a defined type is not assignable to the parameter
  | .float, t => numeric (E.U.base t)
  | .uint, t => numeric (E.U.base t)
  | .int, t => numeric (E.U.base t)
  | .any, _ => false -- `append(out, data)` with a `data` of type []byte
def AFields.compiles (E : Env) : AFields → Ty → Bool
  | .nil, _ => true
  | .cons name path guards c b rest, t =>
    litOk name && canReach E t path &&
    guards.all (fun g => canReach E t g && (match pathTy E.U t g with | some t' => nilable (E.U.base t') | none => false)) &&
    (match pathTy E.U t path with
      | some t' => b.compiles E t' && (match c with
        | some c => c.compiles E.U t'
        | none => b.usesV)
      | none => false) &&
    rest.compiles E t
end

/-! ### What the code does -/

/-- The value of `v.PATH`; `none` is a panic. Pointers to structs are followed. -/
def getPath : GV → List Nat → Option GV
  | v, [] => some v
  | .struct fs, i :: is => match fs[i]? with
    | some x => getPath x is
    | none => none
  | .ptr (.struct fs), i :: is => match fs[i]? with
    | some x => getPath x is
    | none => none
  | _, _ :: _ => none

def GV.isNil : GV → Bool
  | .nilPtr => true
  | .nilSlice => true
  | .nilMap => true
  | .nilIface => true
  | _ => false

/-- `v != 0` -/
def GV.isZeroNum : GV → Bool
  | .int i => i == 0
  | .uint n => n == 0
  | .float (.num _ (.fin m _)) => m == 0
  | _ => false

/-- `len(v)` -/
def GV.len : GV → Nat
  | .str s => s.length
  | .slice _ n => n
  | .array xs => xs.length
  | .map es => es.length
  | _ => 0

def Cond.holds (U : Univ) (v : GV) : Cond → Bool
  | .notNil => !GV.isNil v
  | .nonEmpty => decide (0 < GV.len v)
  | .isTrue => match v with
    | .bool b => b
    | _ => false
  | .notZero => !GV.isZeroNum v
  | .method name t => match U.omitMethod name t with
    | some f => !f v
    | none => true

/-- The omit method panics. -/
def Cond.panics (U : Univ) (v : GV) : Cond → Bool
  | .method name t => U.omitPanics name t v
  | _ => false

/-- `v.G1 != nil && v.G2 != nil`; `none` is a panic -/
def guardsHold (v : GV) : List (List Nat) → Option Bool
  | [] => some true
  | g :: gs =>
    match getPath v g with
    | none => none
    | some x => if GV.isNil x then some false else guardsHold v gs

/-- Sequencing: `return out, err` and panics leave the method. -/
def next (r : Out Bytes) (f : Bytes → Out Bytes) : Out Bytes :=
  match r with
  | .done out none => f out
  | r => r

/-- `v.M()` for a `v` of static type `t`; a method of the pointer type gets `&v` -/
def callMethod (U : Univ) (m : Meth) (t : Ty) (v : GV) (out : Bytes) : Out Bytes :=
  if U.impl t m then encMethod U m out ⟨t, v, true⟩ else encMethod U m out ⟨.ptr t, .ptr v, true⟩

/-- `for i, v := range v`; `first` is `i == 0` -/
def runElems (rec : GV → Bytes → Out Bytes) : Bool → List GV → Bytes → Out Bytes
  | _, [], out => .done out none
  | first, x :: xs, out => next (rec x (if first then out else out ++ [44])) fun out => runElems rec false xs out

/-- `for k, v := range v`; `first` is `more == 0` -/
def runEntries (key elem : GV → Bytes → Out Bytes) : Bool → List (GV × GV) → Bytes → Out Bytes
  | first, [], out => .done (out ++ if first then [123, 125] else [125]) none
  | first, (k, x) :: es, out =>
    next (key k (out ++ [if first then 123 else 44, 34])) fun out =>
      next (elem x (out ++ [34, 58])) fun out => runEntries key elem false es out

mutual
/-- What a block does for a `v` whose static type is `t`. -/
def ABlock.run (U : Univ) : ABlock → Ty → GV → Bytes → Out Bytes
  | .callAppend, t, v, out => callMethod U .appender t v out
  | .callJSON, t, v, out => callMethod U .jsonMarshaler t v out
  | .callText, t, v, out => callMethod U .textMarshaler t v out
  | .ptr b, t, v, out => if GV.isNil v then .done (out ++ strNull) none else b.run U t v out
  | .map kb b, t, v, out =>
    match U.base t, v with
    | .map _ _, .nilMap => .done (out ++ [123, 125]) none
    | .map k e, .map es => runEntries (kb.run U k) (b.run U e) true es out
    | _, _ => .panic
  | .slice b, t, v, out =>
    match U.base t, v with
    | .slice _, .nilSlice => .done (out ++ [91, 93]) none
    | .slice e, .slice arr len => next (runElems (b.run U e) true (arr.take len) (out ++ [91])) fun out => .done (out ++ [93]) none
    | _, _ => .panic
  | .struct fs, t, v, out => fs.run U t v true out
  | .bool, _, v, out =>
    match v with
    | .bool b => .done (out ++ if b then strTrue else strFalse) none
    | _ => .panic
  | .raw, _, v, out =>
    match v with
    | .str s => .done (out ++ [34] ++ s ++ [34]) none
    | _ => .panic
  | .str, _, v, out =>
    match v with
    | .str s => .done (StrJson.appendEscaped (out ++ [34]) s false ++ [34]) none
    | _ => .panic
  | .float, _, v, out =>
    match v with
    | .float f => .done (NumJson.appendFloat out f 64 (U.fmtFloat f 64)) none
    | _ => .panic
  | .uint, _, v, out =>
    match v with
    | .uint n => .done (out ++ formatUint n) none
    | _ => .panic
  | .int, _, v, out =>
    match v with
    | .int i => .done (out ++ formatInt i) none
    | _ => .panic
  | .any, _, _, _ => .panic -- does not compile
/-- `first` is `more == 0` -/
def AFields.run (U : Univ) : AFields → Ty → GV → Bool → Bytes → Out Bytes
  | .nil, _, _, first, out => .done (out ++ if first then [123, 125] else [125]) none
  | .cons name path guards c b rest, t, v, first, out =>
    match guardsHold v guards with
    | none => .panic
    | some false => rest.run U t v first out
    | some true =>
      match getPath v path, pathTy U t path with
      | some x, some t' =>
        if (match c with | some c => c.panics U x | none => false) then .panic
        else if (match c with | some c => c.holds U x | none => true) then
          next (b.run U t' x (out ++ [if first then 123 else 44, 34] ++ name ++ [34, 58])) fun out => rest.run U t v false out
        else rest.run U t v first out
      | _, _ => .panic
end

/-! ### What the compiler says -/

/-- `P` of the type of `*r`, for an `r` of type `rt` -/
def elemTy (U : Univ) (rt : Ty) (P : Ty → Bool) : Bool :=
  match U.base rt with
  | .ptr t => P t
  | _ => false

/-- The block mentions `r`. A variable that is declared and not used is an error. -/
def UBlock.usesR : UBlock → Bool
  | .callNode => false
  | .struct .nil => false
  | _ => true

mutual
/-- The block compiles when `r` has type `rt`, and `*r` type `t`. -/
def UBlock.compiles (E : Env) : UBlock → Ty → Bool
  | .time, rt => elemTy E.U rt fun t => E.isTime t
  | .duration, _ => false -- there is no `njson.Number`, `njson.String`, `ToNumber`
  | .callNode, _ => false -- `v` is not declared, or something else; `r` is not used
  | .callJSON, rt => E.U.impl rt .jsonUnmarshaler -- an argument: it must have the method itself
  | .callText, rt => E.U.impl rt .textUnmarshaler
  | .slice e b, rt => elemTy E.U rt fun t => (E.U.base t = .slice e) && b.compiles E (.ptr e) && b.usesR
  | .ptr e b, rt => elemTy E.U rt fun t => (E.U.base t = .ptr e) && b.compiles E t && b.usesR
  | .map k e b, rt => elemTy E.U rt fun t =>
    (E.U.base t = .map k e) && b.compiles E (.ptr e) && b.usesR &&
    -- `values.Key()` is a `string`; it is assignable to `string` and to empty interface types
    (k = .string || (match E.U.base k with | .iface m _ => m = 0 | _ => false))
  | .struct cs, rt => cs.compiles E rt
  | .any, _ => false -- there is no `njson.AnyValue`
  | .bool t', rt => elemTy E.U rt fun t => t' = t && E.U.base t = .bool
  | .str t', rt => elemTy E.U rt fun t => t' = t && E.U.base t = .string
  | .raw t', rt => elemTy E.U rt fun t => t' = t && E.U.base t = .string
  | .int t', rt => elemTy E.U rt fun t => t' = t && numeric (E.U.base t)
  | .uint t', rt => elemTy E.U rt fun t => t' = t && numeric (E.U.base t)
  | .float t', rt => elemTy E.U rt fun t => t' = t && numeric (E.U.base t)
def UCases.compiles (E : Env) : UCases → Ty → Bool
  | .nil, _ => true
  | .cons name ensure path b rest, rt =>
    -- a raw string literal
    name.all (fun c => c != 96 && c != 13) &&
    ensure.all (fun p => canReach E rt p.1 && pathTy E.U rt p.1 = some (.ptr p.2)) &&
    canReach E rt path &&
    (match pathTy E.U rt path with
      | some t' => b.compiles E (.ptr t') && b.usesR
      | none => false) &&
    rest.compiles E rt
end

/-! ### What the code does -/

/-- `r.PATH = y`; pointers to structs are followed -/
def setPath (y : GV) : GV → List Nat → GV
  | _, [] => y
  | .struct fs, i :: is => .struct (match fs[i]? with
    | some x => fs.set i (setPath y x is)
    | none => fs)
  | .ptr (.struct fs), i :: is => .ptr (.struct (match fs[i]? with
    | some x => fs.set i (setPath y x is)
    | none => fs))
  | v, _ :: _ => v

/-- `if r.P == nil { r.P = new(E) }` for each; `none` is a panic -/
def ensureAll (U : Univ) : List (List Nat × Ty) → GV → Option GV
  | [], v => some v
  | (p, e) :: ps, v =>
    match getPath v p with
    | none => none
    | some .nilPtr => ensureAll U ps (setPath (.ptr (U.zero e)) v p)
    | some _ => ensureAll U ps v

/-- `cap(*r)`, `len(*r)` and the backing array -/
def sliceOf : GV → Option (List GV × Nat)
  | .nilSlice => some ([], 0)
  | .slice arr len => some (arr, len)
  | _ => none

/-- `for i := 0; values.Next() && 0 <= i && i < len(s); i++ { r := &s[i]; n := ...; BLOCK }` on the elements from `i` on -/
def runSlice (rec : GV → Node → Option (Out GV)) (len : Nat) : List Node → Nat → List GV → Option (Out (List GV))
  | [], _, arr => some (.done arr none)
  | n :: ns, i, arr =>
    if i < len then
      match arr[i]? with
      | none => some .panic
      | some x =>
        match rec x n with
        | none => none
        | some .panic => some .panic
        | some (.done y (some e)) => some (.done (arr.set i y) (some e))
        | some (.done y none) => runSlice rec len ns (i + 1) (arr.set i y)
    else some (.done arr none)

/-- `m[key] = val`; `mk` makes the key: it puts the string in an interface if keys are interfaces -/
def setMapKey (mk : Bytes → GV) (key : Bytes) (val : GV) : List (GV × GV) → List (GV × GV)
  | [] => [(mk key, val)]
  | (k, x) :: es => if isKey key k then (k, val) :: es else (k, x) :: setMapKey mk key val es
where
  isKey (key : Bytes) : GV → Bool
    | .str s => s = key
    | .iface .string (.str s) => s = key
    | _ => false

/-- The key of type `k` -/
def mapKey (U : Univ) (k : Ty) (key : Bytes) : GV :=
  match U.base k with
  | .iface _ _ => .iface .string (.str key)
  | _ => .str key

/-- `for values.Next() { var v E; BLOCK; m[values.Key()] = v }` -/
def runMap (rec : GV → Node → Option (Out GV)) (zero : GV) (mk : Bytes → GV) : List (Bytes × Node) → List (GV × GV) → Option (Out (List (GV × GV)))
  | [], es => some (.done es none)
  | (k, n) :: ns, es =>
    match rec zero n with
    | none => none
    | some .panic => some .panic
    | some (.done _ (some e)) => some (.done es (some e))
    | some (.done y none) => runMap rec zero mk ns (setMapKey mk k y es)

/-- `for values.Next() { switch values.Key() { CASES } }` -/
def runMembers (case : Bytes → GV → Node → Option (Out GV)) : List (Bytes × Node) → GV → Option (Out GV)
  | [], v => some (.done v none)
  | (k, n) :: ns, v =>
    match case k v n with
    | none => none
    | some .panic => some .panic
    | some (.done v (some e)) => some (.done v (some e))
    | some (.done v none) => runMembers case ns v

/-- `n.WrapUnmarshalJSON(r)` for an `r` that points to `v` -/
def callUnmarshal (U : Univ) (m : Meth) (fuel : Nat) (h : Heap) (n : Node) (t : Ty) (v : GV) : Option (Out GV) :=
  match decMethod U m fuel h n (.ptr t) (.ptr v) with
  | some (.done (.ptr y) e) => some (.done y e)
  | some (.done _ e) => some (.done v e) -- not reached: the method cannot change the pointer
  | r => r

/-- `return n.TypeError(want)` -/
def uTypeErr (h : Heap) (n : Node) (want : Typ) (v : GV) : Option (Out GV) := some (.done v (some (.typeError (n.typ h) want)))

mutual
/-- What a block does to the variable of type `t` with content `v` that `r` points to. `none`: the node has no finite tree. -/
def UBlock.run (E : Env) (h : Heap) (fuel : Nat) : UBlock → Ty → GV → Node → Option (Out GV)
  | .time, _, v, n =>
    match E.parseTime (n.raw h) with
    | some y => some (.done y none)
    | none => some (.done v (some .hook))
  | .duration, _, _, _ => some .panic -- does not compile
  | .callNode, _, _, _ => some .panic -- does not compile
  | .callJSON, t, v, n => callUnmarshal E.U .jsonUnmarshaler fuel h n t v
  | .callText, t, v, n => callUnmarshal E.U .textUnmarshaler fuel h n t v
  | .slice e b, _, v, n =>
    if n.typ h = tArray then
      let ns := (kids h n).map Prod.snd
      match sliceOf v with
      | none => some .panic
      | some (arr, len) =>
        if arr.length < ns.length then
          let len := len + ns.length
          match runSlice (b.run E h fuel e) len ns 0 (List.replicate len (E.U.zero e)) with
          | none => none
          | some .panic => some .panic
          | some (.done arr err) => some (.done (.slice arr len) err)
        else
          match v with
          | .nilSlice => some (.done .nilSlice none) -- no elements: `nil[:0]` is nil
          | _ =>
            match runSlice (b.run E h fuel e) ns.length ns 0 arr with
            | none => none
            | some .panic => some .panic
            | some (.done arr err) => some (.done (.slice arr ns.length) err)
    else if n.typ h = tNull then some (.done .nilSlice none)
    else uTypeErr h n (tArray ||| tNull) v
  | .ptr e b, _, v, n =>
    if n.typ h = tNull then some (.done .nilPtr none)
    else
      let x := match v with
        | .ptr x => x
        | _ => E.U.zero e
      match b.run E h fuel e x n with
      | none => none
      | some .panic => some .panic
      | some (.done y err) => some (.done (.ptr y) err)
  | .map k e b, _, v, n =>
    if n.typ h = tNull then some (.done .nilMap none)
    else if n.typ h = tObject then
      let es := match v with
        | .map es => es
        | _ => []
      match runMap (b.run E h fuel e) (E.U.zero e) (mapKey E.U k) (kids h n) es with
      | none => none
      | some .panic => some .panic
      | some (.done es err) => some (.done (.map es) err)
    else uTypeErr h n (tObject ||| tNull) v
  | .struct cs, t, v, n =>
    if n.typ h = tObject then runMembers (cs.run E h fuel t) (kids h n) v
    else uTypeErr h n tObject v
  | .any, _, _, _ => some .panic -- does not compile
  | .bool _, _, v, n => if (n.toBool h).2 then some (.done (.bool (n.toBool h).1) none) else uTypeErr h n tBoolean v
  | .str _, _, _, n => some (.done (.str (n.unescaped h)) none)
  | .raw _, _, _, n => some (.done (.str (n.raw h)) none)
  | .int t, _, v, n =>
    if (NumJson.toInt h n).2 then
      match E.U.base t with
      | .int k => some (.done (.int (wrapInt k (NumJson.toInt h n).1)) none)
      | _ => some .panic
    else uTypeErr h n tNumber v
  | .uint t, _, v, n =>
    if (NumJson.toUint h n).2 then
      match E.U.base t with
      | .uint k => some (.done (.uint (wrapUint k (NumJson.toUint h n).1.toNat)) none)
      | _ => some .panic
    else uTypeErr h n tNumber v
  | .float t, _, v, n =>
    if (NumJson.toFloat h n).2 then
      match E.U.base t with
      | .float k => some (.done (.float (setFloat k (NumJson.toFloat h n).1)) none)
      | _ => some .panic
    else uTypeErr h n tNumber v
/-- The case for a member with the given key -/
def UCases.run (E : Env) (h : Heap) (fuel : Nat) : UCases → Ty → Bytes → GV → Node → Option (Out GV)
  | .nil, _, _, v, _ => some (.done v none)
  | .cons name ensure path b rest, t, key, v, n =>
    if key = name then
      match ensureAll E.U ensure v with
      | none => some .panic
      | some v =>
        match getPath v path, pathTy E.U t path with
        | some x, some t' =>
          match b.run E h fuel t' x n with
          | none => none
          | some .panic => some .panic
          | some (.done y err) => some (.done (setPath y v path) err)
        | _, _ => some .panic
    else rest.run E h fuel t key v n
end

/-! ## The methods -/

/-- A method can be declared: the type is a defined one, and no pointer or interface. -/
def canHaveMethod (U : Univ) (t : Ty) : Bool :=
  match t with
  | .struct _ => true
  | .named _ => match U.base t with
    | .ptr _ => false
    | .iface _ _ => false
    | _ => true
  | _ => false

/-- append.go:23-42 `Appender`: the method for type `t` compiles; in it `v` is the receiver, a pointer. -/
def appenderCompiles (E : Env) (b : ABlock) (t : Ty) : Bool := canHaveMethod E.U t && b.compiles E (.ptr t)

/-- append.go:31-40: the generated `AppendJSON`. `none` is an endless recursion: `v.AppendJSON` is then the method itself. -/
def runAppender (U : Univ) (o : GenOptions) (b : ABlock) (t : Ty) (recv : GV) (out : Bytes) : Option (Out Bytes) :=
  if GV.isNil recv then some (.done (out ++ strNull) none)
  else
    match b with
    | .callAppend => if o.selfName then none else some (b.run U (.ptr t) recv out)
    | b => some (b.run U (.ptr t) recv out)

/-- unmarshal.go:11-38 `Unmarshaler`: the method for type `t` compiles; `r` is the receiver. -/
def unmarshalerCompiles (E : Env) (b : UBlock) (t : Ty) : Bool := canHaveMethod E.U t && b.compiles E (.ptr t) && b.usesR

/-- unmarshal.go:18-37: the generated `UnmarshalNodeJSON` on a receiver that points to `v` -/
def runUnmarshaler (E : Env) (h : Heap) (fuel : Nat) (b : UBlock) (t : Ty) (v : GV) (n : Node) : Option (Out GV) :=
  if n.typ h &&& tAnyValue = 0 then uTypeErr h n tAnyValue v
  else if n.typ h = tNull then some (.done v none)
  else b.run E h fuel t v n

end Verif.Gen
