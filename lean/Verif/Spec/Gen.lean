import Verif.Model.GenRun
import Verif.Spec.UnDecode

/-!
# Specification of generated code

In terms of types, values and JSON trees only; no code blocks, no documents, no fuel. `parseField` (the reading of one field; `Takes` says
what it does) and `pathTy`, `canReach` (Go selectors) are shared with the model.
-/

namespace Verif.Gen
open Verif Verif.Float Verif.Spec Verif.Njson Verif.Unjson

/-! ## The package -/

/-- What the Go specification and the documentation of `go/types` guarantee: the path of a field leads to a field of its type; embedded
pointers are not of a defined pointer type; a pointer type has the methods of its element type; a pointer to a pointer
and a defined pointer type have no methods. -/
structure Env.Ok (E : Env) : Prop where
  univ : E.U.Ok
  path : ∀ j f, f ∈ (E.fields j).flatten → pathTy E.U (.struct j) f.path = some f.typ
  nonempty : ∀ j f, f ∈ (E.fields j).flatten → f.path ≠ []
  embeds : ∀ j f pre post t e, f ∈ (E.fields j).flatten → f.path = pre ++ post → post ≠ [] → pathTy E.U (.struct j) pre = some t →
    E.U.base t = .ptr e → t = .ptr e
  methods : ∀ t m, E.U.impl t m = true → (∀ m' i, E.U.base t ≠ .iface m' i) → (∀ e, E.U.base t ≠ .ptr e) → E.U.impl (.ptr t) m = true
  ptrPtr : ∀ t e m, E.U.base t = .ptr e → E.U.impl (.ptr t) m = false
  namedPtr : ∀ i e m, E.U.under i = .ptr e → E.U.impl (.named i) m = false

/-! ## Which fields -/

/-- A field that takes part: its name in JSON and the parameters of its tag. -/
structure Pick where
  name : Bytes
  params : List Bytes
  field : GField

/-- Field `f` takes part, under a name and with parameters: it is not blank, the options let it through, and its tag does not say "-". The
name is the one in the tag, else what the options make of the name of the field, else the name of the field. -/
structure Takes (E : Env) (o : GenOptions) (f : GField) (name : Bytes) (params : List Bytes) : Prop where
  notBlank : f.name ≠ b!"_"
  chosen : o.matchField f.name = true
  exported : o.onlyExported = true → f.exported = true
  tag : ∃ key n ps, (o.tagKey = [] ∧ key = b!"json" ∨ o.tagKey ≠ [] ∧ key = o.tagKey) ∧
    (E.parseTag f.tag key = some (n, ps) ∧ n ≠ b!"-" ∨ E.parseTag f.tag key = none ∧ o.onlyTagged = false ∧ n = [] ∧ ps = []) ∧
    (n ≠ [] ∧ name = n ∨ n = [] ∧ o.fieldName f.name ≠ [] ∧ name = o.fieldName f.name ∨ n = [] ∧ o.fieldName f.name = [] ∧ name = f.name) ∧
    (o.forceOmitEmpty = false ∧ params = ps ∨ o.forceOmitEmpty = true ∧ params = b!"omitempty" :: ps)

/-- The fields that are not left out. -/
def eligible (E : Env) (o : GenOptions) (fs : List GField) : List Pick :=
  fs.filterMap fun f => (parseField E o f).map fun p => ⟨p.1, p.2, f⟩

/-- The first field of every name. -/
def firsts : List Pick → List Pick
  | [] => []
  | p :: ps => p :: (firsts ps).filter fun q => q.name ≠ p.name

/-- The fields that `AppendJSON` writes, in this order. -/
def appendPicks (E : Env) (o : GenOptions) (j : Nat) : List Pick := firsts (eligible E o (sortFields (E.fields j).flatten))

/-! ## Which types -/

/-- The type has a method that marshals. -/
def Marshals (U : Univ) (t : Ty) : Prop := ¬ NoMarshal U t

/-- The types on which the generator of `AppendJSON` terminates: those that are not recursive, up to types with methods. -/
inductive AEnds (E : Env) (o : GenOptions) : Ty → Prop
  | method {t} : Marshals E.U t → AEnds E o t
  | leaf {t} : (∀ e, E.U.base t ≠ .ptr e) → (∀ e, E.U.base t ≠ .slice e) → (∀ k e, E.U.base t ≠ .map k e) → (∀ j, E.U.base t ≠ .struct j) →
      AEnds E o t
  | ptr {t e} : E.U.base t = .ptr e → AEnds E o e → AEnds E o t
  | slice {t e} : E.U.base t = .slice e → AEnds E o e → AEnds E o t
  | map {t k e} : E.U.base t = .map k e → AEnds E o k → AEnds E o e → AEnds E o t
  | struct {t j} : E.U.base t = .struct j → (∀ p ∈ appendPicks E o j, AEnds E o p.field.typ) → AEnds E o t

/-- A field with the parameter omitempty can be generated: it is not a struct, unless it has the omit method. -/
def OmitOk (E : Env) (o : GenOptions) (p : Pick) : Prop :=
  b!"omitempty" ∈ p.params → (E.U.omitMethod o.omitMethod p.field.typ).isSome = true ∨ ∀ j, E.U.base p.field.typ ≠ .struct j

/-- The types for which `AppendJSON` is generated: finite types of booleans, numbers, strings, empty interfaces, pointers,
slices, maps, structs and types with methods. -/
inductive ASupported (E : Env) (o : GenOptions) : Ty → Prop
  | method {t} : Marshals E.U t → ASupported E o t
  | bool {t} : E.U.base t = .bool → ASupported E o t
  | string {t} : E.U.base t = .string → ASupported E o t
  | int {t k} : E.U.base t = .int k → ASupported E o t
  | uint {t k} : E.U.base t = .uint k → ASupported E o t
  | float {t k} : E.U.base t = .float k → ASupported E o t
  | any {t i} : E.U.base t = .iface 0 i → ASupported E o t
  | ptr {t e} : E.U.base t = .ptr e → ASupported E o e → ASupported E o t
  | slice {t e} : E.U.base t = .slice e → ASupported E o e → ASupported E o t
  | map {t k e} : E.U.base t = .map k e → ASupported E o k → ASupported E o e → ASupported E o t
  | struct {t j} : E.U.base t = .struct j → (∀ p ∈ appendPicks E o j, ASupported E o p.field.typ) →
      (∀ p ∈ appendPicks E o j, OmitOk E o p) → ASupported E o t

/-- The code for the type uses its variable: it is not a struct without fields that take part. -/
def NotVoid (E : Env) (o : GenOptions) (t : Ty) : Prop :=
  Marshals E.U t ∨ ∀ j, E.U.base t = .struct j → appendPicks E o j ≠ []

/-- A pointer, or a pointer to a pointer and so on, to a struct without fields that take part. -/
inductive VoidPtr (E : Env) (o : GenOptions) : Ty → Prop
  | struct {t j} : E.U.base t = .ptr (.struct j) → NoMarshal E.U t → NoMarshal E.U (.struct j) → appendPicks E o j = [] → VoidPtr E o t
  | ptr {t e} : E.U.base t = .ptr e → NoMarshal E.U t → VoidPtr E o e → VoidPtr E o t

/-- The code around the block for a field compiles: the name is harmless in a string literal, the field is accessible, and its
value is used. -/
def FieldOk (E : Env) (o : GenOptions) (j : Nat) (p : Pick) : Prop :=
  litOk p.name = true ∧ canReach E (.struct j) p.field.path = true ∧ (NotVoid E o p.field.typ ∨ b!"omitempty" ∈ p.params)

/-- The types whose generated code compiles: a string that is not raw must have type `string` itself, a pointer must point to
a struct or have methods, there are no interfaces without methods, and the fields are accessible and have harmless names. -/
inductive ACompiles (E : Env) (o : GenOptions) : List Bytes → Ty → Prop
  | method {ps t} : Marshals E.U t → ACompiles E o ps t
  | bool {ps t} : E.U.base t = .bool → ACompiles E o ps t
  | string {ps} : ACompiles E o ps .string
  | raw {ps t} : E.U.base t = .string → b!"raw" ∈ ps → ACompiles E o ps t
  | int {ps t k} : E.U.base t = .int k → ACompiles E o ps t
  | uint {ps t k} : E.U.base t = .uint k → ACompiles E o ps t
  | float {ps t k} : E.U.base t = .float k → ACompiles E o ps t
  | ptr {ps t j} : E.U.base t = .ptr (.struct j) → NoMarshal E.U (.struct j) → ACompiles E o ps (.struct j) → ACompiles E o ps t
  | slice {ps t e} : E.U.base t = .slice e → ACompiles E o ps e → NotVoid E o e → ACompiles E o ps t
  | map {ps t k e} : E.U.base t = .map k e → ACompiles E o [] k → NotVoid E o k → ACompiles E o ps e → NotVoid E o e → ACompiles E o ps t
  | ptrVoid {ps t e} : E.U.base t = .ptr e → VoidPtr E o e → ACompiles E o ps t
  | struct {ps j} : (∀ p ∈ appendPicks E o j, ACompiles E o p.params p.field.typ) → (∀ p ∈ appendPicks E o j, FieldOk E o j p) →
      ACompiles E o ps (.struct j)

/-! ## What AppendJSON writes -/

/-- The value of a field; `none` when the field or an embedded struct on the way to it is a nil pointer. -/
def look : GV → List Nat → Option GV
  | .nilPtr, [] => none
  | v, [] => some v
  | .struct fs, i :: is => match fs[i]? with
    | some x => look x is
    | none => none
  | .ptr (.struct fs), i :: is => match fs[i]? with
    | some x => look x is
    | none => none
  | _, _ :: _ => none

/-- Whether a value is left out by the parameter omitempty: what its omit method says; without one, whether it is empty, for
the kinds for which the generator knows that. -/
def omitted (E : Env) (o : GenOptions) (t : Ty) (v : GV) : Bool :=
  match E.U.omitMethod o.omitMethod t with
  | some f => f v
  | none =>
    match E.U.base t with
    | .array _ _ => false
    | .other => false
    | .iface m _ => m == 0 && v.empty
    | _ => v.empty

/-- The text of a float, in the shortest form that identifies a float64. -/
def floatText64 (U : Univ) (f : Flt) : Bytes := NumJson.appendFloat [] f 64 (U.fmtFloat f 64)

/-- The text of a map key that is a boolean or a number. -/
def keyText (U : Univ) : GV → Option Bytes
  | .bool b => some (if b then b!"true" else b!"false")
  | .int i => some (formatInt i)
  | .uint n => some (formatUint n)
  | .float f => some (floatText64 U f)
  | _ => none

/-- The tree of an RFC 8259 text. -/
def RfcTree (j : JVal) : Prop := AllRaw RfcBody RfcBody RfcNumber j

mutual
/-- `GEnc E o ps t v j`: the code generated for type `t` with tag parameters `ps` writes value `v` as the tree `j`, if no method panics. -/
inductive GEnc (E : Env) (o : GenOptions) : List Bytes → Ty → GV → JVal → Prop
  | appender {ps t v j} : E.U.impl t .appender = true → RfcTree j → (∀ out, E.U.appendJSON t v out = (out ++ j.ser, false)) → GEnc E o ps t v j
  | json {ps t v j} : E.U.impl t .appender = false → E.U.impl t .jsonMarshaler = true → RfcTree j → E.U.marshal .jsonMarshaler t v = some j.ser →
      GEnc E o ps t v j
  | text {ps t v s} : E.U.impl t .appender = false → E.U.impl t .jsonMarshaler = false → E.U.impl t .textMarshaler = true →
      E.U.marshal .textMarshaler t v = some s → GEnc E o ps t v (.str s)
  | bool {ps t b} : NoMarshal E.U t → E.U.base t = .bool → GEnc E o ps t (.bool b) (.bool b)
  | int {ps t k i} : NoMarshal E.U t → E.U.base t = .int k → GEnc E o ps t (.int i) (.num (formatInt i))
  | uint {ps t k n} : NoMarshal E.U t → E.U.base t = .uint k → GEnc E o ps t (.uint n) (.num (formatUint n))
  | float {ps t k f} : NoMarshal E.U t → E.U.base t = .float k → GEnc E o ps t (.float f) (.num (floatText64 E.U f))
  | str {ps t s} : NoMarshal E.U t → E.U.base t = .string → b!"raw" ∉ ps → GEnc E o ps t (.str s) (.str (StrJson.escaped s false false))
  | raw {ps t s} : NoMarshal E.U t → E.U.base t = .string → b!"raw" ∈ ps → GEnc E o ps t (.str s) (.str s)
  | nilPtr {ps t e} : NoMarshal E.U t → E.U.base t = .ptr e → GEnc E o ps t .nilPtr .null
  | ptr {ps t e v j} : NoMarshal E.U t → E.U.base t = .ptr e → (∀ e', E.U.base e ≠ .ptr e') → GEnc E o ps e v j → GEnc E o ps t (.ptr v) j
  /-- a pointer to a pointer, which compiles only if there is a struct without fields behind it -/
  | ptrVoid {ps t e v} : NoMarshal E.U t → E.U.base t = .ptr e → VoidPtr E o e → GEnc E o ps t (.ptr v) (.obj [])
  | nilSlice {ps t e} : NoMarshal E.U t → E.U.base t = .slice e → GEnc E o ps t .nilSlice (.arr [])
  | slice {ps t e arr len js} : NoMarshal E.U t → E.U.base t = .slice e → GEncElems E o ps e (arr.take len) js →
      GEnc E o ps t (.slice arr len) (.arr js)
  | nilMap {ps t k e} : NoMarshal E.U t → E.U.base t = .map k e → GEnc E o ps t .nilMap (.obj [])
  | map {ps t k e es ms} : NoMarshal E.U t → E.U.base t = .map k e → NoMarshal E.U k ∨ es = [] → GEncEntries E o ps e es ms →
      GEnc E o ps t (.map es) (.obj ms)
  | struct {ps j fs ms} : NoMarshal E.U (.struct j) → GEncFields E o (.struct fs) (appendPicks E o j) ms →
      GEnc E o ps (.struct j) (.struct fs) (.obj ms)
inductive GEncElems (E : Env) (o : GenOptions) : List Bytes → Ty → List GV → List JVal → Prop
  | nil {ps t} : GEncElems E o ps t [] []
  | cons {ps t x xs j js} : GEnc E o ps t x j → GEncElems E o ps t xs js → GEncElems E o ps t (x :: xs) (j :: js)
inductive GEncEntries (E : Env) (o : GenOptions) : List Bytes → Ty → List (GV × GV) → List (Bytes × JVal) → Prop
  | nil {ps t} : GEncEntries E o ps t [] []
  | cons {ps t k s x es j ms} : keyText E.U k = some s → GEnc E o ps t x j → GEncEntries E o ps t es ms →
      GEncEntries E o ps t ((k, x) :: es) ((s, j) :: ms)
inductive GEncFields (E : Env) (o : GenOptions) : GV → List Pick → List (Bytes × JVal) → Prop
  | nil {v} : GEncFields E o v [] []
  /-- a field that is a nil pointer, or below one -/
  | absent {v p ps ms} : look v p.field.path = none → GEncFields E o v ps ms → GEncFields E o v (p :: ps) ms
  | omitted {v p ps ms x} : look v p.field.path = some x → b!"omitempty" ∈ p.params → omitted E o p.field.typ x = true →
      GEncFields E o v ps ms → GEncFields E o v (p :: ps) ms
  | present {v p ps ms x j} : look v p.field.path = some x → (b!"omitempty" ∈ p.params → omitted E o p.field.typ x = false) →
      GEnc E o p.params p.field.typ x j → GEncFields E o v ps ms → GEncFields E o v (p :: ps) ((p.name, j) :: ms)
end

/-- What is asked of marshal methods, which may panic: they belong to types that are not interfaces; `AppendJSON` panics or not whatever was there
before, and when it does not, it returns an error or appends an RFC 8259 text, the same whatever was there before; `MarshalJSON` returns an error or an
RFC 8259 text. -/
structure Hooks (U : Univ) : Prop where
  iface : ∀ t m i, U.base t = .iface m i → NoMarshal U t
  same : ∀ t v out, U.panics .appender t v out = U.panics .appender t v []
  append : ∀ t v, U.impl t .appender = true → U.panics .appender t v [] = false →
    (∃ j : JVal, RfcTree j ∧ ∀ out, U.appendJSON t v out = (out ++ j.ser, false)) ∨ ∀ out, ∃ out', U.appendJSON t v out = (out', true)
  json : ∀ t v s, U.impl t .jsonMarshaler = true → U.panics .jsonMarshaler t v [] = false → U.marshal .jsonMarshaler t v = some s →
    ∃ j : JVal, RfcTree j ∧ s = j.ser

/-- What a method can do instead of returning. -/
inductive Stop
  | error
  | panic

/-- A call of a marshal method panics, or returns an error. -/
def CallStops (U : Univ) (m : Meth) (t : Ty) (v : GV) : Stop → Prop
  | .panic => U.panics m t v [] = true
  | .error => U.panics m t v [] = false ∧ if m = .appender then ∀ out, (U.appendJSON t v out).2 = true else U.marshal m t v = none

/-- A marshal method that is called to write a value of the type returns an error, or a marshal or omit method that is called panics. (If there are
several such methods, the first that is called decides.) -/
inductive GStops (E : Env) (o : GenOptions) : Stop → Ty → GV → Prop
  | appender {s t v} : E.U.impl t .appender = true → CallStops E.U .appender t v s → GStops E o s t v
  | json {s t v} : E.U.impl t .appender = false → E.U.impl t .jsonMarshaler = true → CallStops E.U .jsonMarshaler t v s → GStops E o s t v
  | text {s t v} : E.U.impl t .appender = false → E.U.impl t .jsonMarshaler = false → E.U.impl t .textMarshaler = true →
      CallStops E.U .textMarshaler t v s → GStops E o s t v
  | ptr {s t e v} : NoMarshal E.U t → E.U.base t = .ptr e → (∀ e', E.U.base e ≠ .ptr e') → GStops E o s e v → GStops E o s t (.ptr v)
  | slice {s t e arr len x} : NoMarshal E.U t → E.U.base t = .slice e → x ∈ arr.take len → GStops E o s e x → GStops E o s t (.slice arr len)
  | map {s t k e es p} : NoMarshal E.U t → E.U.base t = .map k e → p ∈ es → GStops E o s e p.2 → GStops E o s t (.map es)
  | struct {s j fs p x} : NoMarshal E.U (.struct j) → p ∈ appendPicks E o j → look (.struct fs) p.field.path = some x →
      (b!"omitempty" ∈ p.params → omitted E o p.field.typ x = false) → GStops E o s p.field.typ x → GStops E o s (.struct j) (.struct fs)
  /-- an omit method panics -/
  | omits {j fs p x} : NoMarshal E.U (.struct j) → p ∈ appendPicks E o j → look (.struct fs) p.field.path = some x → b!"omitempty" ∈ p.params →
      (E.U.omitMethod o.omitMethod p.field.typ).isSome = true → E.U.omitPanics o.omitMethod p.field.typ x = true →
      GStops E o .panic (.struct j) (.struct fs)

/-- A marshal method that is called to write a value of the type returns an error. -/
abbrev GFails (E : Env) (o : GenOptions) (t : Ty) (v : GV) : Prop := GStops E o .error t v

/-- A marshal or omit method that is called to write a value of the type panics. -/
abbrev GPanics (E : Env) (o : GenOptions) (t : Ty) (v : GV) : Prop := GStops E o .panic t v

/-- Every map that is written and is not empty has keys that are booleans or numbers, of types without methods. -/
inductive NumKeys (E : Env) (o : GenOptions) : Ty → GV → Prop
  | method {t v} : Marshals E.U t → NumKeys E o t v
  | leaf {t v} : (∀ e, E.U.base t ≠ .ptr e) → (∀ e, E.U.base t ≠ .slice e) → (∀ k e, E.U.base t ≠ .map k e) → (∀ j, E.U.base t ≠ .struct j) →
      NumKeys E o t v
  | nilPtr {t} : NumKeys E o t .nilPtr
  | ptr {t e v} : E.U.base t = .ptr e → NumKeys E o e v → NumKeys E o t (.ptr v)
  | nilSlice {t} : NumKeys E o t .nilSlice
  | slice {t e arr len} : E.U.base t = .slice e → (∀ x ∈ arr.take len, NumKeys E o e x) → NumKeys E o t (.slice arr len)
  | nilMap {t} : NumKeys E o t .nilMap
  | map {t k e es} : E.U.base t = .map k e → NoMarshal E.U k ∨ es = [] → (∀ p ∈ es, (keyText E.U p.1).isSome = true) →
      (∀ p ∈ es, NumKeys E o e p.2) → NumKeys E o t (.map es)
  | struct {j fs} : (∀ p ∈ appendPicks E o j, ∀ x, look (.struct fs) p.field.path = some x → NumKeys E o p.field.typ x) →
      NumKeys E o (.struct j) (.struct fs)

/-- What is documented of strconv.AppendFloat with bit size 64: it prints a decimal numeral, in exponent format with the letter
e, one sign and at least two digits; "+Inf", "-Inf" and "NaN" for the others. -/
structure Floats64 (U : Univ) : Prop where
  plain : ∀ neg m e, ∃ x : NumText, x.Ok ∧ RfcInt x.ip ∧ x.ex = none ∧ U.fmtFloat (.num neg (.fin m e)) 64 102 = x.text
  exp : ∀ neg m e, ∃ (x : NumText) (sg : UInt8) (ds : Bytes), x.Ok ∧ RfcInt x.ip ∧
    x.ex = some (101, [sg], ds) ∧ 2 ≤ ds.length ∧ U.fmtFloat (.num neg (.fin m e)) 64 101 = x.text
  inf : ∀ neg c, U.fmtFloat (.num neg .inf) 64 c = if neg then b!"-Inf" else b!"+Inf"
  nan : ∀ c, U.fmtFloat .nan 64 c = b!"NaN"


/-- Field names need no escaping, and no field is raw. -/
def PlainNames (E : Env) (o : GenOptions) : Prop := ∀ j, ∀ p ∈ appendPicks E o j, RfcBody p.name ∧ b!"raw" ∉ p.params

/-- `MarshalText` methods return text that needs no escaping. -/
def PlainTexts (U : Univ) : Prop := ∀ t v s, U.impl t .textMarshaler = true → U.marshal .textMarshaler t v = some s → RfcBody s

/-- A finite float. -/
def Finite (f : Flt) : Prop := ∃ neg m e, f = .num neg (.fin m e)

/-- Every float in a value, map keys included, is finite. -/
inductive AllFinite : GV → Prop
  | bool {b} : AllFinite (.bool b)
  | int {i} : AllFinite (.int i)
  | uint {n} : AllFinite (.uint n)
  | float {f} : Finite f → AllFinite (.float f)
  | str {s} : AllFinite (.str s)
  | nilPtr : AllFinite .nilPtr
  | ptr {v} : AllFinite v → AllFinite (.ptr v)
  | nilSlice : AllFinite .nilSlice
  | slice {arr len} : (∀ x ∈ arr.take len, AllFinite x) → AllFinite (.slice arr len)
  | array {xs} : (∀ x ∈ xs, AllFinite x) → AllFinite (.array xs)
  | nilMap : AllFinite .nilMap
  | map {es} : (∀ p ∈ es, AllFinite p.1) → (∀ p ∈ es, AllFinite p.2) → AllFinite (.map es)
  | nilIface : AllFinite .nilIface
  | iface {t v} : AllFinite v → AllFinite (.iface t v)
  | struct {fs} : (∀ x ∈ fs, AllFinite x) → AllFinite (.struct fs)
  | opaque : AllFinite .opaque

end Verif.Gen
