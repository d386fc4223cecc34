import Verif.Spec.Unjson

/-!
# Specification: what decoding a JSON tree into a Go variable does

In terms of types, values and trees only; no codecs, no store, no documents, no fuel.
-/

namespace Verif.Unjson
open Verif Verif.Float Verif.Spec Verif.Njson

/-- The JSON type of a tree. -/
def jtyp : JVal → Typ
  | .null => tNull
  | .bool _ => tBoolean
  | .num _ => tNumber
  | .str _ => tString
  | .arr _ => tArray
  | .obj _ => tObject

/-- The text of a leaf, without quotes. -/
def jraw : JVal → Bytes
  | .null => b!"null"
  | .bool true => b!"true"
  | .bool false => b!"false"
  | .num raw => raw
  | .str raw => raw
  | .arr _ => []
  | .obj _ => []

/-- `m[key] = val`: replace the entry with the key or add one. -/
def setKey (key : Bytes) (val : GV) : List (GV × GV) → List (GV × GV)
  | [] => [(.str key, val)]
  | (k, x) :: es => (match k with
    | .str s => if s = key then (k, val) :: es else (k, x) :: setKey key val es
    | _ => (k, x) :: setKey key val es)

mutual
/-- A tree as a value of type `interface{}`; `none` when a number in it does not parse. -/
def anyOf : JVal → Option GV
  | .null => some .nilIface
  | .bool b => some (.iface .bool (.bool b))
  | .num raw =>
    match NumJson.parseFloat raw with
    | .nan => none
    | f => some (.iface (.float .b64) (.float f))
  | .str raw => some (.iface .string (.str (StrJson.unescaped raw)))
  | .arr xs => (anyElems xs).map fun gs => .iface (.slice .any) (.slice gs gs.length)
  | .obj ms => (anyMembers ms []).map fun es => .iface (.map .string .any) (.map es)
def anyElems : List JVal → Option (List GV)
  | [] => some []
  | x :: xs =>
    match anyOf x, anyElems xs with
    | some g, some gs => some (g :: gs)
    | _, _ => none
/-- The members of an object added to a map; a later member replaces an earlier one. -/
def anyMembers : List (Bytes × JVal) → List (GV × GV) → Option (List (GV × GV))
  | [], es => some es
  | (k, x) :: ms, es =>
    match anyOf x with
    | some g => anyMembers ms (setKey k g es)
    | none => none
end

/-- `v` is a value of type `t`. -/
inductive HasTy (U : Univ) : Ty → GV → Prop
  | bool {t b} : U.base t = .bool → HasTy U t (.bool b)
  | int {t k i} : U.base t = .int k → -(2 ^ (k.bits - 1) : Int) ≤ i → i < 2 ^ (k.bits - 1) → HasTy U t (.int i)
  | uint {t k n} : U.base t = .uint k → n < 2 ^ k.bits → HasTy U t (.uint n)
  | float {t k f} : U.base t = .float k → HasTy U t (.float f)
  | str {t s} : U.base t = .string → HasTy U t (.str s)
  | nilPtr {t e} : U.base t = .ptr e → HasTy U t .nilPtr
  | ptr {t e v} : U.base t = .ptr e → HasTy U e v → HasTy U t (.ptr v)
  | nilSlice {t e} : U.base t = .slice e → HasTy U t .nilSlice
  | slice {t e arr len} : U.base t = .slice e → len ≤ arr.length → (∀ x ∈ arr, HasTy U e x) → HasTy U t (.slice arr len)
  | array {t n e xs} : U.base t = .array n e → xs.length = n → (∀ x ∈ xs, HasTy U e x) → HasTy U t (.array xs)
  | nilMap {t k e} : U.base t = .map k e → HasTy U t .nilMap
  | map {t k e es} : U.base t = .map k e → (∀ p ∈ es, HasTy U k p.1) → (∀ p ∈ es, HasTy U e p.2) → HasTy U t (.map es)
  | nilIface {t m i} : U.base t = .iface m i → HasTy U t .nilIface
  | iface {t m i t' v} : U.base t = .iface m i → HasTy U t' v → HasTy U t (.iface t' v)
  | struct {t j fs} : U.base t = .struct j → fs.length = (U.fields j).length →
      (∀ (i : Nat) f v, (U.fields j)[i]? = some f → fs[i]? = some v → HasTy U f.typ v) → HasTy U t (.struct fs)
  | opaque {t} : U.base t = .other → HasTy U t .opaque

/-- The types of which values of a type are made, up to interfaces. -/
inductive Comp (U : Univ) : Ty → Ty → Prop
  | refl {t} : Comp U t t
  | ptr {t e t'} : U.base t = .ptr e → Comp U e t' → Comp U t t'
  | slice {t e t'} : U.base t = .slice e → Comp U e t' → Comp U t t'
  | array {t n e t'} : U.base t = .array n e → Comp U e t' → Comp U t t'
  | map {t k e t'} : U.base t = .map k e → Comp U e t' → Comp U t t'
  | field {t j f t'} : U.base t = .struct j → f ∈ U.fields j → f.exported = true → Comp U f.typ t' → Comp U t t'

/-- A type without methods that unmarshal. -/
def NoUnmarshal (U : Univ) (t : Ty) : Prop :=
  U.impl t .unmarshaler = false ∧ U.impl t .jsonUnmarshaler = false ∧ U.impl t .textUnmarshaler = false

/-- A type that is made of types without unmarshal methods. -/
def PlainTy (U : Univ) (t : Ty) : Prop := ∀ t', Comp U t t' → NoUnmarshal U t'

/-- The integer stored for a numeral in an integer variable: what package numjson reads, else what strconv does. -/
def readInt (raw : Bytes) : Option Int := if (NumJson.parseInt raw).2 then some (NumJson.parseInt raw).1 else parseInt64 raw
def readUint (raw : Bytes) : Option Nat :=
  if (NumJson.parseUint raw).2 then some (NumJson.parseUint raw).1.toNat else parseUint64 raw
def readFloat (U : Univ) (raw : Bytes) : Option Flt :=
  match NumJson.parseFloat raw with
  | .nan => U.atof raw
  | f => some f

/-- Replace the value at a path. -/
def put (y : GV) : GV → List Int → GV
  | _, [] => y
  | v, i :: is =>
    if i = -1 then
      match v with
      | .ptr x => .ptr (put y x is)
      | v => v
    else
      match v with
      | .struct fs => .struct (match fs[i.toNat]? with
        | some x => fs.set i.toNat (put y x is)
        | none => fs)
      | v => v

/-- The JSON types that a variable accepts (besides null), as in the error message. -/
def wants : Ty → Option Typ
  | .bool => some tBoolean
  | .int _ => some tNumber
  | .uint _ => some tNumber
  | .float _ => some tNumber
  | .string => some tString
  | .slice _ => some (tArray ||| tNull)
  | .array _ _ => some tArray
  | .map _ _ => some (tObject ||| tNull)
  | .struct _ => some (tObject ||| tNull)
  | _ => none

/-- The types for which null stores the zero value. -/
def NullZero : Ty → Prop
  | .bool => True
  | .int _ => True
  | .uint _ => True
  | .float _ => True
  | .string => True
  | .ptr _ => True
  | .array _ _ => True
  | .struct _ => True
  | _ => False

def Out.map {α β : Type} (f : α → β) : Out α → Out β
  | .done a e => .done (f a) e
  | .panic => .panic

/-- The backing array and length of a slice as a result. -/
def sliceOut : Option (List GV × Nat) → Out GV
  | some r => .done (.slice r.1 r.2) none
  | none => .panic

def arrayOut : Option (List GV) → Out GV
  | some xs => .done (.array xs) none
  | none => .panic

mutual
/-- `Decodes U o t v j r`: decoding tree `j` into a variable of type `t` with content `v` has result `r`: the content
afterwards and the error, or a panic. -/
inductive Decodes (U : Univ) (o : Options) : Ty → GV → JVal → Out GV → Prop
  | null {t v} : NullZero (U.base t) → Decodes U o t v .null (.done (U.zero t) none)
  | mismatch {t v j w} : wants (U.base t) = some w → j ≠ .null → jtyp j &&& w = 0 →
      Decodes U o t v j (.done v (some (.typeError (jtyp j) w)))
  | bool {t x b} : U.base t = .bool → Decodes U o t (.bool x) (.bool b) (.done (.bool b) none)
  | int {t k x raw i} : U.base t = .int k → readInt raw = some i → Decodes U o t (.int x) (.num raw) (.done (.int (wrapInt k i)) none)
  | intErr {t k x raw} : U.base t = .int k → readInt raw = none → Decodes U o t (.int x) (.num raw) (.done (.int x) (some .strconv))
  | uint {t k x raw n} : U.base t = .uint k → readUint raw = some n → Decodes U o t (.uint x) (.num raw) (.done (.uint (wrapUint k n)) none)
  | uintErr {t k x raw} : U.base t = .uint k → readUint raw = none → Decodes U o t (.uint x) (.num raw) (.done (.uint x) (some .strconv))
  | float {t k x raw f} : U.base t = .float k → readFloat U raw = some f →
      Decodes U o t (.float x) (.num raw) (.done (.float (setFloat k f)) none)
  | floatErr {t k x raw} : U.base t = .float k → readFloat U raw = none →
      Decodes U o t (.float x) (.num raw) (.done (.float x) (some .strconv))
  | str {t x raw} : U.base t = .string → Decodes U o t (.str x) (.str raw) (.done (.str (StrJson.unescaped raw)) none)
  | ptr {t e v j r} : U.base t = .ptr e → j ≠ .null → Decodes U o e v j r → Decodes U o t (.ptr v) j (r.map .ptr)
  | ptrNew {t e j r} : U.base t = .ptr e → j ≠ .null → Decodes U o e (U.zero e) j r → Decodes U o t .nilPtr j (r.map .ptr)
  | sliceNull {t e arr len} : U.base t = .slice e → Decodes U o t (.slice arr len) .null (.done (.slice arr 0) none)
  | nilSliceNull {t e} : U.base t = .slice e → Decodes U o t .nilSlice .null (.done .nilSlice none)
  /-- the backing array is used when it is large enough -/
  | slice {t e arr len js r} : U.base t = .slice e → js.length ≤ arr.length → DecElems U o e js arr r →
      Decodes U o t (.slice arr len) (.arr js) (sliceOut r)
  | sliceGrow {t e arr len js r} : U.base t = .slice e → arr.length < js.length →
      DecElems U o e js (List.replicate js.length (U.zero e)) r → Decodes U o t (.slice arr len) (.arr js) (sliceOut r)
  | nilSlice {t e js r} : U.base t = .slice e → DecElems U o e js (List.replicate js.length (U.zero e)) r →
      Decodes U o t .nilSlice (.arr js) (sliceOut r)
  | array {t n e xs js r} : U.base t = .array n e → DecArr U o e js xs r → Decodes U o t (.array xs) (.arr js) (arrayOut r)
  | mapNull {t k e v} : U.base t = .map k e → Decodes U o t v .null (.done v none)
  | map {t k e v ms r} : U.base t = .map k e → DecEntries U o k e ms v r → Decodes U o t v (.obj ms) r
  | struct {t j cs v ms r} : U.base t = .struct j → Cands U o (U.fields j) 0 [] cs → DecMembers U o (resolve [] cs) ms v r →
      Decodes U o t v (.obj ms) r
  | any {v j x} : anyOf j = some x → Decodes U o .any v j (.done x none)
  | anyErr {t i v j} : U.base t = .iface 0 i → anyOf j = none → Decodes U o t v j (.done v (some (.typeError (jtyp j) tAnyValue)))
  /-- a defined interface type -/
  | anyPanic {t i v j x} : U.base t = .iface 0 i → t ≠ .any → anyOf j = some x → Decodes U o t v j .panic
/-- Decoding into the first elements of an array: the array afterwards and the number of elements before the first
error. -/
inductive DecElems (U : Univ) (o : Options) : Ty → List JVal → List GV → Option (List GV × Nat) → Prop
  | nil {t arr} : DecElems U o t [] arr (some (arr, 0))
  | stop {t j js x arr y e} : Decodes U o t x j (.done y (some e)) → DecElems U o t (j :: js) (x :: arr) (some (y :: arr, 0))
  | panic {t j js x arr} : Decodes U o t x j .panic → DecElems U o t (j :: js) (x :: arr) none
  | cons {t j js x arr y r} : Decodes U o t x j (.done y none) → DecElems U o t js arr r →
      DecElems U o t (j :: js) (x :: arr) (r.map fun p => (y :: p.1, p.2 + 1))
/-- Decoding into a fixed-size array: errors are ignored, missing elements are zero, surplus ones are dropped. -/
inductive DecArr (U : Univ) (o : Options) : Ty → List JVal → List GV → Option (List GV) → Prop
  | full {t js} : DecArr U o t js [] (some [])
  | rest {t x xs} : DecArr U o t [] (x :: xs) (some (List.replicate (xs.length + 1) (U.zero t)))
  | panic {t j js x xs} : Decodes U o t x j .panic → DecArr U o t (j :: js) (x :: xs) none
  | cons {t j js x xs y e r} : Decodes U o t x j (.done y e) → DecArr U o t js xs r → DecArr U o t (j :: js) (x :: xs) (r.map fun ys => y :: ys)
/-- Decoding the members of an object into a map. -/
inductive DecEntries (U : Univ) (o : Options) : Ty → Ty → List (Bytes × JVal) → GV → Out GV → Prop
  | nil {k t m} : DecEntries U o k t [] m (.done m none)
  | fail {k t key j ms m y e} : Decodes U o t (U.zero t) j (.done y (some e)) → DecEntries U o k t ((key, j) :: ms) m (.done m (some e))
  | panic {k t key j ms m} : Decodes U o t (U.zero t) j .panic → DecEntries U o k t ((key, j) :: ms) m .panic
  | nilMap {k t key j ms y} : Decodes U o t (U.zero t) j (.done y none) → DecEntries U o k t ((key, j) :: ms) .nilMap .panic
  | badKey {k t key j ms m y} : k ≠ .string → Decodes U o t (U.zero t) j (.done y none) → DecEntries U o k t ((key, j) :: ms) m .panic
  | cons {t key j ms es y r} : Decodes U o t (U.zero t) j (.done y none) → DecEntries U o .string t ms (.map (setKey key y es)) r →
      DecEntries U o .string t ((key, j) :: ms) (.map es) r
/-- Decoding the members of an object into the fields of a struct. -/
inductive DecMembers (U : Univ) (o : Options) : List Cand → List (Bytes × JVal) → GV → Out GV → Prop
  | nil {cs v} : DecMembers U o cs [] v (.done v none)
  | unknown {cs key j ms v r} : cs.find? (fun c => c.key = key) = none → DecMembers U o cs ms v r → DecMembers U o cs ((key, j) :: ms) v r
  | fail {cs key j ms v c x y e} : cs.find? (fun c => c.key = key) = some c → sub v c.index = some x →
      Decodes U o c.typ x j (.done y (some e)) → DecMembers U o cs ((key, j) :: ms) v (.done (put y v c.index) (some e))
  | panic {cs key j ms v c x} : cs.find? (fun c => c.key = key) = some c → sub v c.index = some x →
      Decodes U o c.typ x j .panic → DecMembers U o cs ((key, j) :: ms) v .panic
  | cons {cs key j ms v c x y r} : cs.find? (fun c => c.key = key) = some c → sub v c.index = some x →
      Decodes U o c.typ x j (.done y none) → DecMembers U o cs ms (put y v c.index) r → DecMembers U o cs ((key, j) :: ms) v r
  /-- below a nil embedded pointer: the field is decoded and the result is lost -/
  | lostFail {cs key j ms v c y e} : cs.find? (fun c => c.key = key) = some c → sub v c.index = none →
      Decodes U o c.typ (U.zero c.typ) j (.done y (some e)) → DecMembers U o cs ((key, j) :: ms) v (.done v (some e))
  | lostPanic {cs key j ms v c} : cs.find? (fun c => c.key = key) = some c → sub v c.index = none →
      Decodes U o c.typ (U.zero c.typ) j .panic → DecMembers U o cs ((key, j) :: ms) v .panic
  | lost {cs key j ms v c y r} : cs.find? (fun c => c.key = key) = some c → sub v c.index = none →
      Decodes U o c.typ (U.zero c.typ) j (.done y none) → DecMembers U o cs ms v r → DecMembers U o cs ((key, j) :: ms) v r
end

/-- The options of `Unmarshal`. -/
def decodeOptions : Options := { tag := defaultTag }

end Verif.Unjson
