import Verif.Spec.UnDecode
import Verif.Spec.UnMeth
import Verif.Spec.UnOptions

/-!
# Specification: what decoding a JSON tree into a Go variable does, with the methods of types

As `Decodes` (Spec/UnDecode.lean), but types may have unmarshal methods.
-/

namespace Verif.Unjson
open Verif Verif.Float Verif.Spec Verif.Njson

/-- What the `UnmarshalNodeJSON` methods of a program do, as functions of the tree: the value afterwards and whether there was an
error, or a panic. -/
abbrev NodeMeth := Ty → GV → JVal → Option (GV × Bool)

/-- The methods of a program that unmarshal: `UnmarshalNodeJSON` methods look at the tree of the node only, and all of them leave a
value of the type behind. -/
structure Univ.Unmarshals (U : Univ) (nm : NodeMeth) : Prop where
  tree : ∀ t v h n j, Tree h n j → (if U.panicsNode t v h n then none else some (U.unmarshalNode t v h n)) = nm t v j
  typed_node : ∀ t v j r, HasTy U t v → nm t v j = some r → HasTy U t r.1
  typed : ∀ m t v s, HasTy U t v → HasTy U t (U.unmarshal m t v s).1

/-- A call that panics or leaves a value and returns an error or not -/
def called (panics : Bool) (r : GV × Bool) : Out GV := if panics then .panic else .done r.1 (if r.2 then some .hook else none)

/-- What an unmarshal method of a value of type `t` does. `UnmarshalJSON` gets the compact text of the tree, `UnmarshalText` the
text of the string as it was written. -/
def methOut (U : Univ) (nm : NodeMeth) (m : Meth) (t : Ty) (v : GV) (j : JVal) : Out GV :=
  match m with
  | .unmarshaler =>
    match nm t v j with
    | some r => called false r
    | none => .panic
  | .textUnmarshaler => called (U.panics .textUnmarshaler t v (jraw j)) (U.unmarshal .textUnmarshaler t v (jraw j))
  | m => called (U.panics m t v j.ser) (U.unmarshal m t v j.ser)

/-- Call an unmarshal method of a value of static type `t`: for an interface that of its content, in place. A nil interface, or
a value without the method, makes the call panic. `UnmarshalText` is called for strings only. -/
def callUnmarshal (U : Univ) (nm : NodeMeth) (m : Meth) (t : Ty) (v : GV) (j : JVal) : Out GV :=
  if m = .textUnmarshaler ∧ jtyp j ≠ tString then .done v (some (.typeError (jtyp j) tString))
  else
    match U.base t, v with
    | .iface _ _, .iface t' v' =>
      if U.impl t' m then (methOut U nm m t' v' j).map (.iface t') else .panic
    | .iface _ _, _ => .panic
    | _, _ => methOut U nm m t v j

/-- A struct type whose values have unmarshal methods has marshal methods too. -/
def Univ.StructsPaired (U : Univ) : Prop := ∀ t, structTy U t = true → unmarshalMeth U t ≠ none → marshalMeth U t ≠ none

/-- The programs to which the rules apply. -/
structure Univ.Reading (U : Univ) (nm : NodeMeth) : Prop where
  ok : U.Ok
  embeds : U.EmbedsStructs
  methods : U.Unmarshals nm
  paired : U.Paired
  structs : U.StructsPaired

mutual
/-- `Reads U nm o t v j r`: decoding tree `j` into a variable of type `t` with content `v` has result `r`: the content
afterwards and the error, or a panic. -/
inductive Reads (U : Univ) (nm : NodeMeth) (o : Options) : Ty → GV → JVal → Out GV → Prop
  | meth {t v j m} : unmarshalMeth U t = some m → Reads U nm o t v j (callUnmarshal U nm m t v j)
  | plain {t v j r} : unmarshalMeth U t = none → ReadsPlain U nm o t v j r → Reads U nm o t v j r
/-- For types without unmarshal methods. -/
inductive ReadsPlain (U : Univ) (nm : NodeMeth) (o : Options) : Ty → GV → JVal → Out GV → Prop
  | null {t v} : NullZero (U.base t) → ReadsPlain U nm o t v .null (.done (U.zero t) none)
  | mismatch {t v j w} : wants (U.base t) = some w → j ≠ .null → jtyp j &&& w = 0 →
      ReadsPlain U nm o t v j (.done v (some (.typeError (jtyp j) w)))
  | bool {t x b} : U.base t = .bool → ReadsPlain U nm o t (.bool x) (.bool b) (.done (.bool b) none)
  | int {t k x raw i} : U.base t = .int k → readInt raw = some i → ReadsPlain U nm o t (.int x) (.num raw) (.done (.int (wrapInt k i)) none)
  | intErr {t k x raw} : U.base t = .int k → readInt raw = none → ReadsPlain U nm o t (.int x) (.num raw) (.done (.int x) (some .strconv))
  | uint {t k x raw n} : U.base t = .uint k → readUint raw = some n → ReadsPlain U nm o t (.uint x) (.num raw) (.done (.uint (wrapUint k n)) none)
  | uintErr {t k x raw} : U.base t = .uint k → readUint raw = none → ReadsPlain U nm o t (.uint x) (.num raw) (.done (.uint x) (some .strconv))
  | float {t k x raw f} : U.base t = .float k → readFloat U raw = some f →
      ReadsPlain U nm o t (.float x) (.num raw) (.done (.float (setFloat k f)) none)
  | floatErr {t k x raw} : U.base t = .float k → readFloat U raw = none →
      ReadsPlain U nm o t (.float x) (.num raw) (.done (.float x) (some .strconv))
  | str {t x raw} : U.base t = .string → ReadsPlain U nm o t (.str x) (.str raw) (.done (.str (StrJson.unescaped raw)) none)
  | ptr {t e v j r} : U.base t = .ptr e → j ≠ .null → Reads U nm o e v j r → ReadsPlain U nm o t (.ptr v) j (r.map .ptr)
  | ptrNew {t e j r} : U.base t = .ptr e → j ≠ .null → Reads U nm o e (U.zero e) j r → ReadsPlain U nm o t .nilPtr j (r.map .ptr)
  | sliceNull {t e arr len} : U.base t = .slice e → ReadsPlain U nm o t (.slice arr len) .null (.done (.slice arr 0) none)
  | nilSliceNull {t e} : U.base t = .slice e → ReadsPlain U nm o t .nilSlice .null (.done .nilSlice none)
  /-- the backing array is used when it is large enough -/
  | slice {t e arr len js r} : U.base t = .slice e → js.length ≤ arr.length → ReadElems U nm o e js arr r →
      ReadsPlain U nm o t (.slice arr len) (.arr js) (sliceOut r)
  | sliceGrow {t e arr len js r} : U.base t = .slice e → arr.length < js.length →
      ReadElems U nm o e js (List.replicate js.length (U.zero e)) r → ReadsPlain U nm o t (.slice arr len) (.arr js) (sliceOut r)
  | nilSlice {t e js r} : U.base t = .slice e → ReadElems U nm o e js (List.replicate js.length (U.zero e)) r →
      ReadsPlain U nm o t .nilSlice (.arr js) (sliceOut r)
  | array {t n e xs js r} : U.base t = .array n e → ReadArr U nm o e js xs r → ReadsPlain U nm o t (.array xs) (.arr js) (arrayOut r)
  | mapNull {t k e v} : U.base t = .map k e → ReadsPlain U nm o t v .null (.done v none)
  | map {t k e v ms r} : U.base t = .map k e → ReadEntries U nm o k e ms v r → ReadsPlain U nm o t v (.obj ms) r
  | struct {t j cs v ms r} : U.base t = .struct j → Cands U o (U.fields j) 0 [] cs → ReadMembers U nm o (resolve [] cs) ms v r →
      ReadsPlain U nm o t v (.obj ms) r
  | any {v j x} : anyOf j = some x → ReadsPlain U nm o .any v j (.done x none)
  | anyErr {t i v j} : U.base t = .iface 0 i → anyOf j = none → ReadsPlain U nm o t v j (.done v (some (.typeError (jtyp j) tAnyValue)))
  /-- a defined interface type -/
  | anyPanic {t i v j x} : U.base t = .iface 0 i → t ≠ .any → anyOf j = some x → ReadsPlain U nm o t v j .panic
/-- Decoding into the first elements of an array: the array afterwards and the number of elements before the first
error. -/
inductive ReadElems (U : Univ) (nm : NodeMeth) (o : Options) : Ty → List JVal → List GV → Option (List GV × Nat) → Prop
  | nil {t arr} : ReadElems U nm o t [] arr (some (arr, 0))
  | stop {t j js x arr y e} : Reads U nm o t x j (.done y (some e)) → ReadElems U nm o t (j :: js) (x :: arr) (some (y :: arr, 0))
  | panic {t j js x arr} : Reads U nm o t x j .panic → ReadElems U nm o t (j :: js) (x :: arr) none
  | cons {t j js x arr y r} : Reads U nm o t x j (.done y none) → ReadElems U nm o t js arr r →
      ReadElems U nm o t (j :: js) (x :: arr) (r.map fun p => (y :: p.1, p.2 + 1))
/-- Decoding into a fixed-size array: errors are ignored, missing elements are zero, surplus ones are dropped. -/
inductive ReadArr (U : Univ) (nm : NodeMeth) (o : Options) : Ty → List JVal → List GV → Option (List GV) → Prop
  | full {t js} : ReadArr U nm o t js [] (some [])
  | rest {t x xs} : ReadArr U nm o t [] (x :: xs) (some (List.replicate (xs.length + 1) (U.zero t)))
  | panic {t j js x xs} : Reads U nm o t x j .panic → ReadArr U nm o t (j :: js) (x :: xs) none
  | cons {t j js x xs y e r} : Reads U nm o t x j (.done y e) → ReadArr U nm o t js xs r → ReadArr U nm o t (j :: js) (x :: xs) (r.map fun ys => y :: ys)
/-- Decoding the members of an object into a map. -/
inductive ReadEntries (U : Univ) (nm : NodeMeth) (o : Options) : Ty → Ty → List (Bytes × JVal) → GV → Out GV → Prop
  | nil {k t m} : ReadEntries U nm o k t [] m (.done m none)
  | fail {k t key j ms m y e} : Reads U nm o t (U.zero t) j (.done y (some e)) → ReadEntries U nm o k t ((key, j) :: ms) m (.done m (some e))
  | panic {k t key j ms m} : Reads U nm o t (U.zero t) j .panic → ReadEntries U nm o k t ((key, j) :: ms) m .panic
  | nilMap {k t key j ms y} : Reads U nm o t (U.zero t) j (.done y none) → ReadEntries U nm o k t ((key, j) :: ms) .nilMap .panic
  | badKey {k t key j ms m y} : k ≠ .string → Reads U nm o t (U.zero t) j (.done y none) → ReadEntries U nm o k t ((key, j) :: ms) m .panic
  | cons {t key j ms es y r} : Reads U nm o t (U.zero t) j (.done y none) → ReadEntries U nm o .string t ms (.map (setKey key y es)) r →
      ReadEntries U nm o .string t ((key, j) :: ms) (.map es) r
/-- Decoding the members of an object into the fields of a struct. -/
inductive ReadMembers (U : Univ) (nm : NodeMeth) (o : Options) : List Cand → List (Bytes × JVal) → GV → Out GV → Prop
  | nil {cs v} : ReadMembers U nm o cs [] v (.done v none)
  | unknown {cs key j ms v r} : cs.find? (fun c => c.key = key) = none → ReadMembers U nm o cs ms v r → ReadMembers U nm o cs ((key, j) :: ms) v r
  | fail {cs key j ms v c x y e} : cs.find? (fun c => c.key = key) = some c → sub v c.index = some x →
      Reads U nm o c.typ x j (.done y (some e)) → ReadMembers U nm o cs ((key, j) :: ms) v (.done (put y v c.index) (some e))
  | panic {cs key j ms v c x} : cs.find? (fun c => c.key = key) = some c → sub v c.index = some x →
      Reads U nm o c.typ x j .panic → ReadMembers U nm o cs ((key, j) :: ms) v .panic
  | cons {cs key j ms v c x y r} : cs.find? (fun c => c.key = key) = some c → sub v c.index = some x →
      Reads U nm o c.typ x j (.done y none) → ReadMembers U nm o cs ms (put y v c.index) r → ReadMembers U nm o cs ((key, j) :: ms) v r
  /-- below a nil embedded pointer: the field is decoded and the result is lost -/
  | lostFail {cs key j ms v c y e} : cs.find? (fun c => c.key = key) = some c → sub v c.index = none →
      Reads U nm o c.typ (U.zero c.typ) j (.done y (some e)) → ReadMembers U nm o cs ((key, j) :: ms) v (.done v (some e))
  | lostPanic {cs key j ms v c} : cs.find? (fun c => c.key = key) = some c → sub v c.index = none →
      Reads U nm o c.typ (U.zero c.typ) j .panic → ReadMembers U nm o cs ((key, j) :: ms) v .panic
  | lost {cs key j ms v c y r} : cs.find? (fun c => c.key = key) = some c → sub v c.index = none →
      Reads U nm o c.typ (U.zero c.typ) j (.done y none) → ReadMembers U nm o cs ms v r → ReadMembers U nm o cs ((key, j) :: ms) v r
end


/-- `Unmarshal` with argument `v` of type `t`, a pointer or not, for a text whose first value is `j`: what is the value of the
pointer afterwards, and the error. -/
inductive ReadsArg (U : Univ) (nm : NodeMeth) (o : Options) : Ty → GV → JVal → Out GV → Prop
  /-- the methods of the pointer are called, also if it is nil -/
  | meth {t e v j m} : U.base t = .ptr e → unmarshalMeth U t = some m → ReadsArg U nm o t v j (callUnmarshal U nm m t v j)
  | ptr {t e x j r} : U.base t = .ptr e → unmarshalMeth U t = none → ¬ NoDecoder U o e → Reads U nm o e x j r →
      ReadsArg U nm o t (.ptr x) j (r.map .ptr)
  | nilNull {t e} : U.base t = .ptr e → unmarshalMeth U t = none → ¬ NoDecoder U o e → ReadsArg U nm o t .nilPtr .null (.done .nilPtr none)
  | nilPtr {t e j} : U.base t = .ptr e → unmarshalMeth U t = none → ¬ NoDecoder U o e → j ≠ .null → ReadsArg U nm o t .nilPtr j .panic

/-- The arguments that `Unmarshal` refuses, whatever the text. -/
inductive RefusedArg (U : Univ) (o : Options) : Ty → Prop
  | value {t} : (∀ e, U.base t ≠ .ptr e) → RefusedArg U o t
  | ptr {t e} : U.base t = .ptr e → unmarshalMeth U t = none → NoDecoder U o e → RefusedArg U o t

end Verif.Unjson
