import Verif.Spec.Gen

/-!
# Specification of generated UnmarshalNodeJSON methods

In terms of types, values and JSON trees only.
-/

namespace Verif.Gen
open Verif Verif.Float Verif.Spec Verif.Njson Verif.Unjson

/-! ## Which fields -/

/-- The types of fields that are not skipped. -/
inductive Can (U : Univ) : Ty → Prop
  | bool {t} : U.base t = .bool → Can U t
  | string {t} : U.base t = .string → Can U t
  | int {t k} : U.base t = .int k → Can U t
  | uint {t k} : U.base t = .uint k → Can U t
  | float {t k} : U.base t = .float k → Can U t
  | any {t i} : U.base t = .iface 0 i → Can U t
  | map {t k e} : U.base t = .map k e → Can U t
  | struct {t j} : U.base t = .struct j → U.fields j ≠ [] → Can U t
  | slice {t e} : U.base t = .slice e → Can U e → Can U t
  | ptr {t e} : U.base t = .ptr e → Can U e → Can U t

/-- The type is not a pointer to a pointer to a slice of pointers and so on without end. -/
inductive ChainEnds (U : Univ) : Ty → Prop
  | stop {t} : (∀ e, U.base t ≠ .slice e) → (∀ e, U.base t ≠ .ptr e) → ChainEnds U t
  | slice {t e} : U.base t = .slice e → ChainEnds U e → ChainEnds U t
  | ptr {t e} : U.base t = .ptr e → ChainEnds U e → ChainEnds U t

open Classical in
/-- The fields that `UnmarshalNodeJSON` knows. -/
noncomputable def unmarshalPicks (E : Env) (o : GenOptions) (j : Nat) : List Pick :=
  firsts (eligible E o ((E.fields j).flatten.filter fun f => Can E.U f.typ))

/-- The field takes the text of a string as it is. -/
def RawString (U : Univ) (p : Pick) : Prop := b!"raw" ∈ p.params ∧ U.base p.field.typ = .string

/-! ## Which types -/

/-- Types that are taken care of otherwise: times, durations, and types with unmarshal methods. -/
def Unmarshals (E : Env) (t : Ty) : Prop :=
  E.isTime t = true ∨ E.isDuration t = true ∨ ¬ NoUnmarshal E.U (.ptr t)

/-- The types for which `UnmarshalNodeJSON` is generated. -/
inductive USupported (E : Env) (o : GenOptions) : Ty → Prop
  | special {t} : Unmarshals E t → USupported E o t
  | bool {t} : E.U.base t = .bool → USupported E o t
  | string {t} : E.U.base t = .string → USupported E o t
  | int {t k} : E.U.base t = .int k → USupported E o t
  | uint {t k} : E.U.base t = .uint k → USupported E o t
  | float {t k} : E.U.base t = .float k → USupported E o t
  | any {t i} : E.U.base t = .iface 0 i → USupported E o t
  | ptr {t e} : E.U.base t = .ptr e → USupported E o e → USupported E o t
  | slice {t e} : E.U.base t = .slice e → USupported E o e → USupported E o t
  | map {t k e} : E.U.base t = .map k e → USupported E o e → USupported E o t
  | struct {t j} : E.U.base t = .struct j → (∀ f ∈ (E.fields j).flatten, f.name ≠ b!"_" → ChainEnds E.U f.typ) →
      (∀ p ∈ unmarshalPicks E o j, ¬ RawString E.U p → USupported E o p.field.typ) → USupported E o t

/-- The code for the type uses its variable: it is not a struct without known fields. -/
def UNotVoid (E : Env) (o : GenOptions) (t : Ty) : Prop :=
  Unmarshals E t ∨ ∀ j, E.U.base t = .struct j → unmarshalPicks E o j ≠ []

/-- The code around the block for a field compiles: the name is harmless in a raw string literal, the field is accessible. -/
def UFieldOk (E : Env) (o : GenOptions) (j : Nat) (p : Pick) : Prop :=
  (∀ c ∈ p.name, c ≠ 96 ∧ c ≠ 13) ∧ canReach E (.struct j) p.field.path = true ∧ UNotVoid E o p.field.typ

/-- The types whose generated code compiles: no interfaces, no durations, no types with a method `UnmarshalNodeJSON`, no maps with
keys that a string is not assignable to. `lit`: the variable with the pointer is of type `*T`, not of a defined pointer type. -/
inductive UCompiles (E : Env) (o : GenOptions) : Bool → Ty → Prop
  | time {lit t} : E.isTime t = true → UCompiles E o lit t
  | json {t} : E.isTime t = false → E.isDuration t = false → E.U.impl (.ptr t) .unmarshaler = false → E.U.impl (.ptr t) .jsonUnmarshaler = true →
      UCompiles E o true t
  | text {t} : E.isTime t = false → E.isDuration t = false → E.U.impl (.ptr t) .unmarshaler = false → E.U.impl (.ptr t) .jsonUnmarshaler = false →
      E.U.impl (.ptr t) .textUnmarshaler = true → UCompiles E o true t
  | bool {lit t} : ¬ Unmarshals E t → E.U.base t = .bool → UCompiles E o lit t
  | string {lit t} : ¬ Unmarshals E t → E.U.base t = .string → UCompiles E o lit t
  | int {lit t k} : ¬ Unmarshals E t → E.U.base t = .int k → UCompiles E o lit t
  | uint {lit t k} : ¬ Unmarshals E t → E.U.base t = .uint k → UCompiles E o lit t
  | float {lit t k} : ¬ Unmarshals E t → E.U.base t = .float k → UCompiles E o lit t
  | ptr {lit t e} : ¬ Unmarshals E t → E.U.base t = .ptr e → UCompiles E o (decide (t = .ptr e)) e → UNotVoid E o e → UCompiles E o lit t
  | slice {lit t e} : ¬ Unmarshals E t → E.U.base t = .slice e → UCompiles E o true e → UNotVoid E o e → UCompiles E o lit t
  | map {lit t k e} : ¬ Unmarshals E t → E.U.base t = .map k e → UCompiles E o true e → UNotVoid E o e →
      k = .string ∨ (∃ i, E.U.base k = .iface 0 i) → UCompiles E o lit t
  | struct {lit j} : ¬ Unmarshals E (.struct j) → (∀ p ∈ unmarshalPicks E o j, ¬ RawString E.U p → UCompiles E o true p.field.typ) →
      (∀ p ∈ unmarshalPicks E o j, UFieldOk E o j p) → UCompiles E o lit (.struct j)

/-! ## What is stored -/

/-- The struct at a place: `none` if there is none; for a nil pointer the zero struct that it is made to point to. -/
def openStruct (U : Univ) (t : Ty) (v : GV) : Option (Nat × List GV × (List GV → GV)) :=
  match U.base t with
  | .struct j =>
    match v with
    | .struct fs => some (j, fs, .struct)
    | _ => none
  | .ptr e =>
    match U.base e, (match v with | .ptr x => x | _ => U.zero e) with
    | .struct j, .struct fs => some (j, fs, fun fs => .ptr (.struct fs))
    | _, _ => none
  | _ => none

/-- The content of a field and what the whole is when it is replaced; nil pointers on the way are replaced by pointers to zero
structs. -/
def focus (U : Univ) : Ty → GV → List Nat → Option (GV × (GV → GV))
  | _, v, [] => some (v, id)
  | t, v, i :: is =>
    match openStruct U t v with
    | none => none
    | some (j, fs, mk) =>
      match (U.fields j)[i]?, fs[i]? with
      | some f, some x => (focus U f.typ x is).map fun r => (r.1, fun y => mk (fs.set i (r.2 y)))
      | _, _ => none

/-- Neither path is a part of the other. -/
def Apart (p q : List Nat) : Prop := ¬ p <+: q ∧ ¬ q <+: p

/-- The content of a pointer after a call of a method. -/
def pointee (v : GV) : GV → GV
  | .ptr y => y
  | _ => v

open Classical in
/-- A map with one entry set. -/
noncomputable def putEntry (k x : GV) : List (GV × GV) → List (GV × GV)
  | [] => [(k, x)]
  | (k', x') :: es => if k' = k then (k, x) :: es else (k', x') :: putEntry k x es

/-- The key of a map entry: a string, or a string in an interface. -/
def entryKey (U : Univ) (k : Ty) (s : Bytes) : GV :=
  match U.base k with
  | .iface _ _ => .iface .string (.str s)
  | _ => .str s

/-- What a method left behind. -/
def hookErr (failed : Bool) : Option UErr := if failed then some .hook else none

mutual
/-- `GDec E o t v j v' e`: the code generated for type `t` turns a variable with content `v` into one with content `v'` when it
unmarshals the tree `j`, and returns the error `e`; no method panics. -/
inductive GDec (E : Env) (o : GenOptions) : Ty → GV → JVal → GV → Option UErr → Prop
  | time {t v j y} : E.isTime t = true → E.parseTime (jraw j) = some y → GDec E o t v j y none
  | timeErr {t v j} : E.isTime t = true → E.parseTime (jraw j) = none → GDec E o t v j v (some .hook)
  | json {t v j r} : E.isTime t = false → E.isDuration t = false → E.U.impl (.ptr t) .unmarshaler = false →
      E.U.impl (.ptr t) .jsonUnmarshaler = true → E.U.panics .jsonUnmarshaler (.ptr t) (.ptr v) j.ser = false →
      E.U.unmarshal .jsonUnmarshaler (.ptr t) (.ptr v) j.ser = r → GDec E o t v j (pointee v r.1) (hookErr r.2)
  | text {t v s r} : E.isTime t = false → E.isDuration t = false → E.U.impl (.ptr t) .unmarshaler = false →
      E.U.impl (.ptr t) .jsonUnmarshaler = false → E.U.impl (.ptr t) .textUnmarshaler = true →
      E.U.panics .textUnmarshaler (.ptr t) (.ptr v) s = false → E.U.unmarshal .textUnmarshaler (.ptr t) (.ptr v) s = r → GDec E o t v (.str s) (pointee v r.1) (hookErr r.2)
  | textErr {t v j} : E.isTime t = false → E.isDuration t = false → E.U.impl (.ptr t) .unmarshaler = false →
      E.U.impl (.ptr t) .jsonUnmarshaler = false → E.U.impl (.ptr t) .textUnmarshaler = true → jtyp j ≠ tString →
      GDec E o t v j v (some (.typeError (jtyp j) tString))
  | bool {t v b} : ¬ Unmarshals E t → E.U.base t = .bool → GDec E o t v (.bool b) (.bool b) none
  | boolErr {t v j} : ¬ Unmarshals E t → E.U.base t = .bool → jtyp j ≠ tBoolean → GDec E o t v j v (some (.typeError (jtyp j) tBoolean))
  | str {t v s} : ¬ Unmarshals E t → E.U.base t = .string → GDec E o t v (.str s) (.str (StrJson.unescaped s)) none
  /-- no error -/
  | strOther {t v j} : ¬ Unmarshals E t → E.U.base t = .string → jtyp j ≠ tString → GDec E o t v j (.str []) none
  | int {t k v j} : ¬ Unmarshals E t → E.U.base t = .int k → (NumJson.parseInt (jraw j)).2 = true →
      GDec E o t v j (.int (wrapInt k (NumJson.parseInt (jraw j)).1)) none
  | intErr {t k v j} : ¬ Unmarshals E t → E.U.base t = .int k → (NumJson.parseInt (jraw j)).2 = false →
      GDec E o t v j v (some (.typeError (jtyp j) tNumber))
  | uint {t k v j} : ¬ Unmarshals E t → E.U.base t = .uint k → (NumJson.parseUint (jraw j)).2 = true →
      GDec E o t v j (.uint (wrapUint k (NumJson.parseUint (jraw j)).1.toNat)) none
  | uintErr {t k v j} : ¬ Unmarshals E t → E.U.base t = .uint k → (NumJson.parseUint (jraw j)).2 = false →
      GDec E o t v j v (some (.typeError (jtyp j) tNumber))
  | float {t k v j} : ¬ Unmarshals E t → E.U.base t = .float k → NumJson.parseFloat (jraw j) ≠ .nan →
      GDec E o t v j (.float (setFloat k (NumJson.parseFloat (jraw j)))) none
  | floatErr {t k v j} : ¬ Unmarshals E t → E.U.base t = .float k → NumJson.parseFloat (jraw j) = .nan →
      GDec E o t v j v (some (.typeError (jtyp j) tNumber))
  | ptrNull {t e v} : ¬ Unmarshals E t → E.U.base t = .ptr e → GDec E o t v .null .nilPtr none
  | ptr {t e v j y err} : ¬ Unmarshals E t → E.U.base t = .ptr e → j ≠ .null → GDec E o e v j y err → GDec E o t (.ptr v) j (.ptr y) err
  | ptrNew {t e j y err} : ¬ Unmarshals E t → E.U.base t = .ptr e → j ≠ .null → GDec E o e (E.U.zero e) j y err →
      GDec E o t .nilPtr j (.ptr y) err
  | sliceNull {t e v} : ¬ Unmarshals E t → E.U.base t = .slice e → GDec E o t v .null .nilSlice none
  | sliceNil {t e} : ¬ Unmarshals E t → E.U.base t = .slice e → GDec E o t .nilSlice (.arr []) .nilSlice none
  | sliceNew {t e js arr err} : ¬ Unmarshals E t → E.U.base t = .slice e → js ≠ [] →
      GDecElems E o e (List.replicate js.length (E.U.zero e)) js arr err → GDec E o t .nilSlice (.arr js) (.slice arr js.length) err
  /-- the backing array is used when it is large enough -/
  | sliceFit {t e arr len js arr' err} : ¬ Unmarshals E t → E.U.base t = .slice e → js.length ≤ arr.length →
      GDecElems E o e arr js arr' err → GDec E o t (.slice arr len) (.arr js) (.slice arr' js.length) err
  /-- else there is a new one, which is too long: after the elements come as many zeros as the slice was long -/
  | sliceGrow {t e arr len js arr' err} : ¬ Unmarshals E t → E.U.base t = .slice e → arr.length < js.length →
      GDecElems E o e (List.replicate (len + js.length) (E.U.zero e)) js arr' err →
      GDec E o t (.slice arr len) (.arr js) (.slice arr' (len + js.length)) err
  | sliceErr {t e v j} : ¬ Unmarshals E t → E.U.base t = .slice e → jtyp j ≠ tArray → jtyp j ≠ tNull →
      GDec E o t v j v (some (.typeError (jtyp j) (tArray ||| tNull)))
  | mapNull {t k e v} : ¬ Unmarshals E t → E.U.base t = .map k e → GDec E o t v .null .nilMap none
  | map {t k e es ms es' err} : ¬ Unmarshals E t → E.U.base t = .map k e → GDecEntries E o k e es ms es' err →
      GDec E o t (.map es) (.obj ms) (.map es') err
  | mapNew {t k e ms es' err} : ¬ Unmarshals E t → E.U.base t = .map k e → GDecEntries E o k e [] ms es' err →
      GDec E o t .nilMap (.obj ms) (.map es') err
  | mapErr {t k e v j} : ¬ Unmarshals E t → E.U.base t = .map k e → jtyp j ≠ tObject → jtyp j ≠ tNull →
      GDec E o t v j v (some (.typeError (jtyp j) (tObject ||| tNull)))
  | struct {j v ms v' err} : ¬ Unmarshals E (.struct j) → GDecMembers E o j v ms v' err → GDec E o (.struct j) v (.obj ms) v' err
  /-- null included -/
  | structErr {j v jv} : ¬ Unmarshals E (.struct j) → jtyp jv ≠ tObject → GDec E o (.struct j) v jv v (some (.typeError (jtyp jv) tObject))
/-- The elements are stored at the beginning of an array; an error ends it. -/
inductive GDecElems (E : Env) (o : GenOptions) : Ty → List GV → List JVal → List GV → Option UErr → Prop
  | nil {t arr} : GDecElems E o t arr [] arr none
  | cons {t x arr j js y arr' err} : GDec E o t x j y none → GDecElems E o t arr js arr' err →
      GDecElems E o t (x :: arr) (j :: js) (y :: arr') err
  | fail {t x arr j js y err} : GDec E o t x j y (some err) → GDecElems E o t (x :: arr) (j :: js) (y :: arr) (some err)
/-- The members are put in a map under their raw keys, each decoded into a zero value. -/
inductive GDecEntries (E : Env) (o : GenOptions) : Ty → Ty → List (GV × GV) → List (Bytes × JVal) → List (GV × GV) → Option UErr → Prop
  | nil {k t es} : GDecEntries E o k t es [] es none
  | cons {k t es key j ms y es' err} : GDec E o t (E.U.zero t) j y none → GDecEntries E o k t (putEntry (entryKey E.U k key) y es) ms es' err →
      GDecEntries E o k t es ((key, j) :: ms) es' err
  | fail {k t es key j ms y err} : GDec E o t (E.U.zero t) j y (some err) → GDecEntries E o k t es ((key, j) :: ms) es (some err)
/-- The members are stored in the fields that have their raw key as name. -/
inductive GDecMembers (E : Env) (o : GenOptions) : Nat → GV → List (Bytes × JVal) → GV → Option UErr → Prop
  | nil {i v} : GDecMembers E o i v [] v none
  | unknown {i v key j ms v' err} : (∀ p ∈ unmarshalPicks E o i, p.name ≠ key) → GDecMembers E o i v ms v' err →
      GDecMembers E o i v ((key, j) :: ms) v' err
  | raw {i v p j ms x mk v' err} : p ∈ unmarshalPicks E o i → RawString E.U p → focus E.U (.struct i) v p.field.path = some (x, mk) →
      GDecMembers E o i (mk (.str (jraw j))) ms v' err → GDecMembers E o i v ((p.name, j) :: ms) v' err
  | cons {i v p j ms x mk y v' err} : p ∈ unmarshalPicks E o i → ¬ RawString E.U p → focus E.U (.struct i) v p.field.path = some (x, mk) →
      GDec E o p.field.typ x j y none → GDecMembers E o i (mk y) ms v' err → GDecMembers E o i v ((p.name, j) :: ms) v' err
  | fail {i v p j ms x mk y err} : p ∈ unmarshalPicks E o i → ¬ RawString E.U p → focus E.U (.struct i) v p.field.path = some (x, mk) →
      GDec E o p.field.typ x j y (some err) → GDecMembers E o i v ((p.name, j) :: ms) (mk y) (some err)
end

mutual
/-- `UPanics E o t v j`: the code generated for type `t` comes to a call of an unmarshal method that panics, when it unmarshals the tree `j` into a
variable with content `v`. Everything before the call is unmarshaled without an error. -/
inductive UPanics (E : Env) (o : GenOptions) : Ty → GV → JVal → Prop
  | json {t v j} : E.isTime t = false → E.isDuration t = false → E.U.impl (.ptr t) .unmarshaler = false →
      E.U.impl (.ptr t) .jsonUnmarshaler = true → E.U.panics .jsonUnmarshaler (.ptr t) (.ptr v) j.ser = true → UPanics E o t v j
  | text {t v s} : E.isTime t = false → E.isDuration t = false → E.U.impl (.ptr t) .unmarshaler = false →
      E.U.impl (.ptr t) .jsonUnmarshaler = false → E.U.impl (.ptr t) .textUnmarshaler = true →
      E.U.panics .textUnmarshaler (.ptr t) (.ptr v) s = true → UPanics E o t v (.str s)
  | ptr {t e v j} : ¬ Unmarshals E t → E.U.base t = .ptr e → j ≠ .null → UPanics E o e v j → UPanics E o t (.ptr v) j
  | ptrNew {t e j} : ¬ Unmarshals E t → E.U.base t = .ptr e → j ≠ .null → UPanics E o e (E.U.zero e) j → UPanics E o t .nilPtr j
  | sliceNew {t e js} : ¬ Unmarshals E t → E.U.base t = .slice e → UPanicsElems E o e (List.replicate js.length (E.U.zero e)) js →
      UPanics E o t .nilSlice (.arr js)
  | sliceFit {t e arr len js} : ¬ Unmarshals E t → E.U.base t = .slice e → js.length ≤ arr.length → UPanicsElems E o e arr js →
      UPanics E o t (.slice arr len) (.arr js)
  | sliceGrow {t e arr len js} : ¬ Unmarshals E t → E.U.base t = .slice e → arr.length < js.length →
      UPanicsElems E o e (List.replicate (len + js.length) (E.U.zero e)) js → UPanics E o t (.slice arr len) (.arr js)
  | map {t k e v ms} : ¬ Unmarshals E t → E.U.base t = .map k e → UPanicsEntries E o e ms → UPanics E o t v (.obj ms)
  | struct {j v ms} : ¬ Unmarshals E (.struct j) → UPanicsMembers E o j v ms → UPanics E o (.struct j) v (.obj ms)
/-- The elements in front of the one with the call are unmarshaled. -/
inductive UPanicsElems (E : Env) (o : GenOptions) : Ty → List GV → List JVal → Prop
  | here {t x arr j js} : UPanics E o t x j → UPanicsElems E o t (x :: arr) (j :: js)
  | later {t x arr j js y} : GDec E o t x j y none → UPanicsElems E o t arr js → UPanicsElems E o t (x :: arr) (j :: js)
/-- The entries in front of the one with the call are unmarshaled. -/
inductive UPanicsEntries (E : Env) (o : GenOptions) : Ty → List (Bytes × JVal) → Prop
  | here {t key j ms} : UPanics E o t (E.U.zero t) j → UPanicsEntries E o t ((key, j) :: ms)
  | later {t key j ms y} : GDec E o t (E.U.zero t) j y none → UPanicsEntries E o t ms → UPanicsEntries E o t ((key, j) :: ms)
/-- The members in front of the one with the call are unmarshaled. -/
inductive UPanicsMembers (E : Env) (o : GenOptions) : Nat → GV → List (Bytes × JVal) → Prop
  | unknown {i v key j ms} : (∀ p ∈ unmarshalPicks E o i, p.name ≠ key) → UPanicsMembers E o i v ms → UPanicsMembers E o i v ((key, j) :: ms)
  | raw {i v p j ms x mk} : p ∈ unmarshalPicks E o i → RawString E.U p → focus E.U (.struct i) v p.field.path = some (x, mk) →
      UPanicsMembers E o i (mk (.str (jraw j))) ms → UPanicsMembers E o i v ((p.name, j) :: ms)
  | here {i v p j ms x mk} : p ∈ unmarshalPicks E o i → ¬ RawString E.U p → focus E.U (.struct i) v p.field.path = some (x, mk) →
      UPanics E o p.field.typ x j → UPanicsMembers E o i v ((p.name, j) :: ms)
  | later {i v p j ms x mk y} : p ∈ unmarshalPicks E o i → ¬ RawString E.U p → focus E.U (.struct i) v p.field.path = some (x, mk) →
      GDec E o p.field.typ x j y none → UPanicsMembers E o i (mk y) ms → UPanicsMembers E o i v ((p.name, j) :: ms)
end

/-! ## What is accepted -/

/-- The trees that are accepted for a type. `A` says what times and unmarshal methods accept. -/
inductive GFits (E : Env) (o : GenOptions) (A : Ty → JVal → Prop) : Ty → JVal → Prop
  | special {t j} : Unmarshals E t → A t j → GFits E o A t j
  | bool {t b} : ¬ Unmarshals E t → E.U.base t = .bool → GFits E o A t (.bool b)
  /-- anything -/
  | string {t j} : ¬ Unmarshals E t → E.U.base t = .string → GFits E o A t j
  /-- strings included -/
  | int {t k j} : ¬ Unmarshals E t → E.U.base t = .int k → (NumJson.parseInt (jraw j)).2 = true → GFits E o A t j
  | uint {t k j} : ¬ Unmarshals E t → E.U.base t = .uint k → (NumJson.parseUint (jraw j)).2 = true → GFits E o A t j
  | float {t k j} : ¬ Unmarshals E t → E.U.base t = .float k → NumJson.parseFloat (jraw j) ≠ .nan → GFits E o A t j
  | ptrNull {t e} : ¬ Unmarshals E t → E.U.base t = .ptr e → GFits E o A t .null
  | ptr {t e j} : ¬ Unmarshals E t → E.U.base t = .ptr e → j ≠ .null → GFits E o A e j → GFits E o A t j
  | sliceNull {t e} : ¬ Unmarshals E t → E.U.base t = .slice e → GFits E o A t .null
  | slice {t e js} : ¬ Unmarshals E t → E.U.base t = .slice e → (∀ j ∈ js, GFits E o A e j) → GFits E o A t (.arr js)
  | mapNull {t k e} : ¬ Unmarshals E t → E.U.base t = .map k e → GFits E o A t .null
  | map {t k e ms} : ¬ Unmarshals E t → E.U.base t = .map k e → (∀ m ∈ ms, GFits E o A e m.2) → GFits E o A t (.obj ms)
  | struct {j ms} : ¬ Unmarshals E (.struct j) →
      (∀ m ∈ ms, ∀ p ∈ unmarshalPicks E o j, p.name = m.1 → ¬ RawString E.U p → GFits E o A p.field.typ m.2) → GFits E o A (.struct j) (.obj ms)

/-- What is asked of unmarshal methods and time.Parse: they leave behind a value of the type. Methods may panic. -/
structure UHooks (E : Env) : Prop where
  time : ∀ t s y, E.isTime t = true → E.parseTime s = some y → HasTy E.U t y
  method : ∀ m t v s, E.U.impl (.ptr t) m = true → HasTy E.U t v → ∃ y b, E.U.unmarshal m (.ptr t) (.ptr v) s = (.ptr y, b) ∧ HasTy E.U t y

end Verif.Gen
