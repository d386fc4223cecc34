import Verif.Spec.UnFits
import Verif.Spec.UnOptions

/-!
# Specification: what Marshal writes, with the methods of types

In terms of types and values only; no codecs, no store, no cache, no fuel. In contrast to `Encodes` (Spec/Unjson.lean) types
may have marshal methods and omit methods, and all outcomes are described: text, error and panic.
-/

namespace Verif.Unjson
open Verif Verif.Float Verif.Spec Verif.Njson

/-- How a call fails. -/
inductive Fail
  | err (e : UErr)
  | panic
  deriving DecidableEq

/-- The result of `AppendJSON(out, x)` that belongs to an outcome. With an error any bytes may be returned. -/
def Agrees (out : Bytes) : Except Fail Bytes → Out Bytes → Prop
  | .ok s, r => r = .done (out ++ s) none
  | .error (.err e), r => ∃ b, r = .done b (some e)
  | .error .panic, r => r = .panic

/-! ## Methods -/

/-- The marshal method that is used for a type: `AppendJSON` before `MarshalJSON` before `MarshalText`. -/
def marshalMeth (U : Univ) (t : Ty) : Option Meth :=
  if U.impl t .appender then some .appender
  else if U.impl t .jsonMarshaler then some .jsonMarshaler
  else if U.impl t .textMarshaler then some .textMarshaler
  else none

/-- The unmarshal method that is used for a type. -/
def unmarshalMeth (U : Univ) (t : Ty) : Option Meth :=
  if U.impl t .unmarshaler then some .unmarshaler
  else if U.impl t .jsonUnmarshaler then some .jsonUnmarshaler
  else if U.impl t .textUnmarshaler then some .textUnmarshaler
  else none

/-- What a marshal method of a value of type `t` writes. The output of `MarshalText` is put between quotes as it is. -/
def methText (U : Univ) (m : Meth) (t : Ty) (v : GV) : Except Fail Bytes :=
  match m with
  | .appender => if U.panics .appender t v [] then .error .panic else if (U.appendJSON t v []).2 then .error (.err .hook) else .ok (U.appendJSON t v []).1
  | .textMarshaler =>
    if U.panics .textMarshaler t v [] then .error .panic else
    match U.marshal .textMarshaler t v with
    | some s => .ok ([34] ++ s ++ [34])
    | none => .error (.err .hook)
  | m =>
    if U.panics m t v [] then .error .panic else
    match U.marshal m t v with
    | some s => .ok s
    | none => .error (.err .hook)

/-- Call a method of a value of static type `t`: for an interface that of its content. A nil interface, or a value without the
method, makes the call panic. -/
def callMeth (U : Univ) (m : Meth) (t : Ty) (v : GV) : Except Fail Bytes :=
  match U.base t, v with
  | .iface _ _, .iface t' v' => if U.impl t' m then methText U m t' v' else .error .panic
  | .iface _ _, _ => .error .panic
  | _, _ => if U.impl t m then methText U m t v else .error .panic

/-- `AppendJSON` methods append: whether they fail or panic and what they append does not depend on what is there. -/
def Univ.Appends (U : Univ) : Prop := ∀ t v b, U.panics .appender t v b = U.panics .appender t v [] ∧ (U.appendJSON t v b).2 = (U.appendJSON t v []).2 ∧
  ((U.appendJSON t v []).2 = false → (U.appendJSON t v b).1 = b ++ (U.appendJSON t v []).1)

/-- A struct type, possibly a named one. -/
def structTy (U : Univ) (t : Ty) : Bool :=
  match U.base t with
  | .struct _ => true
  | _ => false

/-- The marshal method used for a value of type `t` with hints `h`, inside a struct (`c`) or not: inside a struct the methods of a
struct type without hints are *not* used, unless the type has unmarshal methods too. -/
def via (U : Univ) (c : Bool) (h : Hint) (t : Ty) : Option Meth :=
  if c = true ∧ h = Hint.none ∧ structTy U t = true ∧ unmarshalMeth U t = none then none else marshalMeth U t

/-- A struct type with marshal methods which are not used inside structs. -/
def Shadowed (U : Univ) (t : Ty) : Prop := structTy U t = true ∧ unmarshalMeth U t = none ∧ marshalMeth U t ≠ none

/-- The elements of a pointer, slice, array or map are (of pointers, slices, ... of) the shadowed type `s`, without hints. -/
inductive Leads (U : Univ) : Hint → Ty → Ty → Prop
  | here {t} : Shadowed U t → Leads U Hint.none t t
  | ptr {h t e s} : marshalMeth U t = none → U.base t = .ptr e → Leads U h e s → Leads U h t s
  | slice {h t e s} : marshalMeth U t = none → U.base t = .slice e → Leads U h e s → Leads U h t s
  | array {h t n e s} : marshalMeth U t = none → U.base t = .array n e → Leads U h e s → Leads U h t s
  | map {h t k e s} : marshalMeth U t = none → U.base t = .map k e → Leads U Hint.none e s → Leads U h t s

/-- No pointer, slice, array or map type with unmarshal methods but without marshal methods leads to a shadowed type. So it is
when such methods come in pairs. -/
def Univ.Paired (U : Univ) : Prop := ∀ h t s, unmarshalMeth U t ≠ none → marshalMeth U t = none → ¬ Leads U h t s

/-- The methods of interface types are no omit methods. -/
def Univ.PlainIfaces (U : Univ) : Prop := ∀ name t n i, U.base t = .iface n i → U.omitMethod name t = none

/-- The hypotheses on the types and methods of a program. -/
structure Univ.Program (U : Univ) : Prop where
  ok : U.Ok
  embeds : U.EmbedsStructs
  ifaces : U.PlainIfaces
  floats : U.GoFloats
  appends : U.Appends
  paired : U.Paired

/-! ## Types without encoder -/

mutual
/-- No encoder can be made for a type: a kind that is not supported is reached without passing a method. -/
inductive NoEncoder (U : Univ) (o : Options) : Ty → Prop
  | other {t} : marshalMeth U t = none → U.base t = .other → NoEncoder U o t
  | iface {t n i} : marshalMeth U t = none → U.base t = .iface n i → n ≠ 0 → NoEncoder U o t
  | key {t k e} : marshalMeth U t = none → U.base t = .map k e → U.impl k .textMarshaler = false → U.base k ≠ .string → NoEncoder U o t
  | ptr {t e} : marshalMeth U t = none → U.base t = .ptr e → NoEncoder U o e → NoEncoder U o t
  | slice {t e} : marshalMeth U t = none → U.base t = .slice e → NoEncoder U o e → NoEncoder U o t
  | array {t n e} : marshalMeth U t = none → U.base t = .array n e → NoEncoder U o e → NoEncoder U o t
  | map {t k e} : marshalMeth U t = none → U.base t = .map k e → NoEncoder U o e → NoEncoder U o t
  | struct {t j} : marshalMeth U t = none → U.base t = .struct j → NoFields U o (U.fields j) 0 [] [] → NoEncoder U o t
/-- No decoder can be made for a type. -/
inductive NoDecoder (U : Univ) (o : Options) : Ty → Prop
  | other {t} : unmarshalMeth U t = none → U.base t = .other → NoDecoder U o t
  | iface {t n i} : unmarshalMeth U t = none → U.base t = .iface n i → n ≠ 0 → NoDecoder U o t
  | key {t k e} : unmarshalMeth U t = none → U.base t = .map k e → U.impl k .textUnmarshaler = false → U.base k ≠ .string → NoDecoder U o t
  | ptr {t e} : unmarshalMeth U t = none → U.base t = .ptr e → NoDecoder U o e → NoDecoder U o t
  | slice {t e} : unmarshalMeth U t = none → U.base t = .slice e → NoDecoder U o e → NoDecoder U o t
  | array {t n e} : unmarshalMeth U t = none → U.base t = .array n e → NoDecoder U o e → NoDecoder U o t
  | map {t k e} : unmarshalMeth U t = none → U.base t = .map k e → NoDecoder U o e → NoDecoder U o t
  | struct {t j} : unmarshalMeth U t = none → U.base t = .struct j → NoFields U o (U.fields j) 0 [] [] → NoDecoder U o t
/-- Some field has no decoder or no encoder (a struct needs both, for encoding as well as for decoding), counted from field `i` on,
after the fields `acc`. -/
inductive NoFields (U : Univ) (o : Options) : List Field → Nat → List Int → List Cand → Prop
  | skip {f fs} {i : Nat} {idx acc} : (f.exported = false ∨ (o.parseField f).1 = b!"-") → NoFields U o fs (i + 1) idx acc → NoFields U o (f :: fs) i idx acc
  | inner {f fs} {i : Nat} {idx acc idx' j} : f.exported = true → (o.parseField f).1 ≠ b!"-" →
      embedding U f (o.parseField f).2.2 (idx ++ [(i : Int)]) = (idx', some j) → NoFields U o (U.fields j) 0 idx' acc → NoFields U o (f :: fs) i idx acc
  | outer {f fs} {i : Nat} {idx acc idx' j cs} : f.exported = true → (o.parseField f).1 ≠ b!"-" →
      embedding U f (o.parseField f).2.2 (idx ++ [(i : Int)]) = (idx', some j) → Cands U o (U.fields j) 0 idx' cs →
      NoFields U o fs (i + 1) idx (resolve acc cs) → NoFields U o (f :: fs) i idx acc
  | decoder {f fs} {i : Nat} {idx acc idx' k} : f.exported = true → (o.parseField f).1 ≠ b!"-" →
      embedding U f (o.parseField f).2.2 (idx ++ [(i : Int)]) = (idx', none) → k = ⟨(o.parseField f).1, idx', f.typ, (o.parseField f).2.1⟩ →
      addCand acc k = acc ++ [k] → NoDecoder U o f.typ → NoFields U o (f :: fs) i idx acc
  | encoder {f fs} {i : Nat} {idx acc idx' k} : f.exported = true → (o.parseField f).1 ≠ b!"-" →
      embedding U f (o.parseField f).2.2 (idx ++ [(i : Int)]) = (idx', none) → k = ⟨(o.parseField f).1, idx', f.typ, (o.parseField f).2.1⟩ →
      addCand acc k = acc ++ [k] → NoEncoder U o f.typ → NoFields U o (f :: fs) i idx acc
  | later {f fs} {i : Nat} {idx acc idx' k} : f.exported = true → (o.parseField f).1 ≠ b!"-" →
      embedding U f (o.parseField f).2.2 (idx ++ [(i : Int)]) = (idx', none) → k = ⟨(o.parseField f).1, idx', f.typ, (o.parseField f).2.1⟩ →
      NoFields U o fs (i + 1) idx (addCand acc k) → NoFields U o (f :: fs) i idx acc
end

/-! ## Omission -/

/-- The call of the omit method `m` of type `t` on `v`: its result, `none` when it panics -/
def omitCall (U : Univ) (name : Bytes) (t : Ty) (m : GV → Bool) (v : GV) : Option Bool := if U.omitPanics name t v then none else some (m v)

/-- Whether the omit method `name` (of the type, of the type it points to, of the pointer to it) omits a value, `none` when it panics; `a` tells
whether the value can be addressed. -/
inductive OmitCustom (U : Univ) (name : Bytes) (a : Bool) : Ty → GV → Option Bool → Prop
  | own {t v m} : (∀ n i, U.base t ≠ .iface n i) → U.omitMethod name t = some m → OmitCustom U name a t v (omitCall U name t m v)
  | nilPtr {t e m} : U.omitMethod name t = none → U.base t = .ptr e → U.omitMethod name e = some m → OmitCustom U name a t .nilPtr (some true)
  | pointee {t e m v} : U.omitMethod name t = none → U.base t = .ptr e → U.omitMethod name e = some m →
      OmitCustom U name a t (.ptr v) (omitCall U name e m v)
  /-- the method has a pointer receiver; when there is no pointer the value is not omitted -/
  | pointer {t m v} : U.omitMethod name t = none → (∀ e, U.base t ≠ .ptr e) → U.omitMethod name (.ptr t) = some m →
      OmitCustom U name a t v (if a then omitCall U name (.ptr t) m (.ptr v) else some false)

/-- There is no such method. -/
def NoOmit (U : Univ) (name : Bytes) (t : Ty) : Prop :=
  U.omitMethod name t = none ∧ (∀ e, U.base t = .ptr e → U.omitMethod name e = none) ∧
  ((∀ e, U.base t ≠ .ptr e) → U.omitMethod name (.ptr t) = none)

mutual
/-- Whether a value is omitted, as far as its type and the omit methods are concerned; `none` when a method panics. -/
inductive OmitVal (U : Univ) (name : Bytes) (a : Bool) : Ty → GV → Option Bool → Prop
  | custom {t v b} : OmitCustom U name a t v b → OmitVal U name a t v b
  | plain {t v} : NoOmit U name t → (∀ n e, U.base t ≠ .array n e) → (∀ n i, U.base t = .iface n i → n = 0) → OmitVal U name a t v (some v.empty)
  | array {t n e xs b} : NoOmit U name t → U.base t = .array n e → OmitVals U name a e xs b → OmitVal U name a t (.array xs) b
  /-- an interface with methods is always omitted -/
  | iface {t n i v} : NoOmit U name t → U.base t = .iface n i → n ≠ 0 → OmitVal U name a t v (some true)
inductive OmitVals (U : Univ) (name : Bytes) (a : Bool) : Ty → List GV → Option Bool → Prop
  | nil {t} : OmitVals U name a t [] (some true)
  | no {t x xs} : OmitVal U name a t x (some false) → OmitVals U name a t (x :: xs) (some false)
  | panic {t x xs} : OmitVal U name a t x none → OmitVals U name a t (x :: xs) none
  | yes {t x xs b} : OmitVal U name a t x (some true) → OmitVals U name a t xs b → OmitVals U name a t (x :: xs) b
end

/-- A value at a path can be addressed when the whole can be, or when the path goes through a pointer. -/
def addrAt (a : Bool) (idx : List Int) : Bool := a || idx.contains (-1)

mutual
/-- Whether a field is omitted. -/
inductive OmitsM (U : Univ) (o : Options) : Bool → Cand → GV → Option Bool → Prop
  | keep {a c x} : c.hint.omitempty = false → OmitsM U o a c x (some false)
  | value {a c x b} : c.hint.omitempty = true → ((∀ j, U.base c.typ ≠ .struct j) ∨ marshalMeth U c.typ ≠ none) →
      OmitVal U o.omitMethod a c.typ x b → OmitsM U o a c x b
  | custom {a c x j b} : c.hint.omitempty = true → U.base c.typ = .struct j → marshalMeth U c.typ = none →
      OmitCustom U o.omitMethod a c.typ x b → OmitsM U o a c x b
  | struct {a c x j cs b} : c.hint.omitempty = true → U.base c.typ = .struct j → marshalMeth U c.typ = none → NoOmit U o.omitMethod c.typ →
      Cands U o (U.fields j) 0 [] cs → OmitsAllM U o a (resolve [] cs) x b → OmitsM U o a c x b
inductive OmitsAllM (U : Univ) (o : Options) : Bool → List Cand → GV → Option Bool → Prop
  | nil {a v} : OmitsAllM U o a [] v (some true)
  | absent {a c cs v b} : sub v c.index = none → OmitsAllM U o a cs v b → OmitsAllM U o a (c :: cs) v b
  | no {a c cs v x} : sub v c.index = some x → OmitsM U o (addrAt a c.index) c x (some false) → OmitsAllM U o a (c :: cs) v (some false)
  | panic {a c cs v x} : sub v c.index = some x → OmitsM U o (addrAt a c.index) c x none → OmitsAllM U o a (c :: cs) v none
  | yes {a c cs v x b} : sub v c.index = some x → OmitsM U o (addrAt a c.index) c x (some true) → OmitsAllM U o a cs v b →
      OmitsAllM U o a (c :: cs) v b
end

/-! ## Text -/

/-- Texts with commas between. -/
def commas : List Bytes → Bytes
  | [] => []
  | [s] => s
  | s :: ss => s ++ [44] ++ commas ss

/-- The text of a map key. -/
def keyText (U : Univ) (k : Ty) (v : GV) : Except Fail Bytes :=
  if U.impl k .textMarshaler then callMeth U .textMarshaler k v
  else
    match v with
    | .str s => .ok ([34] ++ StrJson.escaped s false false ++ [34])
    | _ => .error .panic

/-- The text of a float. -/
def floatOut (U : Univ) (o : Options) : Flt → Except Fail Bytes
  | .nan => if o.allowNaN then .ok b!"NaN" else .error (.err .value)
  | .num neg .inf => if o.allowInf then .ok (if neg then b!"-Inf" else b!"+Inf") else .error (.err .value)
  | f => .ok (floatText U f)

mutual
/-- `Writes U c a o h t v w`: a value `v` of type `t`, with hints `h` and options `o`, inside a struct or not (`c`), addressable or not
(`a`), is written as `w`. -/
inductive Writes (U : Univ) : Bool → Bool → Options → Hint → Ty → GV → Except Fail Bytes → Prop
  | meth {c a o h t v m} : via U c h t = some m → Writes U c a o h t v (callMeth U m t v)
  | bool {c a o h t b} : via U c h t = none → U.base t = .bool → Writes U c a o h t (.bool b) (.ok (if b then b!"true" else b!"false"))
  | int {c a o h t k i} : via U c h t = none → U.base t = .int k → Writes U c a o h t (.int i) (.ok (formatInt i))
  | uint {c a o h t k n} : via U c h t = none → U.base t = .uint k → Writes U c a o h t (.uint n) (.ok (formatUint n))
  | float {c a o h t k f} : via U c h t = none → U.base t = .float k → Writes U c a o h t (.float f) (floatOut U o f)
  | str {c a o h t s} : via U c h t = none → U.base t = .string → Writes U c a o h t (.str s) (.ok ([34] ++ strText h s ++ [34]))
  | nilPtr {c a o h t e} : via U c h t = none → U.base t = .ptr e → Writes U c a o h t .nilPtr (.ok b!"null")
  | ptr {c a o h t e v w} : via U c h t = none → U.base t = .ptr e → Writes U c true o h e v w → Writes U c a o h t (.ptr v) w
  | nilSlice {c a o h t e} : via U c h t = none → U.base t = .slice e → Writes U c a o h t .nilSlice (.ok b!"[]")
  | slice {c a o h t e arr len w} : via U c h t = none → U.base t = .slice e → WElems U c true o h e (arr.take len) w →
      Writes U c a o h t (.slice arr len) (w.map fun ss => [91] ++ commas ss ++ [93])
  | array {c a o h t n e xs w} : via U c h t = none → U.base t = .array n e → WElems U c a o h e xs w →
      Writes U c a o h t (.array xs) (w.map fun ss => [91] ++ commas ss ++ [93])
  | nilMap {c a o h t k e} : via U c h t = none → U.base t = .map k e → Writes U c a o h t .nilMap (.ok b!"null")
  | map {c a o h t k e es w} : via U c h t = none → U.base t = .map k e → WEntries U c o k e es w →
      Writes U c a o h t (.map es) (w.map fun ss => [123] ++ commas ss ++ [125])
  | nilIface {c a o h t i} : via U c h t = none → U.base t = .iface 0 i → Writes U c a o h t .nilIface (.ok b!"null")
  /-- the content of an interface is written like an argument of `Marshal` -/
  | iface {c a o h t i t' v w} : via U c h t = none → U.base t = .iface 0 i → WArg U defaultOptions t' v w → Writes U c a o h t (.iface t' v) w
  | struct {c a o h t j cs fs w} : via U c h t = none → U.base t = .struct j → Cands U o (U.fields j) 0 [] cs →
      WFields U a o (.struct fs) (resolve [] cs) w → Writes U c a o h t (.struct fs) (w.map fun ss => [123] ++ commas ss ++ [125])
/-- Elements, up to the first that fails. -/
inductive WElems (U : Univ) : Bool → Bool → Options → Hint → Ty → List GV → Except Fail (List Bytes) → Prop
  | nil {c a o h t} : WElems U c a o h t [] (.ok [])
  | stop {c a o h t x xs f} : Writes U c a o h t x (.error f) → WElems U c a o h t (x :: xs) (.error f)
  | cons {c a o h t x xs s w} : Writes U c a o h t x (.ok s) → WElems U c a o h t xs w → WElems U c a o h t (x :: xs) (w.map fun ss => s :: ss)
/-- Entries of a map. Their values have no hints. -/
inductive WEntries (U : Univ) : Bool → Options → Ty → Ty → List (GV × GV) → Except Fail (List Bytes) → Prop
  | nil {c o k t} : WEntries U c o k t [] (.ok [])
  | key {c o k t x y es f} : keyText U k x = .error f → WEntries U c o k t ((x, y) :: es) (.error f)
  | stop {c o k t x y es s f} : keyText U k x = .ok s → Writes U c false o Hint.none t y (.error f) → WEntries U c o k t ((x, y) :: es) (.error f)
  | cons {c o k t x y es s s' w} : keyText U k x = .ok s → Writes U c false o Hint.none t y (.ok s') → WEntries U c o k t es w →
      WEntries U c o k t ((x, y) :: es) (w.map fun ss => (s ++ [58] ++ s') :: ss)
/-- Fields of a struct. -/
inductive WFields (U : Univ) : Bool → Options → GV → List Cand → Except Fail (List Bytes) → Prop
  | nil {a o v} : WFields U a o v [] (.ok [])
  | absent {a o v c cs w} : sub v c.index = none → WFields U a o v cs w → WFields U a o v (c :: cs) w
  /-- the omit method panics -/
  | omitPanic {a o v c cs x} : sub v c.index = some x → OmitsM U o (addrAt a c.index) c x none → WFields U a o v (c :: cs) (.error .panic)
  | omitted {a o v c cs w x} : sub v c.index = some x → OmitsM U o (addrAt a c.index) c x (some true) → WFields U a o v cs w →
      WFields U a o v (c :: cs) w
  | stop {a o v c cs x f} : sub v c.index = some x → OmitsM U o (addrAt a c.index) c x (some false) →
      Writes U true (addrAt a c.index) o c.hint c.typ x (.error f) → WFields U a o v (c :: cs) (.error f)
  | present {a o v c cs x s w} : sub v c.index = some x → OmitsM U o (addrAt a c.index) c x (some false) →
      Writes U true (addrAt a c.index) o c.hint c.typ x (.ok s) → WFields U a o v cs w →
      WFields U a o v (c :: cs) (w.map fun ss => ([34] ++ c.key ++ [34, 58] ++ s) :: ss)
/-- An argument of `Encode` (with options `o`) or of `Marshal`. A pointer stands for what it points to. The methods of the
*pointer* are the ones that are looked for, but they are called on the value: it panics when the value does not have the
method. -/
inductive WArg (U : Univ) : Options → Ty → GV → Except Fail Bytes → Prop
  | invalid {o t v} : (∀ e, U.base t ≠ .ptr e) → marshalMeth U (.ptr t) = none → NoEncoder U o t → WArg U o t v (.error (.err .invalidType))
  | ptrInvalid {o t e v} : U.base t = .ptr e → marshalMeth U t = none → NoEncoder U o e → WArg U o t v (.error (.err .invalidType))
  | nilPtr {o t e} : U.base t = .ptr e → (marshalMeth U t = none → ¬ NoEncoder U o e) → WArg U o t .nilPtr (.error .panic)
  | ptrMeth {o t e v m} : U.base t = .ptr e → marshalMeth U t = some m → WArg U o t (.ptr v) (callMeth U m e v)
  | ptr {o t e v w} : U.base t = .ptr e → marshalMeth U t = none → ¬ NoEncoder U o e → Writes U false true o Hint.none e v w → WArg U o t (.ptr v) w
  | meth {o t v m} : (∀ e, U.base t ≠ .ptr e) → marshalMeth U (.ptr t) = some m → WArg U o t v (callMeth U m t v)
  | value {o t v w} : (∀ e, U.base t ≠ .ptr e) → marshalMeth U (.ptr t) = none → ¬ NoEncoder U o t → Writes U false false o Hint.none t v w →
      WArg U o t v w
end

end Verif.Unjson
