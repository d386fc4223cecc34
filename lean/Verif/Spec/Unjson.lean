import Verif.Spec.UnFields
import Verif.Spec.Tree
import Verif.Spec.NumJson

/-!
# Specification: which JSON tree a Go value is encoded as

In terms of types and values only; no codecs, no store, no fuel.
-/

namespace Verif.Unjson
open Verif Verif.Float Verif.Spec Verif.Njson

/-- The value at a path: `-1` follows a pointer, other numbers select a field. `none` below a nil pointer. -/
def sub : GV → List Int → Option GV
  | v, [] => some v
  | v, i :: is =>
    if i = -1 then
      match v with
      | .ptr x => sub x is
      | _ => none
    else
      match v with
      | .struct fs => match fs[i.toNat]? with
        | some x => sub x is
        | none => none
      | _ => none

mutual
/-- The empty values: false, 0, nil, length 0, arrays of empty values. No struct is empty in this sense. -/
def GV.empty : GV → Bool
  | .bool b => !b
  | .int i => i == 0
  | .uint n => n == 0
  | .float (.num _ (.fin m _)) => m == 0
  | .float _ => false
  | .str s => s.isEmpty
  | .nilPtr => true
  | .ptr _ => false
  | .nilSlice => true
  | .slice _ len => len == 0
  | .array xs => allEmpty xs
  | .nilMap => true
  | .map es => es.isEmpty
  | .nilIface => true
  | .iface _ _ => false
  | .struct _ => false
  | .opaque => true
def allEmpty : List GV → Bool
  | [] => true
  | x :: xs => x.empty && allEmpty xs
end

mutual
/-- Whether a field is left out, for types without an omit method. A struct with omitempty is left out when all its
fields are. -/
inductive Omits (U : Univ) (o : Options) : Cand → GV → Bool → Prop
  | keep {c x} : c.hint.omitempty = false → Omits U o c x false
  | value {c x} : c.hint.omitempty = true → (∀ j, U.base c.typ ≠ .struct j) → Omits U o c x x.empty
  | struct {c x j cs b} : c.hint.omitempty = true → U.base c.typ = .struct j → Cands U o (U.fields j) 0 [] cs →
      OmitsAll U o (resolve [] cs) x b → Omits U o c x b
inductive OmitsAll (U : Univ) (o : Options) : List Cand → GV → Bool → Prop
  | nil {v} : OmitsAll U o [] v true
  | absent {c cs v b} : sub v c.index = none → OmitsAll U o cs v b → OmitsAll U o (c :: cs) v b
  | no {c cs v x} : sub v c.index = some x → Omits U o c x false → OmitsAll U o (c :: cs) v false
  | yes {c cs v x b} : sub v c.index = some x → Omits U o c x true → OmitsAll U o cs v b → OmitsAll U o (c :: cs) v b
end

/-- The text between the quotes for a string with the given hints. -/
def strText (h : Hint) (s : Bytes) : Bytes :=
  if h.html then StrJson.escaped s true false else if h.raw then s else StrJson.escaped s false false

/-- The text of a finite float. -/
def floatText (U : Univ) (f : Flt) : Bytes := NumJson.appendFloat [] f 32 (U.fmtFloat f 32)

/-- The options of `Marshal`. -/
def defaultOptions : Options := Options.normalize {}

mutual
/-- `Encodes U o h t v j`: value `v` of type `t`, with hints `h`, is encoded as the tree `j`. -/
inductive Encodes (U : Univ) : Options → Hint → Ty → GV → JVal → Prop
  | bool {o h t b} : U.base t = .bool → Encodes U o h t (.bool b) (.bool b)
  | int {o h t k i} : U.base t = .int k → Encodes U o h t (.int i) (.num (formatInt i))
  | uint {o h t k n} : U.base t = .uint k → Encodes U o h t (.uint n) (.num (formatUint n))
  | float {o h t k neg m e} : U.base t = .float k →
      Encodes U o h t (.float (.num neg (.fin m e))) (.num (floatText U (.num neg (.fin m e))))
  | inf {o h t k neg} : U.base t = .float k → o.allowInf = true →
      Encodes U o h t (.float (.num neg .inf)) (.num (if neg then b!"-Inf" else b!"+Inf"))
  | nan {o h t k} : U.base t = .float k → o.allowNaN = true → Encodes U o h t (.float .nan) (.num b!"NaN")
  | str {o h t s} : U.base t = .string → Encodes U o h t (.str s) (.str (strText h s))
  | nilPtr {o h t e} : U.base t = .ptr e → Encodes U o h t .nilPtr .null
  | ptr {o h t e v j} : U.base t = .ptr e → Encodes U o h e v j → Encodes U o h t (.ptr v) j
  | nilSlice {o h t e} : U.base t = .slice e → Encodes U o h t .nilSlice (.arr [])
  | slice {o h t e arr len js} : U.base t = .slice e → EncElems U o h e (arr.take len) js →
      Encodes U o h t (.slice arr len) (.arr js)
  | array {o h t n e xs js} : U.base t = .array n e → EncElems U o h e xs js → Encodes U o h t (.array xs) (.arr js)
  | nilMap {o h t k e} : U.base t = .map k e → Encodes U o h t .nilMap .null
  | map {o h t k e es ms} : U.base t = .map k e → EncEntries U o e es ms → Encodes U o h t (.map es) (.obj ms)
  | nilIface {o h t i} : U.base t = .iface 0 i → Encodes U o h t .nilIface .null
  /-- the content of an interface is encoded with the default options, and once dereferenced if it is a pointer -/
  | iface {o h t i t' v j} : U.base t = .iface 0 i → (∀ e, U.base t' ≠ .ptr e) →
      Encodes U defaultOptions Hint.none t' v j → Encodes U o h t (.iface t' v) j
  | ifacePtr {o h t i t' e v j} : U.base t = .iface 0 i → U.base t' = .ptr e →
      Encodes U defaultOptions Hint.none e v j → Encodes U o h t (.iface t' (.ptr v)) j
  | struct {o h t j cs fs ms} : U.base t = .struct j → Cands U o (U.fields j) 0 [] cs →
      EncFields U o (.struct fs) (resolve [] cs) ms → Encodes U o h t (.struct fs) (.obj ms)
inductive EncElems (U : Univ) : Options → Hint → Ty → List GV → List JVal → Prop
  | nil {o h t} : EncElems U o h t [] []
  | cons {o h t x xs j js} : Encodes U o h t x j → EncElems U o h t xs js → EncElems U o h t (x :: xs) (j :: js)
inductive EncEntries (U : Univ) : Options → Ty → List (GV × GV) → List (Bytes × JVal) → Prop
  | nil {o t} : EncEntries U o t [] []
  | cons {o t k x es j ms} : Encodes U o Hint.none t x j → EncEntries U o t es ms →
      EncEntries U o t ((.str k, x) :: es) ((StrJson.escaped k false false, j) :: ms)
inductive EncFields (U : Univ) : Options → GV → List Cand → List (Bytes × JVal) → Prop
  | nil {o v} : EncFields U o v [] []
  | absent {o v c cs ms} : sub v c.index = none → EncFields U o v cs ms → EncFields U o v (c :: cs) ms
  | omitted {o v c cs ms x} : sub v c.index = some x → Omits U o c x true → EncFields U o v cs ms → EncFields U o v (c :: cs) ms
  | present {o v c cs ms x j} : sub v c.index = some x → Omits U o c x false → Encodes U o c.hint c.typ x j →
      EncFields U o v cs ms → EncFields U o v (c :: cs) ((c.key, j) :: ms)
end

/-- A type without methods that marshal. -/
def NoMarshal (U : Univ) (t : Ty) : Prop :=
  U.impl t .appender = false ∧ U.impl t .jsonMarshaler = false ∧ U.impl t .textMarshaler = false

/-- `v` is a value of type `t`; no type of it has marshal methods; an interface does not hold a nil pointer. -/
inductive Plain (U : Univ) : Ty → GV → Prop
  | bool {t b} : NoMarshal U t → U.base t = .bool → Plain U t (.bool b)
  | int {t k i} : NoMarshal U t → U.base t = .int k → Plain U t (.int i)
  | uint {t k n} : NoMarshal U t → U.base t = .uint k → Plain U t (.uint n)
  | float {t k f} : NoMarshal U t → U.base t = .float k → Plain U t (.float f)
  | str {t s} : NoMarshal U t → U.base t = .string → Plain U t (.str s)
  | nilPtr {t e} : NoMarshal U t → U.base t = .ptr e → Plain U t .nilPtr
  | ptr {t e v} : NoMarshal U t → U.base t = .ptr e → Plain U e v → Plain U t (.ptr v)
  | nilSlice {t e} : NoMarshal U t → U.base t = .slice e → Plain U t .nilSlice
  | slice {t e arr len} : NoMarshal U t → U.base t = .slice e → (∀ x ∈ arr.take len, Plain U e x) → Plain U t (.slice arr len)
  | array {t n e xs} : NoMarshal U t → U.base t = .array n e → xs.length = n → (∀ x ∈ xs, Plain U e x) → Plain U t (.array xs)
  | nilMap {t k e} : NoMarshal U t → U.base t = .map k e → Plain U t .nilMap
  | map {t k e es} : NoMarshal U t → U.base t = .map k e → U.base k = .string → U.impl k .textMarshaler = false →
      (∀ p ∈ es, ∃ s, p.1 = .str s) → (∀ p ∈ es, Plain U e p.2) → Plain U t (.map es)
  | nilIface {t i} : NoMarshal U t → U.base t = .iface 0 i → Plain U t .nilIface
  | iface {t i t' v} : NoMarshal U t → U.base t = .iface 0 i → (∀ e, U.base t' ≠ .ptr e) → NoMarshal U (.ptr t') → Plain U t' v →
      Plain U t (.iface t' v)
  | ifacePtr {t i t' e v} : NoMarshal U t → U.base t = .iface 0 i → U.base t' = .ptr e → NoMarshal U t' → Plain U e v →
      Plain U t (.iface t' (.ptr v))
  | struct {t j fs} : NoMarshal U t → U.base t = .struct j → fs.length = (U.fields j).length →
      (∀ (i : Nat) f v, (U.fields j)[i]? = some f → fs[i]? = some v → f.exported = true → Plain U f.typ v) → Plain U t (.struct fs)

/-- What is documented of strconv.AppendFloat with bit size 32 on finite floats: it prints the nearest float32, which is
"+Inf" or "-Inf", or a decimal numeral, in exponent format with the letter e, one sign and at least two digits. -/
structure Univ.GoFloats (U : Univ) : Prop where
  plain : ∀ neg m e, NumJson.toF32 (.fin m e) ≠ .inf →
    ∃ x : NumText, x.Ok ∧ RfcInt x.ip ∧ x.ex = none ∧ U.fmtFloat (.num neg (.fin m e)) 32 102 = x.text
  exp : ∀ neg m e, NumJson.toF32 (.fin m e) ≠ .inf → ∃ (x : NumText) (sg : UInt8) (ds : Bytes), x.Ok ∧ RfcInt x.ip ∧
    x.ex = some (101, [sg], ds) ∧ 2 ≤ ds.length ∧ U.fmtFloat (.num neg (.fin m e)) 32 101 = x.text
  over : ∀ neg m e c, NumJson.toF32 (.fin m e) = .inf → U.fmtFloat (.num neg (.fin m e)) 32 c = if neg then b!"-Inf" else b!"+Inf"
  single : ∀ neg m e c, U.fmtFloat (.num neg (.fin m e)) 32 c = U.fmtFloat (.num neg (NumJson.toF32 (.fin m e))) 32 c

/-- A float that is not finite, or does not overflow a float32. -/
def Fits32 (f : Flt) : Prop := ∀ neg m e, f = .num neg (.fin m e) → NumJson.toF32 (.fin m e) ≠ .inf

/-- Every string in a value (other than map keys) has `P`, every float `Q`. -/
inductive AllLeaf (P : Bytes → Prop) (Q : Flt → Prop) : GV → Prop
  | bool {b} : AllLeaf P Q (.bool b)
  | int {i} : AllLeaf P Q (.int i)
  | uint {n} : AllLeaf P Q (.uint n)
  | float {f} : Q f → AllLeaf P Q (.float f)
  | str {s} : P s → AllLeaf P Q (.str s)
  | nilPtr : AllLeaf P Q .nilPtr
  | ptr {v} : AllLeaf P Q v → AllLeaf P Q (.ptr v)
  | nilSlice : AllLeaf P Q .nilSlice
  | slice {arr len} : (∀ x ∈ arr.take len, AllLeaf P Q x) → AllLeaf P Q (.slice arr len)
  | array {xs} : (∀ x ∈ xs, AllLeaf P Q x) → AllLeaf P Q (.array xs)
  | nilMap : AllLeaf P Q .nilMap
  | map {es} : (∀ p ∈ es, AllLeaf P Q p.2) → AllLeaf P Q (.map es)
  | nilIface : AllLeaf P Q .nilIface
  | iface {t v} : AllLeaf P Q v → AllLeaf P Q (.iface t v)
  | struct {fs} : (∀ x ∈ fs, AllLeaf P Q x) → AllLeaf P Q (.struct fs)
  | opaque : AllLeaf P Q .opaque

/-- Every string in a value has `P`. -/
def AllStr (P : Bytes → Prop) : GV → Prop := AllLeaf P (fun _ => True)

/-- Every float in a value has `Q`. -/
def AllFlt (Q : Flt → Prop) : GV → Prop := AllLeaf (fun _ => True) Q

/-- The names of exported fields need no escaping, and none of them has the 8bit hint without the html hint. -/
def Univ.PlainTags (U : Univ) (o : Options) : Prop :=
  ∀ j f, f ∈ U.fields j → f.exported = true → RfcBody (o.parseField f).1 ∧
    ((o.parseField f).2.1.raw = true → (o.parseField f).2.1.html = true)

/-- A field of a struct value is written: it is not below a nil pointer and not omitted. -/
def Keeps (U : Univ) (o : Options) (v : GV) (c : Cand) : Prop := ∃ x, sub v c.index = some x ∧ Omits U o c x false

/-- An argument of `Marshal`: a value of a type without marshal methods, or a pointer to one. -/
def MarshalArg (U : Univ) (t : Ty) (v : GV) : Prop :=
  ((∀ e, U.base t ≠ .ptr e) ∧ NoMarshal U (.ptr t) ∧ Plain U t v) ∨
  ∃ e x, v = .ptr x ∧ U.base t = .ptr e ∧ NoMarshal U t ∧ Plain U e x

/-- What `Marshal` encodes an argument as: a pointer stands for what it points to. -/
def MarshalsAs (U : Univ) (t : Ty) (v : GV) (j : JVal) : Prop :=
  ((∀ e, U.base t ≠ .ptr e) ∧ Encodes U defaultOptions Hint.none t v j) ∨
  ∃ e x, v = .ptr x ∧ U.base t = .ptr e ∧ Encodes U defaultOptions Hint.none e x j

/-- No type has an omit method. -/
def Univ.NoOmitMethod (U : Univ) : Prop := ∀ name t, U.omitMethod name t = none

/-- Embedded pointers point to structs. -/
def Univ.EmbedsStructs (U : Univ) : Prop :=
  ∀ j f e, f ∈ U.fields j → f.anon = true → U.base f.typ = .ptr e → ∃ i, U.base e = .struct i

end Verif.Unjson
