import Verif.Model.UnOptions

/-!
# Model of codec construction (unjson/cache.go:69-124, codec.go, omit.go, the `new*` functions of encode.go, decode.go)

Codecs are objects with references to each other (they are cyclic for recursive types): `Codecs` is a store of objects
and the `cache` map. Construction is a state transformer; `diverge` means that the Go function recurses forever (more
precisely: that the fuel was not enough).
-/

namespace Verif.Unjson
open Verif Verif.Njson

/-- unjson decoders; a `Nat` is a reference to an object in the store. -/
inductive Dec
  | njson
  | json
  | text
  | iface
  | bool
  | int
  | uint
  | float
  | string
  | ptr (r : Nat)
  | slice (r : Nat)
  | array (r : Nat)
  | map (r : Nat)
  | struct (r : Nat)
  deriving DecidableEq

/-- unjson encoders -/
inductive Enc
  | njson
  | json
  | text
  | iface
  | bool
  | int
  | uint
  | float (bits : Nat) (allowInf allowNaN : Bool)
  /-- encode.go:169 `stringEncoder` -/
  | str (html : Bool)
  | rawStr
  | ptr (r : Nat)
  | slice (r : Nat)
  | array (r : Nat)
  | map (r : Nat)
  | struct (r : Nat)
  deriving DecidableEq

/-- unjson/omit.go: the omiters. `method`, `ptrMethod`, `elemMethod` are `omitMethod` (the method of type `t`) alone,
inside `ptrOmiter` and inside `elemOmiter`. -/
inductive Omiter
  | never
  | always
  | nil
  | float
  | int
  | uint
  | bool
  | zeroLen
  | method (name : Bytes) (t : Ty)
  | ptrMethod (name : Bytes) (t : Ty)
  | elemMethod (name : Bytes) (t : Ty)
  | array (n : Nat) (o : Omiter)
  | struct (r : Nat)
  deriving DecidableEq

/-- unjson/codec.go:30-36 `codec` -/
structure Codec where
  key : Bytes
  index : List Int
  dec : Dec
  enc : Enc
  om : Omiter
  deriving DecidableEq

/-- The objects in the store; `none` is a field that is not filled in yet. -/
inductive Obj
  /-- decode.go:324-328 `ptrDecoder` (`typ` is the element type) -/
  | ptrD (typ : Ty) (d : Option Dec)
  /-- decode.go:225-228 `sliceDecoder` -/
  | sliceD (typ : Ty) (d : Option Dec)
  /-- decode.go:170-175 `arrayDecoder` (`el`: the type of `zeroValue`) -/
  | arrayD (size : Nat) (el : Ty) (d : Option Dec)
  /-- decode.go:271-277 `mapDecoder`; its `keys` is never used -/
  | mapD (typ : Ty) (d : Option Dec)
  /-- codec.go:9-13 `structCodec` -/
  | struct (typ : Ty) (fields : List Codec)
  /-- encode.go:272-274 `ptrEncoder`. Here and in the next two, `typ` and `h` are not in the Go struct and never read;
  they record what the encoder was made for. -/
  | ptrE (typ : Ty) (h : Hint) (e : Option Enc)
  /-- encode.go:294-296 `sliceEncoder` -/
  | sliceE (typ : Ty) (h : Hint) (e : Option Enc)
  /-- encode.go:331-334 `arrayEncoder` -/
  | arrayE (typ : Ty) (h : Hint) (size : Nat) (e : Option Enc)
  /-- encode.go:219-223 `mapEncoder` -/
  | mapE (typ : Ty) (keys : Enc) (e : Option Enc)

/-- What the cache holds: a decoder or an encoder; only a struct codec is both. -/
inductive CV
  | dec (d : Dec)
  | enc (e : Enc)
  deriving DecidableEq

/-- The type assertion `x.(decoder)` -/
def CV.asDec : CV → Option Dec
  | .dec d => some d
  | .enc (.struct r) => some (.struct r)
  | .enc _ => none

/-- The type assertion `x.(encoder)` -/
def CV.asEnc : CV → Option Enc
  | .enc e => some e
  | .dec (.struct r) => some (.struct r)
  | .dec _ => none

/-- The type assertion `x.(*structCodec)` -/
def CV.asStruct : CV → Option Nat
  | .enc (.struct r) => some r
  | .dec (.struct r) => some r
  | _ => none

/-- The store and the cache (cache.go:69-75); a new entry shadows an old one with the same key. -/
structure Codecs where
  objs : List Obj
  cache : List ((Ty × Hint) × CV)

def Codecs.empty : Codecs := ⟨[], []⟩

/-- `c[key]` -/
def Codecs.find (c : Codecs) (t : Ty) (h : Hint) : Option CV := (c.cache.find? fun e => e.1 = (t, h)).map (·.2)

/-- `c[key] = x` -/
def Codecs.put (c : Codecs) (t : Ty) (h : Hint) (x : CV) : Codecs := { c with cache := ((t, h), x) :: c.cache }

/-- Write to an object. -/
def Codecs.upd (c : Codecs) (r : Nat) (f : Obj → Obj) : Codecs := { c with objs := c.objs.modify r f }

/-- Results of construction. -/
inductive Res (α : Type) where
  | ok (a : α)
  | err (e : UErr)
  | diverge

abbrev Bld (α : Type) := Codecs → Res (α × Codecs)

def Bld.pure {α : Type} (a : α) : Bld α := fun c => .ok (a, c)
def Bld.bind {α β : Type} (m : Bld α) (f : α → Bld β) : Bld β := fun c =>
  match m c with
  | .ok (a, c) => f a c
  | .err e => .err e
  | .diverge => .diverge

instance : Monad Bld where
  pure := Bld.pure
  bind := Bld.bind

def Bld.fail {α : Type} (e : UErr) : Bld α := fun _ => .err e
def Bld.diverge {α : Type} : Bld α := fun _ => .diverge
/-- `new(...)` -/
def Bld.alloc (o : Obj) : Bld Nat := fun c => .ok (c.objs.length, { c with objs := c.objs ++ [o] })
def Bld.put (t : Ty) (h : Hint) (x : CV) : Bld Unit := fun c => .ok ((), c.put t h x)
def Bld.upd (r : Nat) (f : Obj → Obj) : Bld Unit := fun c => .ok ((), c.upd r f)
def Bld.get : Bld Codecs := fun c => .ok (c, c)

/-- Fill in the decoder of an object. -/
def Obj.setDec (d : Dec) : Obj → Obj
  | .ptrD t _ => .ptrD t (some d)
  | .sliceD t _ => .sliceD t (some d)
  | .arrayD n t _ => .arrayD n t (some d)
  | .mapD t _ => .mapD t (some d)
  | o => o

/-- Fill in the encoder of an object. -/
def Obj.setEnc (e : Enc) : Obj → Obj
  | .ptrE t h _ => .ptrE t h (some e)
  | .sliceE t h _ => .sliceE t h (some e)
  | .arrayE t h n _ => .arrayE t h n (some e)
  | .mapE t k _ => .mapE t k (some e)
  | o => o

/-- codec.go:15-17 `Add` -/
def Obj.add (f : Codec) : Obj → Obj
  | .struct t fs => .struct t (fs ++ [f])
  | o => o

/-- The fields of a struct codec. -/
def Codecs.fieldsOf (c : Codecs) (r : Nat) : List Codec :=
  match c.objs[r]? with
  | some (.struct _ fs) => fs
  | _ => []

/-- codec.go:19-27 `Get` -/
def getCodec (fs : List Codec) (key : Bytes) : Option Codec := fs.find? fun f => f.key = key

/-- codec.go:250-258: lexicographic comparison of indices of the same length -/
def cmpLex : List Int → List Int → Int
  | j :: a, jj :: b => if j > jj then -1 else if jj > j then 1 else cmpLex a b
  | _, _ => 0

/-- codec.go:245-262 `cmpIndex` -/
def cmpIndex (a b : List Int) : Int :=
  if a.length > b.length then -1
  else if a.length = b.length then cmpLex a b
  else 1

/-! ## Omiters -/

/-- omit.go:115-140 `newCustomOmiter` with `customOmiter` (omit.go:85-93). The methods of an interface type are
not modelled (for them `method.Func.Type()` panics). -/
def newCustomOmiter (U : Univ) (t : Ty) (name : Bytes) : Option Omiter :=
  let name := if name = [] then defaultOmitMethod else name
  if (U.omitMethod name t).isSome then some (.method name t)
  else
    match U.base t with
    | .ptr e => if (U.omitMethod name e).isSome then some (.ptrMethod name e) else none
    | _ => if (U.omitMethod name (.ptr t)).isSome then some (.elemMethod name (.ptr t)) else none

/-- omit.go:166-198 `newOmiter` -/
def newOmiter (U : Univ) (name : Bytes) : Nat → Ty → Bld Omiter
  | 0, _ => Bld.diverge
  | fuel + 1, t =>
    match newCustomOmiter U t name with
    | some o => Bld.pure o
    | none =>
      match U.base t with
      | .ptr _ => Bld.pure .nil
      | .struct _ => Bld.pure .never
      | .slice _ => Bld.pure .zeroLen
      | .map _ _ => Bld.pure .zeroLen
      | .string => Bld.pure .zeroLen
      | .array n e => (newOmiter U name fuel e).bind fun o => Bld.pure (.array n o)
      | .iface m _ => Bld.pure (if m = 0 then .nil else .always)
      | .int _ => Bld.pure .int
      | .uint _ => Bld.pure .uint
      | .float _ => Bld.pure .float
      | .bool => Bld.pure .bool
      | .other => Bld.pure .always
      | .named _ => Bld.pure .always

/-- codec.go:136-145: the omiter of a field; codec.go:38-44 for a struct codec. -/
def fieldOmiter (U : Univ) (o : Options) (fuel : Nat) (t : Ty) (hints : Hint) (e : Enc) (c : Codecs) : Res (Omiter × Codecs) :=
  if hints.omitempty then
    match e with
    | .struct r =>
      match c.objs[r]? with
      | some (.struct typ _) => .ok ((newCustomOmiter U typ o.omitMethod).getD (.struct r), c)
      | _ => .ok (.struct r, c) -- not reached: `r` is a struct codec
    | _ => newOmiter U o.omitMethod fuel t c
  else .ok (.never, c)

/-! ## Codecs -/

/-- encode.go:171-180 `newStringEncoder` -/
def newStringEncoder (h : Hint) : Enc := if h.html then .str true else if h.raw then .rawStr else .str false

/-- codec.go:109-124: the index of the fields of an embedded struct or of an embedded field that is none, and the
number of the embedded struct type. -/
def embedding (U : Univ) (f : Field) (tagged : Bool) (index : List Int) : List Int × Option Nat :=
  if !tagged && f.anon then
    match U.base f.typ with
    | .ptr t =>
      match U.base t with
      | .struct j => (index ++ [-1], some j)
      | _ => (index ++ [-1], none)
    | .struct j => (index, some j)
    | _ => (index, none)
  else (index, none)

/-- encode.go:103-110: the encoder of a type with methods -/
def encMeth (U : Univ) (t : Ty) : Option Enc :=
  if U.impl t .appender then some .njson
  else if U.impl t .jsonMarshaler then some .json
  else if U.impl t .textMarshaler then some .text
  else none

/-- decode.go:130-137: the decoder of a type with methods -/
def decMeth (U : Univ) (t : Ty) : Option Dec :=
  if U.impl t .unmarshaler then some .njson
  else if U.impl t .jsonUnmarshaler then some .json
  else if U.impl t .textUnmarshaler then some .text
  else none

/-- encode.go:232-238: the encoder of map keys -/
def keyEnc (U : Univ) (k : Ty) : Option Enc :=
  if U.impl k .textMarshaler then some .text
  else if U.base k = .string then some (.str false)
  else none

/-- decode.go:287-293: whether a type can be the key of a decoded map -/
def keyOk (U : Univ) (k : Ty) : Bool := U.impl k .textUnmarshaler || decide (U.base k = .string)

mutual
/-- cache.go:111-124 `decoder` -/
def cacheDecoder (U : Univ) (o : Options) : Nat → Ty → Bld Dec
  | 0, _ => Bld.diverge
  | fuel + 1, t => Bld.get.bind fun c =>
    match (c.find t Hint.none).bind CV.asDec with
    | some d => Bld.pure d
    | none => (newDecoder U o fuel t).bind fun d => (Bld.put t Hint.none (.dec d)).bind fun _ => Bld.pure d

/-- decode.go:126-168 `newDecoder` with the constructors it calls (:177-192, :230-241, :279-301, :330-342) -/
def newDecoder (U : Univ) (o : Options) : Nat → Ty → Bld Dec
  | 0, _ => Bld.diverge
  | fuel + 1, t =>
    match decMeth U t with
    | some d => Bld.pure d
    | none =>
      match U.base t with
      | .ptr e => (Bld.alloc (.ptrD e none)).bind fun r => (Bld.put t Hint.none (.dec (.ptr r))).bind fun _ =>
          (cacheDecoder U o fuel e).bind fun d => (Bld.upd r (Obj.setDec d)).bind fun _ => Bld.pure (.ptr r)
      | .struct j => (newStructCodec U o fuel t j).bind fun r => Bld.pure (.struct r)
      | .slice e => (Bld.alloc (.sliceD t none)).bind fun r => (Bld.put t Hint.none (.dec (.slice r))).bind fun _ =>
          (cacheDecoder U o fuel e).bind fun d => (Bld.upd r (Obj.setDec d)).bind fun _ => Bld.pure (.slice r)
      | .array n e => (Bld.alloc (.arrayD n e none)).bind fun r => (Bld.put t Hint.none (.dec (.array r))).bind fun _ =>
          (cacheDecoder U o fuel e).bind fun d => (Bld.upd r (Obj.setDec d)).bind fun _ => Bld.pure (.array r)
      | .map k e =>
        if keyOk U k then
          (Bld.alloc (.mapD t none)).bind fun r => (Bld.put t Hint.none (.dec (.map r))).bind fun _ =>
          (cacheDecoder U o fuel e).bind fun d => (Bld.upd r (Obj.setDec d)).bind fun _ => Bld.pure (.map r)
        else Bld.fail .invalidType
      | .iface m _ => if m = 0 then Bld.pure .iface else Bld.fail .invalidType
      | .int _ => Bld.pure .int
      | .uint _ => Bld.pure .uint
      | .float _ => Bld.pure .float
      | .bool => Bld.pure .bool
      | .string => Bld.pure .string
      | .other => Bld.fail .invalidType
      | .named _ => Bld.fail .invalidType -- not reached

/-- cache.go:96-109 `encoder` -/
def cacheEncoder (U : Univ) (o : Options) : Nat → Ty → Hint → Bld Enc
  | 0, _, _ => Bld.diverge
  | fuel + 1, t, h => Bld.get.bind fun c =>
    match (c.find t h).bind CV.asEnc with
    | some e => Bld.pure e
    | none => (newEncoder U o fuel t h).bind fun e => (Bld.put t h (.enc e)).bind fun _ => Bld.pure e

/-- encode.go:99-142 `newEncoder` with the constructors it calls (:225-246, :276-285, :298-307, :336-346, :394-397) -/
def newEncoder (U : Univ) (o : Options) : Nat → Ty → Hint → Bld Enc
  | 0, _, _ => Bld.diverge
  | fuel + 1, t, h =>
    match encMeth U t with
    | some e => Bld.pure e
    | none =>
      match U.base t with
      | .ptr e => (Bld.alloc (.ptrE t h none)).bind fun r => (Bld.put t h (.enc (.ptr r))).bind fun _ =>
          (cacheEncoder U o fuel e h).bind fun d => (Bld.upd r (Obj.setEnc d)).bind fun _ => Bld.pure (.ptr r)
      | .struct j => (newStructCodec U o fuel t j).bind fun r => Bld.pure (.struct r)
      | .slice e => (Bld.alloc (.sliceE t h none)).bind fun r => (Bld.put t h (.enc (.slice r))).bind fun _ =>
          (cacheEncoder U o fuel e h).bind fun d => (Bld.upd r (Obj.setEnc d)).bind fun _ => Bld.pure (.slice r)
      | .array n e => (Bld.alloc (.arrayE t h n none)).bind fun r => (Bld.put t h (.enc (.array r))).bind fun _ =>
          (cacheEncoder U o fuel e h).bind fun d => (Bld.upd r (Obj.setEnc d)).bind fun _ => Bld.pure (.array r)
      | .map k e =>
        match keyEnc U k with
        | some ke => (Bld.alloc (.mapE t ke none)).bind fun r => (Bld.put t Hint.none (.enc (.map r))).bind fun _ =>
            (cacheEncoder U o fuel e Hint.none).bind fun d => (Bld.upd r (Obj.setEnc d)).bind fun _ => Bld.pure (.map r)
        | none => Bld.fail .invalidType
      | .iface m _ => if m = 0 then Bld.pure .iface else Bld.fail .invalidType
      | .int _ => Bld.pure .int
      | .uint _ => Bld.pure .uint
      | .float .b32 => Bld.pure (.float 32 o.allowInf o.allowNaN)
      | .float .b64 => Bld.pure (.float 32 o.allowInf o.allowNaN)
      | .bool => Bld.pure .bool
      | .string => Bld.pure (newStringEncoder h)
      | .other => Bld.fail .invalidType
      | .named _ => Bld.fail .invalidType -- not reached

/-- codec.go:158-179 `newStructCodec`; `j` is the number of struct type `t`. -/
def newStructCodec (U : Univ) (o : Options) : Nat → Ty → Nat → Bld Nat
  | 0, _, _ => Bld.diverge
  | fuel + 1, t, j => Bld.get.bind fun c =>
    match (c.find t Hint.none).bind CV.asStruct with
    | some r => Bld.pure r
    | none => (Bld.alloc (.struct t [])).bind fun r => (Bld.put t Hint.none (.dec (.struct r))).bind fun _ =>
        (mergeFields U o fuel r (U.fields j) 0 []).bind fun _ => Bld.pure r

/-- codec.go:89-156 `merge`: the loop over the fields, from field `i` on, into struct codec `r`. Fields that are not
exported cannot be set (codec.go:98). The slice `index` is rebuilt from its first `depth` elements for every field
(codec.go:107), which nothing overwrites. -/
def mergeFields (U : Univ) (o : Options) : Nat → Nat → List Field → Nat → List Int → Bld Unit
  | 0, _, _, _, _ => Bld.diverge
  | _ + 1, _, [], _, _ => Bld.pure ()
  | fuel + 1, r, f :: fs, i, index =>
    if f.exported = false then mergeFields U o fuel r fs (i + 1) index
    else
      let p := o.parseField f
      if p.1 = b!"-" then mergeFields U o fuel r fs (i + 1) index
      else
        let q := embedding U f p.2.2 (index ++ [(i : Int)])
        (match q.2 with
          | some j => mergeFields U o fuel r (U.fields j) 0 q.1
          | none => addField U o fuel r f.typ p.1 p.2.1 q.1).bind fun _ => mergeFields U o fuel r fs (i + 1) index

/-- codec.go:126-153: add the codec of one field -/
def addField (U : Univ) (o : Options) : Nat → Nat → Ty → Bytes → Hint → List Int → Bld Unit
  | 0, _, _, _, _, _ => Bld.diverge
  | fuel + 1, r, t, key, h, index => Bld.get.bind fun c =>
    match getCodec (c.fieldsOf r) key with
    | some ff =>
      if cmpIndex ff.index index ≠ -1 then Bld.pure () else buildField U o fuel r t key h index
    | none => buildField U o fuel r t key h index

/-- codec.go:130-152 -/
def buildField (U : Univ) (o : Options) : Nat → Nat → Ty → Bytes → Hint → List Int → Bld Unit
  | 0, _, _, _, _, _ => Bld.diverge
  | fuel + 1, r, t, key, h, index =>
    (cacheDecoder U o fuel t).bind fun d => (cacheEncoder U o fuel t h).bind fun e =>
    Bld.bind (fieldOmiter U o fuel t h e) fun om =>
    Bld.upd r (Obj.add ⟨key, index, d, e, om⟩)
end

/-! ## Entry points -/

/-- encode.go:28-31 `typeEncoder` with the objects it refers to -/
structure TypeEncoder where
  typ : Ty
  enc : Enc
  objs : List Obj

/-- encode.go:66-97 `NewTypeEncoder`, `newTypeEncoder` (for `typ != nil`) -/
def newTypeEncoder (U : Univ) (o : Options) (fuel : Nat) (t : Ty) : Res TypeEncoder :=
  let o := o.normalize
  let mtyp := match U.base t with | .ptr e => e | _ => t
  let ptyp := match U.base t with | .ptr _ => t | _ => .ptr t
  match encMeth U ptyp with
  | some e => .ok ⟨mtyp, e, []⟩
  | none =>
    match newEncoder U o fuel mtyp Hint.none Codecs.empty with
    | .ok (e, c) => .ok ⟨mtyp, e, c.objs⟩
    | .err e => .err e
    | .diverge => .diverge

/-- The values of interface type `Decoder` that `NewTypeDecoder` returns -/
inductive TypeDecoder
  | njson
  | json
  | text
  | iface
  /-- decode.go:33-36 `typeDecoder` -/
  | typ (t : Ty) (d : Dec) (objs : List Obj)

/-- decode.go:94-124 `NewTypeDecoder` (for `typ != nil`) -/
def newTypeDecoder (U : Univ) (tag : Bytes) (fuel : Nat) (t : Ty) : Res TypeDecoder :=
  match U.base t with
  | .iface m _ => if m = 0 then .ok .iface else .err .invalidType
  | .ptr e =>
    if U.impl t .unmarshaler then .ok .njson
    else if U.impl t .jsonUnmarshaler then .ok .json
    else if U.impl t .textUnmarshaler then .ok .text
    else
      match newDecoder U { tag := if tag = [] then defaultTag else tag } fuel e Codecs.empty with
      | .ok (d, c) => .ok (.typ t d c.objs)
      | .err e => .err e
      | .diverge => .diverge
  | _ => .err .invalidType

end Verif.Unjson
