import Verif.Model.GenFile
import Verif.Spec.GenDec

/-! # Specification of the command `njson`: what is asked for, and the files it reads and writes -/

namespace Verif.GenFile
open Verif Verif.Njson Verif.Unjson Verif.Gen

/-- The characters with a meaning in regular expressions -/
def metaBytes : Bytes := b!"\\.+*?()|[]{}^$"

/-- The pattern asks for the type: there is none, or it is a star; or it is the name; or it is a regular expression that matches. -/
def Selects (W : World) (pat name : Bytes) : Prop :=
  pat = [] ∨ pat = b!"*" ∨ ((∀ c ∈ pat, c ∉ metaBytes) ∧ name = pat) ∨ ((∃ c ∈ pat, c ∈ metaBytes) ∧ ∃ rx, W.compile pat = some rx ∧ rx name = true)

/-- Methods for reading are asked for: by their flag, or by no flag. -/
def Flags.wantsUnmarshal (f : Flags) : Prop := f.unmarshal = true ∨ f.append = false

/-- Methods for writing are asked for. -/
def Flags.wantsAppend (f : Flags) : Prop := f.append = true ∨ f.unmarshal = false

instance (f : Flags) : Decidable f.wantsUnmarshal := inferInstanceAs (Decidable (_ ∨ _))
instance (f : Flags) : Decidable f.wantsAppend := inferInstanceAs (Decidable (_ ∨ _))

/-- The methods that are asked for, for one type: type and name. -/
def wanted (f : Flags) (t : Bytes) : List (Bytes × Bytes) :=
  (if f.wantsUnmarshal then [(t, b!"UnmarshalNodeJSON")] else []) ++ (if f.wantsAppend then [(t, b!"AppendJSON")] else [])

/-- The method is what the generator makes for its type (C76-C84). -/
def Method.Of (P : Package) (o : GenOptions) : Method → Prop
  | .append r typ n b => r = receiver typ ∧ n = b!"AppendJSON" ∧ ∃ t fuel, P.lookup typ = some t ∧ typeAppender P.env o fuel t [] = .ok b
  | .unmarshal r typ n b => r = receiver typ ∧ n = b!"UnmarshalNodeJSON" ∧ ∃ t fuel, P.lookup typ = some t ∧ typeUnmarshaler P.env o fuel t = .ok b

/-- The types that are asked for, by the second argument -/
noncomputable def asked (W : World) (P : Package) (args : List Bytes) : List Bytes := by
  classical exact P.structs.filter fun t => Selects W (args[1]?.getD []) t

/-- The methods are those that are asked for and are what the generator makes of the types; those for reading could be formatted. -/
structure MethodsFor (odd : List Method → Bool) (P : Package) (o : GenOptions) (f : Flags) (ts : List Bytes) (ms : List Method) : Prop where
  keys : ms.map Method.key = ts.flatMap (wanted f)
  of : ∀ m ∈ ms, m.Of P o
  formatted : ∀ r t n b, Method.unmarshal r t n b ∈ ms → parses odd [.unmarshal r t n b] = true

/-- The methods for a type can be written. -/
def CanWrite (odd : List Method → Bool) (P : Package) (o : GenOptions) (f : Flags) (typ : Bytes) : Prop :=
  (f.wantsUnmarshal → ∃ t fuel b, P.lookup typ = some t ∧ typeUnmarshaler P.env o fuel t = .ok b ∧
    parses odd [.unmarshal (receiver typ) typ b!"UnmarshalNodeJSON" b] = true) ∧
  (f.wantsAppend → ∃ t fuel b, P.lookup typ = some t ∧ typeAppender P.env o fuel t [] = .ok b)

/-- What the flags ask for -/
structure Asked (W : World) (f : Flags) (o : GenOptions) : Prop where
  key : o.tagKey = f.tagKey
  omitempty : o.forceOmitEmpty = f.omitempty
  tagged : o.onlyTagged = f.onlyTagged
  exported : o.onlyExported = f.onlyExported
  matches' : f.matchName = b!".*" ∧ o.matchField = (fun _ => true) ∨ f.matchName ≠ b!".*" ∧ W.compile f.matchName = some o.matchField
  names : f.caseMode = b!"snake" ∧ o.fieldName = W.snake ∨ f.caseMode = b!"lower" ∧ o.fieldName = W.lower ∨
    f.caseMode = b!"camel" ∧ o.fieldName = W.camel ∨ f.caseMode = b!"Camel" ∧ o.fieldName = W.upperCamel ∨
    f.caseMode ∉ [b!"snake", b!"lower", b!"camel", b!"Camel"] ∧ o.fieldName = id
  other : o.omitMethod = b!"Omit" ∧ o.selfName = true

/-- The name of the package: the first argument, or the name of the directory without its extension. -/
def PackageName (W : World) (f : Flags) (args : List Bytes) (name : Bytes) : Prop :=
  (∃ rest, args = name :: rest ∧ name ≠ []) ∨
  ((args = [] ∨ ∃ rest, args = [] :: rest) ∧ ∃ d, W.absBase f.path = some d ∧ ((46 ∉ d ∧ name = d) ∨ ∃ ext, d = name ++ 46 :: ext ∧ 46 ∉ ext))

/-- A type name whose first character is a letter of ASCII -/
def AsciiName (t : Bytes) : Prop := ∃ c s, t = c :: s ∧ (65 ≤ c ∧ c ≤ 90 ∨ 97 ≤ c ∧ c ≤ 122)

/-- An identifier of Go begins with a letter of ASCII, an underscore or another character. -/
def IdentName (t : Bytes) : Prop := ∃ c s, t = c :: s ∧ (65 ≤ c ∧ c ≤ 90 ∨ 97 ≤ c ∧ c ≤ 122 ∨ c = 95 ∨ 0x80 ≤ c)

/-- What is used of the parser: the first comment of a file that begins with one line of comment and then has its package clause; and an empty file
is not a Go file. -/
structure World.Go (W : World) : Prop where
  comment : ∀ line rest, b!"//" <+: line → 10 ∉ line → W.comment (line ++ [10] ++ b!"package " ++ rest) = some (commentText line)
  empty : W.syntaxOk [] = false
  format : ∀ file, b!"package " <+: W.format file

end Verif.GenFile
