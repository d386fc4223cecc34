import Verif.Model.GenRun
import Verif.Model.ErrText

/-!
# Model of `internal/generator/generator.go` and `cmd/njson`: which methods are generated, and the file they are written to

A method in the buffer of a generator is represented by its receiver, its type and its block (Gen.lean), not by its text. What packages
`regexp`, `path/filepath`, `alxarch/meta` and the file system give is in `World`, and arbitrary.

Simplifications. The Go parser and `go/format` are taken to keep comments, imports and declarations, and to refuse a method whose receiver is not
an identifier. `meta.Code` collects the imports of the codes that are inserted into it (`Code.Import`); packages of the types that are inserted are
not modelled: the types that generated code mentions are taken to be declared in the package or predeclared. The path of the package is its name
(generator.go:63, :88: `p.Package(name, name, ...)`).
-/

namespace Verif.GenFile
open Verif Verif.Njson Verif.Unjson Verif.Gen

/-- `types.Package` -/
structure Pkg where
  path : Bytes
  name : Bytes
deriving DecidableEq

/-- generator.go:165-197: the packages that generated code can mention -/
def njsonPkg : Pkg := ⟨b!"github.com/alxarch/njson", b!"njson"⟩
def strjsonPkg : Pkg := ⟨b!"github.com/alxarch/njson/strjson", b!"strjson"⟩
def numjsonPkg : Pkg := ⟨b!"github.com/alxarch/njson/numjson", b!"numjson"⟩
def jsonPkg : Pkg := ⟨b!"encoding/json", b!"json"⟩
def strconvPkg : Pkg := ⟨b!"strconv", b!"strconv"⟩
/-- unmarshal.go:223, :245 -/
def timePkg : Pkg := ⟨b!"time", b!"time"⟩

mutual
/-- The calls of `Import` in append.go:167-278 -/
def aImports : ABlock → List Pkg
  | .callAppend => []
  | .callJSON => []
  | .callText => []
  | .ptr b => aImports b
  | .map k b => aImports k ++ aImports b
  | .slice b => aImports b
  | .struct fs => aImportsF fs
  | .bool => []
  | .raw => []
  | .str => [strjsonPkg]
  | .float => [numjsonPkg]
  | .uint => [strconvPkg]
  | .int => [strconvPkg]
  | .any => [jsonPkg]
def aImportsF : AFields → List Pkg
  | .nil => []
  | .cons _ _ _ _ b rest => aImports b ++ aImportsF rest
end

mutual
/-- The calls of `Import` in unmarshal.go:107-355 -/
def uImports : UBlock → List Pkg
  | .time => [timePkg]
  | .duration => [timePkg]
  | .callNode => []
  | .callJSON => []
  | .callText => []
  | .slice _ b => njsonPkg :: uImports b
  | .ptr _ b => uImports b
  | .map _ _ b => njsonPkg :: uImports b
  | .struct cs => njsonPkg :: uImportsC cs
  | .any => [njsonPkg]
  | .bool _ => [njsonPkg]
  | .str _ => []
  | .raw _ => []
  | .int _ => [njsonPkg]
  | .uint _ => [njsonPkg]
  | .float _ => [njsonPkg]
def uImportsC : UCases → List Pkg
  | .nil => []
  | .cons _ _ _ b rest => uImports b ++ uImportsC rest
end

/-- A generated method: the name of its receiver, the name of the receiver's type, the name of the method, the block. -/
inductive Method
  /-- append.go:30-41 -/
  | append (recv typ name : Bytes) (b : ABlock)
  /-- unmarshal.go:18-37 -/
  | unmarshal (recv typ name : Bytes) (b : UBlock)

/-- `strings.ToLower(typName[:1])` (append.go:29, unmarshal.go:17): a part of a character is not UTF-8, and becomes U+FFFD. -/
def receiver : Bytes → Bytes
  | [] => []
  | c :: _ => if c < 0x80 then [if 65 ≤ c ∧ c ≤ 90 then c + 32 else c] else [0xEF, 0xBF, 0xBD]

/-- generator.go:31-37 `Generator`: the package, the paths to import (the keys of the map; every path occurs once) and the buffer -/
structure Generator where
  name : Bytes
  imports : List Pkg := []
  buffer : List Method := []

/-- generator.go:117-120 `Reset` -/
def Generator.reset (g : Generator) : Generator := { g with buffer := [], imports := [] }

/-- generator.go:130-134: `g.imports[pkg.Path()] = pkg` -/
def addImport (g : Generator) (p : Pkg) : Generator :=
  if p.path ≠ g.name then { g with imports := p :: g.imports.filter fun q => q.path ≠ p.path } else g

/-- generator.go:123-136 `Import` -/
def Generator.importAll (g : Generator) (ps : List Pkg) : Generator := ps.foldl addImport g

/-- generator.go:104-114 `Filename` -/
def Generator.filename (g : Generator) : Bytes :=
  if b!"_test" <:+ g.name then g.name.take (g.name.length - 5) ++ b!"_njson_test.go" else g.name ++ b!"_njson.go"

/-- `filepath.Base` of an import path: what follows the last slash -/
def base (p : Bytes) : Bytes := (p.reverse.takeWhile (· ≠ 47)).reverse

/-- generator.go:213-217: an import declaration -/
def importLine (hi : Nat → Bool) (p : Pkg) : Bytes :=
  if base p.path = p.name then b!"import " ++ ErrText.quoteStr hi p.path else b!"import " ++ p.name ++ b!" " ++ ErrText.quoteStr hi p.path

/-- `strings.Join(lines, "\n")` -/
def joinLines : List Bytes → Bytes
  | [] => []
  | [l] => l
  | l :: ls => l ++ [10] ++ joinLines ls

/-- generator.go:206-222 `Header`, at time `ts`, when the map of imports is iterated over in order `ps` -/
def header (hi : Nat → Bool) (ts name : Bytes) (ps : List Pkg) : Bytes :=
  joinLines ((b!"// Code generated by njson on " ++ ts ++ b!"; DO NOT EDIT.") :: (b!"package " ++ name) :: ps.map (importLine hi))

/-- A generated file: its name, the header and the methods -/
structure File where
  header : Bytes
  imports : List Pkg
  methods : List Method

/-- generator.go:139-147 `DumpTo`: what is written (to a writer that does not fail), and the generator afterwards. `bytes.Buffer.WriteTo` empties
the buffer. `ps` is the order in which the imports are iterated over. -/
def Generator.dumpTo (hi : Nat → Bool) (ts : Bytes) (ps : List Pkg) (g : Generator) : File × Generator :=
  (⟨header hi ts g.name ps, ps, g.buffer⟩, { g with buffer := [] })

mutual
/-- The names in the block stand for themselves in string literals. -/
def aNamesOk : ABlock → Bool
  | .ptr b => aNamesOk b
  | .map k b => aNamesOk k && aNamesOk b
  | .slice b => aNamesOk b
  | .struct fs => aNamesOkF fs
  | _ => true
def aNamesOkF : AFields → Bool
  | .nil => true
  | .cons name _ _ _ b rest => litOk name && aNamesOk b && aNamesOkF rest
end

mutual
/-- The names in the block stand for themselves in raw string literals. -/
def uNamesOk : UBlock → Bool
  | .ptr _ b => uNamesOk b
  | .map _ _ b => uNamesOk b
  | .slice _ b => uNamesOk b
  | .struct cs => uNamesOkC cs
  | _ => true
def uNamesOkC : UCases → Bool
  | .nil => true
  | .cons name _ _ b rest => name.all (fun c => c != 96 && c != 13) && uNamesOk b && uNamesOkC rest
end

/-- An identifier of one letter: the receivers that are identifiers (U+FFFD, which `receiver` also gives, is not a letter) -/
def isIdent : Bytes → Bool
  | [c] => (65 ≤ c && c ≤ 90) || (97 ≤ c && c ≤ 122) || c = 95
  | _ => false

/-- The text of the method is surely Go: the receiver is an identifier, and all names are harmless in literals. -/
def Method.plain : Method → Bool
  | .append r _ _ b => isIdent r && aNamesOk b
  | .unmarshal r _ _ b => isIdent r && uNamesOk b

/-- The Go parser accepts the methods; `odd` says so for methods that are not plain. -/
def parses (odd : List Method → Bool) (ms : List Method) : Bool := ms.all Method.plain || odd ms

/-- generator.go:150-162 `PrintTo`: `none` when the parser refuses the file -/
def Generator.printTo (odd : List Method → Bool) (hi : Nat → Bool) (ts : Bytes) (ps : List Pkg) (g : Generator) : Option File × Generator :=
  let r := g.dumpTo hi ts ps
  (if parses odd g.buffer then some r.1 else none, r.2)

/-- options.go:39-52: the names of the methods -/
structure Names where
  append : Bytes := b!"AppendJSON"
  unmarshal : Bytes := b!"UnmarshalNodeJSON"

/-- A package that is loaded: the defined struct types in the order of `meta.DefinedTypes`, what `LookupType` finds, the fields and types -/
structure Package where
  name : Bytes
  structs : List Bytes
  lookup : Bytes → Option Ty
  env : Env

/-- What can go wrong: `Fatal` in njson.go, and the errors of the generator -/
inductive Fatal
  /-- njson.go:48 -/
  | path
  /-- njson.go:71 -/
  | badMatch
  /-- njson.go:82, the package cannot be loaded -/
  | load
  /-- njson.go:93 -/
  | filter
  /-- njson.go:106 -/
  | noTypes
  /-- append.go:27, unmarshal.go:15 -/
  | notFound
  /-- typeError, and code that cannot be formatted -/
  | unsupported
  /-- njson.go:149 -/
  | create
  /-- njson.go:165 -/
  | output

inductive Run (α : Type)
  | ok (a : α)
  | fatal (e : Fatal)
  | diverge

def Run.bind {α β : Type} : Run α → (α → Run β) → Run β
  | .ok a, f => f a
  | .fatal e, _ => .fatal e
  | .diverge, _ => .diverge

/-- unmarshal.go:11-50 `Unmarshaler` and `WriteUnmarshaler`. `meta.Code.Format` refuses what is not Go. -/
def writeUnmarshaler (odd : List Method → Bool) (P : Package) (o : GenOptions) (N : Names) (fuel : Nat) (g : Generator) (typ : Bytes) : Run Generator :=
  match P.lookup typ with
  | none => .fatal .notFound
  | some t =>
    match typeUnmarshaler P.env o fuel t with
    | .diverge => .diverge
    | .err _ => .fatal .unsupported
    | .ok b =>
      let m := Method.unmarshal (receiver typ) typ N.unmarshal b
      if parses odd [m] then
        let g := g.importAll (uImports b ++ [njsonPkg])
        .ok { g with buffer := g.buffer ++ [m] }
      else .fatal .unsupported

/-- append.go:12-42 `WriteAppender` and `Appender` -/
def writeAppender (P : Package) (o : GenOptions) (N : Names) (fuel : Nat) (g : Generator) (typ : Bytes) : Run Generator :=
  match P.lookup typ with
  | none => .fatal .notFound
  | some t =>
    match typeAppender P.env o fuel t [] with
    | .diverge => .diverge
    | .err _ => .fatal .unsupported
    | .ok b =>
      let g := g.importAll (aImports b)
      .ok { g with buffer := g.buffer ++ [.append (receiver typ) typ N.append b] }

/-! ## Reading source files -/

/-- A file of the package's directory -/
structure SrcFile where
  name : Bytes
  text : Bytes
deriving DecidableEq

/-- The text of a comment (go/ast `CommentGroup.Text`) that is one line `// ...`: without the slashes and one space, without white space at the end,
and with a line break. -/
def commentText (line : Bytes) : Bytes :=
  let c := line.drop 2
  let c := match c with
    | 32 :: c => c
    | c => c
  (c.reverse.dropWhile fun b => b = 32 || b = 9 || b = 10 || b = 13).reverse ++ [10]

/-- generator.go:201-203 `IsGeneratedByNJSON` of a file whose first comment has text `c` -/
def isGenerated (c : Option Bytes) : Bool :=
  match c with
  | none => false
  | some t => b!"Code generated by njson" <+: t

/-! ## The command -/

/-- njson.go:18-32: the flags -/
structure Flags where
  path : Bytes := b!"."
  tagKey : Bytes := b!"json"
  onlyTagged : Bool := false
  onlyExported : Bool := false
  omitempty : Bool := false
  append : Bool := false
  unmarshal : Bool := false
  matchName : Bytes := b!".*"
  caseMode : Bytes := b!"none"
  write : Bool := false
  debug : Bool := false

/-- The rest of the world. -/
structure World where
  /-- `path.Base(filepath.Abs(path))` -/
  absBase : Bytes → Option Bytes
  /-- `regexp.Compile` and `MatchString` -/
  compile : Bytes → Option (Bytes → Bool)
  /-- the Go parser accepts a file -/
  syntaxOk : Bytes → Bool
  /-- `Comments[0].Text()` of a file that the parser accepts, if it has comments -/
  comment : Bytes → Option Bytes
  /-- `meta.Parser.Package`: type checking the files of a package -/
  check : List SrcFile → Bytes → Option Package
  /-- `strcase.ToSnake`, `strings.ToLower`, `strcase.ToLowerCamel`, `strcase.ToCamel` -/
  snake : Bytes → Bytes
  lower : Bytes → Bytes
  camel : Bytes → Bytes
  upperCamel : Bytes → Bytes
  /-- `os.Create` of a file in the directory succeeds -/
  creates : Bytes → Bool
  /-- the time, and the order in which a map is iterated over -/
  now : Bytes
  order : List Pkg → List Pkg
  /-- the printable characters above U+00FF -/
  hi : Nat → Bool
  /-- the parser accepts methods that are not plain -/
  odd : List Method → Bool
  /-- the formatted text of a file, after its first line -/
  format : File → Bytes

/-- `strings.TrimSuffix(s, path.Ext(s))` for an `s` without slashes: the extension begins with the last dot -/
def trimExt (s : Bytes) : Bytes := if 46 ∈ s then ((s.reverse.dropWhile (· ≠ 46)).drop 1).reverse else s

/-- regexp `QuoteMeta`: the special bytes -/
def special (c : UInt8) : Bool := c ∈ b!"\\.+*?()|[]{}^$"

/-- regexp `QuoteMeta` -/
def quoteMeta (s : Bytes) : Bytes := s.flatMap fun c => if special c then [92, c] else [c]

/-- options.go:55-70 `TransformFieldCase` -/
def transformCase (W : World) (mode : Bytes) : Bytes → Bytes :=
  if mode = b!"snake" then W.snake
  else if mode = b!"lower" then W.lower
  else if mode = b!"camel" then W.camel
  else if mode = b!"Camel" then W.upperCamel
  else id

/-- njson.go:53-74: the options -/
def options (W : World) (f : Flags) : Run GenOptions :=
  let o : GenOptions :=
    { tagKey := f.tagKey, forceOmitEmpty := f.omitempty, onlyExported := f.onlyExported, onlyTagged := f.onlyTagged
      fieldName := if f.caseMode ≠ b!"none" then transformCase W f.caseMode else id }
  if f.matchName ≠ b!".*" then
    match W.compile f.matchName with
    | none => .fatal .badMatch
    | some rx => .ok { o with matchField := rx }
  else .ok o

/-- njson.go:85-97: the filter for the names of types -/
def typeFilter (W : World) (pat : Bytes) : Run (Bytes → Bool) :=
  if pat = [] ∨ pat = b!"*" then .ok fun _ => true
  else if quoteMeta pat = pat then .ok fun name => name = pat
  else
    match W.compile pat with
    | none => .fatal .filter
    | some rx => .ok rx

/-- generator.go:79-91 `NewFromDir`: all files must parse (test files only for a test package); files that njson generated are not
part of the package. -/
def load (W : World) (dir : List SrcFile) (name : Bytes) : Option Package :=
  let files := if b!"_test" <:+ name then dir else dir.filter fun f => ¬ b!"_test.go" <:+ f.name
  if files.all fun f => W.syntaxOk f.text then W.check (files.filter fun f => !isGenerated (W.comment f.text)) name else none

/-- njson.go:116-132: the loop over the types -/
def generate (odd : List Method → Bool) (P : Package) (o : GenOptions) (u a : Bool) (fuel : Nat) : Generator → List Bytes → Run Generator
  | g, [] => .ok g
  | g, t :: ts =>
    ((if u then writeUnmarshaler odd P o {} fuel g t else .ok g).bind fun g =>
      if a then writeAppender P o {} fuel g t else .ok g).bind fun g =>
    generate odd P o u a fuel g ts

/-- njson.go:45-52: the name of the package -/
def packageName (W : World) (f : Flags) (args : List Bytes) : Run Bytes :=
  if args[0]?.getD [] ≠ [] then .ok (args[0]?.getD [])
  else
    match W.absBase f.path with
    | none => .fatal .path
    | some b => .ok (trimExt b)

/-- njson.go:44-83: the package and the options -/
def prepare (W : World) (dir : List SrcFile) (f : Flags) (args : List Bytes) : Run (Package × GenOptions) :=
  (packageName W f args).bind fun pkg =>
  (options W f).bind fun o =>
  match load W dir pkg with
  | none => .fatal .load
  | some P => .ok (P, o)

/-- njson.go:98-107: the types -/
def chosenTypes (W : World) (P : Package) (args : List Bytes) : Run (List Bytes) :=
  (typeFilter W (args[1]?.getD [])).bind fun ok =>
  let ts := P.structs.filter ok
  if ts = [] then .fatal .noTypes else .ok ts

/-- njson.go:43-132: the generator with all methods in its buffer -/
def build (W : World) (fuel : Nat) (dir : List SrcFile) (f : Flags) (args : List Bytes) : Run Generator :=
  (prepare W dir f args).bind fun po =>
  (chosenTypes W po.1 args).bind fun ts =>
  generate W.odd po.1 po.2 (f.unmarshal || f.append == f.unmarshal) (f.append || f.append == f.unmarshal) fuel (Generator.reset { name := po.1.name }) ts

/-- The text of a formatted file: the first line of the header, and what follows -/
def fileText (W : World) (file : File) : Bytes := file.header.takeWhile (· ≠ 10) ++ [10] ++ W.format file

/-- `os.Create` and writing: the file has the new text, other files are unchanged. -/
def putFile (dir : List SrcFile) (f : SrcFile) : List SrcFile := f :: dir.filter fun g => g.name ≠ f.name

/-- njson.go:133-173: what is written to standard output or standard error, and the directory afterwards. The file is created (and emptied) before
it is known whether there is something to write. -/
def output (W : World) (dir : List SrcFile) (f : Flags) (g : Generator) : Run File × List SrcFile :=
  if f.debug then (.ok (g.dumpTo W.hi W.now (W.order g.imports)).1, dir)
  else if f.write ∧ ¬ W.creates g.filename then (.fatal .create, dir)
  else
    let dir := if f.write then putFile dir ⟨g.filename, []⟩ else dir
    match (g.printTo W.odd W.hi W.now (W.order g.imports)).1 with
    | none => (.fatal .output, dir)
    | some file => (.ok file, if f.write then putFile dir ⟨g.filename, fileText W file⟩ else dir)

/-- njson.go:41-174 `main`, on the files of the directory -/
def main (W : World) (fuel : Nat) (dir : List SrcFile) (f : Flags) (args : List Bytes) : Run File × List SrcFile :=
  match build W fuel dir f args with
  | .ok g => output W dir f g
  | .fatal e => (.fatal e, dir)
  | .diverge => (.diverge, dir)

/-! ## What the compiler says about the file -/

/-- The packages that the template of the block mentions; those of `errors` are not imported by any template. -/
def errorsPkg : Pkg := ⟨b!"errors", b!"errors"⟩

mutual
/-- The package qualifiers in the text of the blocks (append.go:167-278) -/
def aMentions : ABlock → List Pkg
  | .ptr b => aMentions b
  | .map k b => aMentions k ++ aMentions b
  | .slice b => aMentions b
  | .struct fs => aMentionsF fs
  | .str => [strjsonPkg] -- strjson.AppendEscaped
  | .float => [numjsonPkg] -- numjson.AppendFloat
  | .uint => [strconvPkg] -- strconv.AppendUint
  | .int => [strconvPkg] -- strconv.AppendInt
  | .any => [jsonPkg] -- json.Marshal
  | .callAppend => []
  | .callJSON => []
  | .callText => []
  | .bool => []
  | .raw => []
def aMentionsF : AFields → List Pkg
  | .nil => []
  | .cons _ _ _ _ b rest => aMentions b ++ aMentionsF rest
end

mutual
/-- The package qualifiers in the text of the blocks (unmarshal.go:107-355) -/
def uMentions : UBlock → List Pkg
  | .time => [timePkg] -- time.Parse
  | .duration => [njsonPkg, timePkg, errorsPkg] -- njson.Number, time.Duration, errors.New
  | .slice _ b => njsonPkg :: uMentions b -- njson.TypeArray
  | .ptr _ b => njsonPkg :: uMentions b -- njson.TypeNull
  | .map _ _ b => njsonPkg :: uMentions b -- njson.TypeNull
  | .struct cs => njsonPkg :: uMentionsC cs -- njson.TypeObject
  | .any => [njsonPkg] -- njson.AnyValue
  | .bool _ => [njsonPkg] -- njson.TypeBoolean
  | .int _ => [njsonPkg] -- njson.TypeNumber
  | .uint _ => [njsonPkg]
  | .float _ => [njsonPkg]
  | .callNode => []
  | .callJSON => []
  | .callText => []
  | .str _ => []
  | .raw _ => []
def uMentionsC : UCases → List Pkg
  | .nil => []
  | .cons _ _ _ b rest => uMentions b ++ uMentionsC rest
end

/-- The packages that a method mentions; `UnmarshalNodeJSON` has a parameter of type `njson.Node`. -/
def Method.mentions : Method → List Pkg
  | .append _ _ _ b => aMentions b
  | .unmarshal _ _ _ b => njsonPkg :: uMentions b

def Method.recv : Method → Bytes
  | .append r _ _ _ => r
  | .unmarshal r _ _ _ => r

/-- The type and the name of a method: no two methods can have the same. -/
def Method.key : Method → Bytes × Bytes
  | .append _ t n _ => (t, n)
  | .unmarshal _ t n _ => (t, n)

/-- The method compiles: the receiver is an identifier and can be used as a value, and the block compiles. -/
def Method.compiles (P : Package) : Method → Bool
  | .append r typ _ b => r ≠ b!"_" && isIdent r && (match P.lookup typ with | some t => appenderCompiles P.env b t | none => false)
  | .unmarshal r typ _ b => r ≠ b!"_" && isIdent r && (match P.lookup typ with | some t => unmarshalerCompiles P.env b t | none => false)

/-- The file compiles together with the rest of the package: every method compiles; the imported packages are the ones that are mentioned,
and have different names; no method is declared twice, in the file or (`declared`: as a method or a field) in the package. -/
structure File.Compiles (P : Package) (declared : Bytes × Bytes → Prop) (f : File) : Prop where
  methods : ∀ m ∈ f.methods, m.compiles P = true
  imported : ∀ m ∈ f.methods, ∀ p ∈ m.mentions, p ∈ f.imports
  used : ∀ p ∈ f.imports, ∃ m ∈ f.methods, p ∈ m.mentions
  distinct : (f.imports.map Pkg.name).Nodup
  once : (f.methods.map Method.key).Nodup
  fresh : ∀ m ∈ f.methods, ¬ declared m.key

end Verif.GenFile
