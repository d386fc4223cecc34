# Formal model of alxarch/njson in Lean 4 — design

## Layout

| directory (under `lean/Verif/`) | content |
|---|---|
| `Model/` | executable model, function by function; every definition cites the Go file and lines |
| `Spec/`  | small specifications that do not mention the model's helpers: RFC 8259 grammar, UTF-8, trees, compact JSON, abstract floats, encoding and decoding rules of the reflection codecs |
| `Proofs/`| helper lemmas (refinements, invariants) |
| `Props/` | the property theorems, one file per area, each with a non-vacuity `example` |

`properties.jsonl` lists the properties, `MANIFEST.json` the theorems for each, `seeded/LOG.jsonl` the wrong programs the theorems were tested
against.

## Modelling decisions

* Bytes are `UInt8`, Go strings and byte slices are `List UInt8`. Lookup tables are transcribed byte for byte.
* Loops with `goto` become structural recursion over the remaining input, carrying the absolute position
  where the code reports it. `s[pos:]` is a list suffix.
* Recursive functions over documents and reflected values take fuel and return `none` when it runs out; Go has no such bound, so the
  theorems say "for some fuel, and then for all larger ones" (terminates) or "for every fuel none" (diverges: stack overflow in Go).
  `C73_fuel` and `C74_fuel` prove that a result does not depend on the fuel. The parser's fuel is proved sufficient for every input.
* A `Document` is a backing array of nodes (capacity = list length) with a visible length and a 64-bit revision.
  A node's `values` is a backing array of `V` with a visible length. Leftovers in spare capacity are part of
  the state, so reuse properties are statements about it.
* Several documents live in a heap `Nat → Doc`; a `Node` is `(id, rev, document reference or nil)`.
* `uint` ids are natural numbers with `maxUint = 2^64-1`; index arithmetic that can overflow in Go
  (`lookup`, `ParseFloat`) is modelled with 64-bit wrap-around.
* float64 is a soft-float (sign, mantissa, exponent, round to nearest even) with `+`, `*`, `/`; its meaning is given in Mathlib's ℚ.
* Goroutines (`Pool`, `Cache`) are state machines over explicit atomic steps; properties hold in every reachable state of every interleaving.
* Reflection: Go types are terms (`Ty`) over a universe `Univ` that gives the underlying types of defined types, the fields and tags of
  structs and the marshal/unmarshal methods. The universe is a variable in every theorem: the theorems hold for all Go programs. Values
  (`GV`) are trees; two pointers to one variable are two copies. Methods of the program are arbitrary functions of the universe.
  Codec objects (`encoder`, `decoder`, `structCodec`) live in a store with references, so recursive types give cyclic codecs as in Go.

## Plan per property

| id | modelled by | proof |
|---|---|---|
| C01–C04 | `Escaped`, `AppendEscaped` loops over (i, pos, out), `utf8.DecodeRune` | loop = structural fold; induction on decoded runes; tables by `decide` over all 256 bytes |
| C05–C08, C57 | `Unescape` with an explicit destination buffer, `Unescaped`, `AppendUnescaped` | both loops refine one structural function; inductive RFC semantics |
| C09–C16 | `parseValue/Array/Object` with arena, positions and errors | arena parser refines a tree parser; tree parser ⇔ inductive grammar |
| C17, C18 | concrete arena with spare capacity | abstraction function that forgets spare capacity commutes with every operation |
| C19–C37, C59, C60, C64 | `Node`/`Document` API | relation `Tree heap node json`; frame lemmas; invariants over all call histories |
| C38, C55 | Pool, Cache step relations | inductive invariants over all reachable states |
| C39, C58 | Type masks | decide over the whole finite domain |
| C40–C45, C61–C63 | `ParseFloat`, `ParseInt`, `AppendFloat` | induction over digits; soft-float exactness and error analysis in ℚ; C61 for all finite numbers takes the shape of strconv's shortest texts as a hypothesis (`Spec/NumBack.lean`) |
| C46–C54, C65–C75, C87–C89 | codec construction and execution over the type universe | codec store refines the inductive rules `Encodes`/`Decodes` (with methods: `Writes`/`Reads`); the rules are functional; termination by measures over types and values |
| C90–C92 | texts of struct tags and arguments | the loops of `Lookup` and `Unquote` against inductive grammars, for texts of any length; tables by the kernel over all bytes |
| C94 | the tree parser | induction over the parser: every error comes with a context that every wanted token completes, and the run up to the token does not look behind it |
| C95 | texts of errors | every part of the text is self-delimiting: quoted strings by `scanQuoted`, bytes by a table, numbers by the space behind them |
| C96–C99 | the command and the generator's buffer | the loop over the types refines the list of methods asked for; imports by induction over the blocks; directory states before and after a run |
| C100 | test cases as functions of options and program | the fold over the options gives the last option of each kind; cases of the outcome of `Parse` |
| C101 | the states of the parser, `Doc.arr` and `Doc.slots` (elements of all arrays of children) | induction over the parser for a bound on nodes by bytes and for the capacity of each node; induction over the grammar for the text |
| C102 | the flags as a record, command lines as lists of words | induction over the words; settings in order refine the last value of each flag |
| C103 | heap of byte arrays, running calls, pool | invariant over the steps: every array has one owner, and the buffer of a call holds its chunks |
| C104 | the two specifications of what is written, and what a common reading of the fields is | the two relations give the same tree by induction on the value; then C78 and C47 |
| C105 | maps as functions against lists of entries | the two recursions proceed in step; then C35, C74 and the uniqueness of `Decodes` |
| C106 | the two specifications of what is stored, and a relation for the trees that both read alike | both relations hold with the same result, by induction on `ReadAlike`; the indices of the fields of a struct are pairwise apart; then C79 and C74 |
| C107 | relation for sequences of calls of `Decode`; the number of values in a list of lines | C17 and C101 for the one `Parse` of a call, `Good` (C56) for what the reader has left |
| C108 | rounding to nearest even in either format | `Decodes` is a function; C40, C41 and C63 for ParseFloat |
| C109 | replacing a subtree at a place | `Local` (what a mutation leaves alone) and induction over the place; unique places from C29 |
| C110 | the table of constructors with the trees they name | the abstract documents of Proofs/Abs.lean |
| C111 | which node a child slot holds | `copyOrAdopt` on the abstract documents; induction over the values of Append |
| C112 | relation `Escapes`, character by character | the loop of AppendEscaped refines it, by induction on the remaining bytes; both directions because the relation is a function |
| C113 | relation `Unescapes` with one rule per kind of escape, malformed ones included | as C112 |
| C114 | `Op.Misses`: which calls do not apply | by cases on the call |
| C115 | sums and products as relations over `Nearest` | the operations of the float model are the rounded exact ones; uniqueness of the nearest float gives both directions |
| C116 | a grammar of Go files with constants and functions (Spec/BytemaperFile.lean) | the printed text is in the grammar, and the grammar is unambiguous, so every reading is the one intended |
| C117 | `ShortestDec`: quantifies over all decimals, with `Nearest` (Spec/FormatFloat.lean) | the decimals that round to a float are those in an interval; the least position at which the interval has a multiple of a power of ten |
| C118 | the values of the numerals (`NumText.value`), the order of magnitudes | numerals left to strconv get the nearest float, which is monotone; the others by the error bound of C63 |
| C119 | `Tree` after both calls, compared as an equivalence over all trees; `ApartFrom` (Spec/Commute.lean) | each edit rewrites the content of its node as a function of the content before and of the identifiers of the inserted values; the two results are related by the old nodes and by nodes with equal trees |
| C120 | `Shuffled` trees, `SameVal` (equal up to the order in which the entries of maps are listed), `Fits` (Spec/UnOrder.lean) | induction on `Fits`: a member can be decoded later, behind members with other names, because the fields have apart paths; `m[k] = v` commutes for different keys |
| C121 | `compact` (a scanner of three states, Spec/Compact.lean), `DropsWs` | induction on the grammar of C11 and C10: the scanner is outside of strings at every token |
| C122 | `NilCall`, `NilArg` (the places of a value at which a method is called through a nil pointer), `Univ.GoMethods` (what Go says about methods of T and *T) | `C87_exact`, induction on the place |
| C123 | `Reads`, `Univ.GoUnmarshal` (a method cannot change its nil receiver) | `C89_exact`, induction on the members; fields are independent of each other |
| C124 | `NilElem` (the places at which a method is called on a nil pointer), `GStops` (the methods that are called, and what they do) | `C78_exact`, induction on the value |
| C125 | `SameRead`, `GSameRead` (two trees that differ only in what has no place in the type, by the type) | C89 and C79 give the rules `Reads`, `GDec`; induction on these with the second tree general |
| C126 | `GDec` (C79), `unmarshalPicks`, `getPath` | inversion of `GDec` at pointers; induction on the members in front of the last one with the name; C79's frame lemma for the members after it |
| C127 | `assocGet`, `assocLast`, `IsGo` (C35), `DistinctKeys` | C19 and C35, induction on the members |
| C128 | `denotedGet`, `PlainKeys`, `EscBody` (the grammar of C11) | C19, C22, C21 and the language of `Parse` (C11) |
| C129 | `UPanics` (the call of a method that panics is reached, over JSON trees) | C79; `UPanics` excludes `GDec` (induction), so exactly one of the two happens |
| C130 | `SameVal` (C120), `TextSame`, `Reordered`, `GoMaps`, `OrderBlind` | induction on `Writes` (C87) and `Encodes` (C47) for successful outcomes; failures by determinism (C87_one) and symmetry |
| C131 | `SameVal`, `Reordered`, `MethodsBlind` | induction on `GEnc` and `GStops` (C78) with the lemmas of C130 |
| C132 | `NamesOnce` (C130), `MethodsAgain`, the relation `Reads` (C89) | what is stored under a name that is not there again stays; induction on `Reads` |
| C133 | `NamesOnce`, `Filled`, `FieldsApart`, `UMethodsAgain`, the relation `GDec` (C79) | putting back what is at a path changes nothing; induction on `GDec` |
| C134 | `Shuffled`, `SameVal` (C120), `FieldsApart` (C133), `OrderBlindIn`, the relation `GDec` (C79) | assignments to fields that are apart commute; a member can be read later than those with other names; induction on `GDec` |
| C135 | the two results of a constructor | cases |
| C136 | counted steps of the parser, twenty for each byte and what the document holds | potential: six for each node, one for each child; fuel induction |
| C137 | nested calls of the parser and of AppendJSON, and the levels of the tree | fuel induction along the tree parser; induction over trees |
| C138 | text of a node and what the nodes of its document hold | the nodes of a tree are different nodes of the document; for the negation, induction over the rounds in the abstract heap |
| C139 | number of nodes of a document, call by call | copy of a tree has its nodes; orphans in the loop of Append as in C111; induction over calls |
| C140 | the construction of omiters, with methods of interface types | cases on the kind; induction over arrays |
| C141 | nodes that are not found, chains of Get, Index and Lookup | case analysis; induction over paths and chains |
| C142 | what encoders return with an error | induction over the budget, composing prefixes |
| C143 | what readers can tell about two nodes | lockstep of two documents over one tree |
| C144 | texts of trees | the grammar is read from left to right in one way only |
| C145 | steps of AppendJSON | a counting model that is the same function; each call and each pass but one writes a byte |
| C146 | sequences of edits of one node | what two documents that differ from a third in one node have in common; trees after the calls from C22-C25 |
| C147 | life of a Node | every call but Reset and the setters keeps the types and texts of the nodes that exist; revision numbers from C20 |
| C148 | values that differ in what Marshal does not write | the rules of C87 give the same result for both, by induction over them |
| C149 | parts of structs that Unmarshal does not touch | the rules of C89; paths of different fields are apart |
| C150 | values that differ in what a generated AppendJSON does not write | the generated blocks do the same for both, by induction over the generator |
| C151 | parts of strings | by the exact descriptions of both functions (C07, C112) |
| C152 | Parse called again with the tail | induction over the calls, with the language of one call (C11) and its frame (C17) |
| C153 | Strip called again | induction over the calls, with the tree that one call leaves (C33) and the largest number of members with the key in one object |
| C154 | Strip called with several keys | induction over the keys; equality up to the order of members is an equivalence that removing a key respects |
| C93 | writers as state machines | induction over the calls |
| C56 | `LineEncoder`, `LineDecoder`, `bufio.Reader` | reader state refines "the bytes not yet consumed" for every chunking |

## Where the code disagrees with the claim

For each of these the negation is proved with a concrete witness (`…_false`, or a theorem for all cases of the defect), and the claim is proved
under the exact or a natural side condition (`…_partial`).

| id | what the code does |
|---|---|
| C07 | a lone surrogate escape followed by another `\u` escape swallows that escape |
| C10, C36 | a string value without an escaped quote that ends in an escaped backslash (`"\\"`) is misread: the scan for the closing quote looks one byte back only |
| C14 | `fx` gives UnexpectedEOF although no continuation is valid |
| C25 | `Slice(i, len)` does nothing: `j < len` is required |
| C113 | `\u` followed by four bytes is replaced even if these are no hexadecimal digits: `\u00g0` gives `Ā`, `\u12\"5` swallows the escaped quote |
| C28 | `a.Append(b); b.Append(a)` with two orphans makes a cycle; `AppendJSON` then never returns; `C28_cycles`: every insertion of an orphan below itself does this |
| C29 | a copied root keeps its root flag, so a later insertion links it instead of copying: two parents share it |
| C30 | `Append` of an invalid `Node` stores a dangling id |
| C32 | the empty key selects element 0; numerals from 2^63 on wrap around |
| C33 | `Strip` removes the first member with the key only, and does not descend into arrays |
| C37 | `WrapUnmarshalText` passes the escaped text |
| C40 | a numeral with an exponent beyond 2^63 can give NaN |
| C42 | `ParseInt` goes through float64: 9007199254740993 reads as …992 |
| C43, C61 | `ParseFloat` is not correctly rounded: `0.3` gives 0.30000000000000004; exponents are read to five digits only, so that 0.00…01e100001 (100000 zeros), which is 1, is read as 0 |
| C44 | the integer digits wrap at 2^64: `18446744073709551617.0` gives 1 |
| C62 | `Number(NaN)` and `SetFloat(+Inf)` serialise to invalid JSON without an error |
| C64 | `ToFloat` succeeds on string nodes whose text is a numeral; `C64_exact` says exactly on which nodes each accessor succeeds |
| C47 | strings with a backslash but no other escapable byte are written unescaped; `8bit`/raw fields unescaped |
| C48 | nil slices, empty maps, integers beyond 2^53, pointers to nil pointers, embedded pointers do not come back; `C48_exact` says exactly which values do |
| C49 | decoding into a slice or array swallows the errors of the elements |
| C50 | nil maps, nil pointers, maps with defined key types panic; `C50_types` says exactly into which types some text makes it panic |
| C51 | narrow integer types wrap silently; 64-bit integers beyond 2^53 are rounded to a float64, except the last 512 (int64) or 1024 (uint64) of the range; -2^63-1 … -2^63-1024 are stored as -2^63 |
| C52 | float64 is formatted with float32 precision |
| C53 | an array of empty values counts as empty although its length is not 0, and a struct all of whose fields are omitted is left out |
| C54 | a shallower field that follows a deeper one of the same name is added as a second field |
| C56 | outside the claim: a last line without newline that fills bufio's buffer is lost |
| C72, C74 | struct types that embed themselves and `type P *P` overflow the stack |
| C76 | generated code for fields of type `interface{}`, `*int`, defined string types, structs without fields does not compile |
| C77 | the generator does not return for recursive types |
| C78 | generated code puts two pairs of quotes around string keys of maps, and writes NaN; a nil `json.Marshaler` panics |
| C80 | a value written by generated `AppendJSON` does not come back through generated `UnmarshalNodeJSON`: integers that are no float64 change, empty slices become nil, maps with entries give text that is rejected or read as another map, of two fields with one name one is lost |
| C86 | `Del` of the member an iterator is at makes the loop miss the last member and yields an entry with the empty key and node 0 of the document instead; `Remove` in a loop over an array skips the following element in the same way |
| C87 | marshal methods of struct types (such as `time.Time`'s) are ignored in fields without tag options; marshal methods with a pointer receiver make `Marshal` panic; a nil value of an interface type with marshal methods panics; the output of `MarshalText` is not escaped; a struct with marshal methods is never omitted without an omit method; for types with unmarshal but without marshal methods what is written depends on the order of fields |
| C88 | what `Marshal` writes is not JSON for field names that need escaping, fields with the 8bit hint, floats that overflow a float32 and `MarshalText` methods whose output needs escaping (C47, C87) |
| C89 | `Unmarshal` does not look for methods with pointer receiver, such as those of `time.Time`, in fields and elements; it calls methods on nil pointers instead of allocating; it gives `UnmarshalText` the string with its escapes; it panics for nil interface values with methods; for struct types with unmarshal but no marshal methods it reads two fields of the same type in two ways |
| C90 | in a tag that is not UTF-8 an option can be taken for a part of the name: `parseTag` compares the index of the comma with the length of the quoted tag |
| C91 | `ParseFieldTag` takes every option that contains `omitempty` for it, such as `notomitempty` |
| C92 | `bytemaper name:x` with a single byte prints an empty table; the committed table `IsSpace` cannot be printed under its name; `FromHex` maps `g`–`z` to 16–35 |
| C81 | which of two fields with the same name is written, and the order of fields without tags, change from one run of the generator to the next |
| C79 | generated `UnmarshalNodeJSON`: a slice that grows ends in extra zeros; numbers into strings give "" without an error; strings with numerals are numbers; narrow integers wrap; null is an error for struct fields; names with escapes are unknown |
| C82 | a generated `AppendJSON` for a type that embeds a type with `AppendJSON` calls itself |
| C83 | generated code for fields of type `interface{}`, `time.Duration`, `map[int]T`, types with `UnmarshalNodeJSON`, structs without readable fields does not compile |
| C84 | which of two fields with the same name is read changes from one run of the generator to the next; fields of array types are skipped; recursive types make the generator recurse without end |
| C96 | the command ignores type arguments after the first, and unknown modes of `-case` |
| C97 | the path of the package is taken to be its name, so a package `strconv` or `time` does not import the standard one; methods are generated for types that have them already; `typeName[:1]` cuts characters outside ASCII in two, and `_` cannot be used as a receiver |
| C98 | `os.Create` empties the file before the output is formatted: when that fails, the output of the run before is lost, and as an empty file is not Go, all later runs fail |
| C99 | printing a generator empties its buffer, also when it fails |
| C100 | a test case for a value without `AppendJSON` panics; data from a reader are read by the first run only; text after the first value in the data is ignored |
| C104 | a nil map is `{}` in generated code and `null` for `Marshal`; a field that is a nil pointer is left out by the first and `null` in the second; string keys of maps; the order of members |
| C106 | an empty array, an array that is too long, an element that does not fit, null, a string for a number, a number for a string, a field below a nil embedded pointer, an object for a nil map: generated code and `Unmarshal` differ in what they store, in the error, or in a panic |
| C108 | 0.3 is stored as 0.30000000000000004; 1e400 (float64) and 1e39 (float32) are stored as +Inf without an error |
| C116 | `bytemaper -prefix ""` prints a file that does not compile: each constant has the name of its function; names like `byte` or `init` are not refused either; an argument without a name empties the file of `-w` |
| C118 | 0.3 and 0.30 are read as different floats, 0.3 as a larger one than 0.3000000000000000000001 |
| C120 | the order of members is observable when a value does not fit: what was stored before the error; for arrays, whose errors are ignored, in a call without an error; error or panic for nil maps (`C120_false`) |
| C121 | white space inside a string is deleted, without an error, if an earlier string ends in an escaped backslash (`C121_false`; the cause is that of C10) |
| C122 | a nil pointer to a type with a marshal method, such as `*time.Time`, makes `Marshal` panic (method with a value receiver) or is written as what the method returns for nil; a nil pointer field with `omitempty` to a type with an `Omit` method panics: `ptrOmiter` is never reached for it; a nil pointer in an `interface{}` panics |
| C123 | a nil pointer to a type with an unmarshal method is never allocated: the method is called on the nil pointer, which panics or loses the value without an error; also for `null` |
| C124 | generated code panics on a nil pointer in a slice or a map when the type has a marshal method with a value receiver (`[]*time.Time{nil}`); fields are checked for nil, elements are not |
| C127 | with duplicate keys `Get` returns the first member, `ToInterface` and `Unmarshal` keep the last |
| C128 | keys are compared by their raw text: `Get("a")` does not find the member of `{"\u0061":1}`, nor does `Unmarshal`; `Set` writes its key without escaping it, so a quote in the key makes other members or a text that does not parse |
| C132 | reading the same text twice into a variable may give another value the second time, if a name is there twice: `{"L":[{"X":1}],"L":[{"Y":2},{}]}` |
| C133 | the generated method makes slices that have to grow too long; read again, the same JSON makes the slice shorter |
| C135 | `NewTypeEncoder` returns with an error an `Encoder` that is not nil (a nil `*typeEncoder`, encode.go:68); `Encode` on it panics |
| C138 | a copied root that is linked twice (C29) and gets children in the same way doubles the text with two calls: 2n + 2 calls make n + 1 nodes and more than 2^n bytes of text |
| C140 | an omitempty field whose interface type has a method named like the omit method, whatever its signature (or a pointer to it, or an array of it): `method.Func` is the zero Value, so making the codec panics |
| C142 | AppendJSON of package unjson returns nil if there is no encoder for a type, also of a value in an interface{} inside: the contents of the buffer are lost; so does AppendJSON of a node that is not there |
| C144 | the array of the texts `\`, `,1,` and `,2` and the array of four elements that Parse reads from its text have the same JSON; so have an object with a member of key `a":1,"b` and an object with two members |
| C149 | null, read into a struct, stores the zero value in all its fields, also in those that are not exported and that no other text can change |
| C151 | the body of a JSON string cannot be unescaped in parts if it is cut inside a pair of surrogates: each half becomes U+FFFD |
| C152 | of two strings one after another, the first call of Parse reads more than the first if that one ends in an escaped backslash (as in C10) |
| C153 | a second call of Strip with the same key removes more if an object has the key more than once (as in C33) |
| C154 | of an object with duplicate keys, it depends on the order of Strip calls for different keys which of the members is left |

## What is modelled

* `bytemaps.go`, `types.go`, `parser.go`, `document.go`, `node.go`, `error.go` (as an enumeration of errors), `Pool`
* `strjson/*`, `numjson/*`
* `unjson/*`: `options.go`, `codec.go`, `encode.go`, `decode.go`, `omit.go`, `cache.go`, `stream.go`, `unjson.go`
* `njsontest` (Model/Njsontest.lean): options and outcome of test cases, over arbitrary Go values and methods
* `internal/bytemaper`: arguments, tables (Model/Bytemaper.lean) and the text of the printed file (Model/BytemaperFile.lean)
* `cmd/njson` and `internal/generator/generator.go` (Model/Flags.lean, with `flag.Parse` of the Go library, and Model/GenFile.lean): flags, arguments, loading of the package, selection of types, imports, the
  buffer, the directory before and after a run. The Go parser and type checker, `regexp`, `strcase` and the file system are parameters (`World`)
* `internal/generator`: `append.go`, `unmarshal.go`, `parseField` and `ParseFieldTag` of `options.go`. The templates are syntax trees (`ABlock`, `UBlock` in
  Model/Gen.lean); Model/GenRun.lean says which of them compile, by the rules of the Go specification that matter for the templates, and what
  they do when they run. What `alxarch/meta` returns (`NewFields`, `ParseTag`) is a parameter, with what its documentation and
  `go/types` promise (`Env.Ok`)

Simplifications (each is repeated at the definition):

* Iterators run over a snapshot of the children, except in Model/Live.lean, where iterator and node share the array and the node is edited during
  the iteration. `Node` methods see the documents through the heap; methods of the program (hooks) do not modify the document.
* No fused multiply-add (as on amd64). `math.Pow10` is modelled as correctly rounded tables, `strconv.ParseFloat` as correct rounding of what it reads: the
  number with its exponent cut after five digits; the text that
  `strconv.AppendFloat` produces is a parameter with its documented shape (`GoFloats`, `Floats64`, `ShortestTexts`), except in C117, C52_shortest_partial,
  C61_go_partial and C61_false_go, where it is that of Model/FormatFloat.lean, a model of strconv's shortest format with exact fractions (it has the
  documented shape: Props/FormatGo.lean; compared with the shortest texts of another implementation for about 4900 floats without a difference).
* `sync.Pool` is a bag with atomic get and put; `sync.RWMutex` is modelled by its documentation. `bufio.Reader` is modelled from its
  source. The writer of a `LineEncoder` accepts everything in C56, and is arbitrary
  in C93 (Model/Writer.lean).
* The order in which Go iterates over a map is the order of the list in the model, which is arbitrary; for the maps of fields in the generators it
  is one order for each struct type (in C80 the two methods have different ones).
* Struct tags are lists of key/value pairs in the model of package unjson. Model/StructTag.lean has `reflect.StructTag.Lookup` and
  `strconv.Unquote` after their source (Go 1.13), and C90 connects the two.
* What is left in a destination by a panic is not modelled.
* The texts of error messages are modelled for `error.go` only (Model/ErrText.lean); elsewhere errors are an enumeration.
* Methods of the program that `unjson` calls (marshal, unmarshal, omit methods) are functions of the receiver (and the text or node they get); for every
  receiver they return or panic. Omit methods of interface types are modelled for the
  construction of omiters only (`Model/UnOmitNew.lean`, C140); elsewhere the universes have none.

* Generated code: marshal and unmarshal methods of the program may panic (the content of the variable after a panic is not modelled); comments, `uintptr`,
  complex numbers and names with a backslash are not modelled; tag texts are valid UTF-8 without NUL. No type has the name of a variable or package in
  the templates. The types that generated code mentions are declared in the package or predeclared. Duplicate declarations are covered by C97 only.

Not modelled: memory reclamation; performance, but for the steps of Parse (C136), its memory (C101) and the depth of its recursion (C137).

## Trusted base

* Lean 4.33.0's kernel (every module is replayed through it by the gate), and Mathlib's definition of ℚ for the statements about floats.
* The reading of the Go source recorded in the comment at each definition: the model was written by hand from the text of the code and was
  not run against it.
* The Go compiler, runtime, `strconv`, `unicode/utf8`, `unicode/utf16`, `sync`, `reflect` and `bufio` behave as their documentation says.
* Axioms. No axiom is added. The theorems named in `MANIFEST.json` depend on:

  * `propext`: `C113_false`, `C124_value`, `C125_extra`, `C135_decoder`, `C135_cache_decoder`, `C135_false_exists`, `C140_made_partial`, `C140_false`, `C141_lookup`, `C142_node_partial`, `C145_same`, `C148_spare`, `C34_before_first`, `C35_dead`, `C39_distinct`, `C40_false`, `C42_false`, `C46_field`, `C53_omit_partial`, `C57_short_panics`, `C60_printJSON`, `inForce_exists`, `C76_append_false`, `C77_append_false`, `C83_false`, `C84_false_skipped`, `C85_stale`, `C85_slice_add`, `C86_false`, `C90_false`, `C92_tables`, `C92_isSpace`, `C92_fromHex_false`, `C93_print`, `C99_reset`, `C99_first_partial`, `C99_false`
  * `Quot.sound`, `propext`: `C10_false`, `C100_false`, `C100_false_again`, `C100_tail`, `C101_array`, `C101_working`, `C102_late`, `C103_needs_append`, `C104_false_map`, `C104_false_pointer`, `C104_false_keys`, `C104_false_order`, `C106_false_array`, `C106_false_grow`, `C106_false_element`, `C106_false_null`, `C106_false_types`, `C106_false_embedded`, `C106_false_map`, `C109_unique`, `C116_tables`, `C116_lost`, `C119_sharp`, `C120_perm`, `C120_false`, `C121_false`, `C122_place`, `C123_place`, `C123_panics`, `C123_false`, `C124_fields`, `C124_false`, `C128_false`, `C128_unmarshal_false`, `C130_names`, `C130_errors`, `C130_collide`, `C131_causes`, `C133_false`, `C133_false_names`, `C134_errors`, `C135_cache_encoder`, `C135_encoder_partial`, `C135_false`, `C137_bound`, `C137_append`, `C140_default`, `C141_get`, `C141_index`, `C141_split`, `C144_built_partial`, `C144_false`, `C144_false_keys`, `C146_sharp`, `C149_reads`, `C150_seen`, `C151_false`, `C19_values_array`, `C19_values_object`, `C19_get`, `C19_index`, `C19_lookup_object`, `C19_lookup_array`, `C21_appendJSON`, `C25_replace_range`, `C25_slice_false`, `C27_documents_independent`, `C28_false`, `C29_false`, `C29_disjoint`, `C30_false`, `C32_false`, `C32_wraps`, `C33_leftovers`, `C37_json`, `C37_tree`, `C37_invalid`, `C37_text_false`, `C38_double_put`, `C39_types`, `C39_isValue`, `C40_malformed`, `C45_plain`, `C45_other`, `C46_tag`, `C48_false`, `C49_false`, `C50_no_pointer`, `C50_false`, `C51_false`, `C53_false`, `C54_decoding_field`, `C54_false`, `C56_last_false`, `C57_any_buffer`, `C57_empty_buffer`, `C58_names_distinct`, `C58_invalid`, `C59_isValue`, `C62_nonfinite`, `C64_partial`, `C64_false`, `C70_encoder`, `C70_decoder`, `C70_nil`, `C73_fuel`, `C74_fuel`, `C78_nil`, `C78_example`, `C78_false_iface`, `C79_false_slice`, `C79_false_types`, `C79_false_null`, `C79_false_keys`, `C80_example`, `C80_false`, `C81_names`, `C81_members`, `C81_false`, `C82_false`, `C84_false_order`, `C87_one`, `C87_order`, `C89_false`, `C89_order`, `C90_any`, `C91_false`, `C92_one_byte`, `C93_lines`, `C93_accepting`, `C93_new`, `C95_typeError`, `C96_load`, `C96_false`, `C96_case`, `C97_false`, `C98_untouched`, `C98_known`, `C98_false_example`, `C99_adds`
  * `Classical.choice`, `Quot.sound`, `propext`: all others (445 theorems)
