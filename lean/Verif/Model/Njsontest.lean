import Verif.Model.Parser

/-!
# Model of package `njsontest`: test cases for `AppendJSON` and `UnmarshalNodeJSON` methods

The Go values that are tested, their methods, `encoding/json` and `reflect.DeepEqual` are in `Program`, and arbitrary.

Simplifications. What is written to the log is not modelled, only whether the test fails. A test that has failed and then panics has panicked.
The pointer that is given as `Value` is not the one that is tested (`original` does not change during the test).
-/

namespace Verif.Njsontest
open Verif Verif.Njson

/-- A value of type `error` that is not nil: its identity (`==`) and its text -/
structure Err where
  id : Nat
  text : Bytes
deriving DecidableEq

/-- What a test ends with -/
inductive Outcome
  | pass
  | fail
  | panic
deriving DecidableEq, Repr

/-- A function of the program that gives JSON data -/
inductive Data
  | ok (s : Bytes)
  | err
  | panic
deriving DecidableEq

/-- A value of type `interface{}` over variables with contents in `V` -/
inductive Arg (V : Type)
  | nil
  /-- not a pointer -/
  | plain (x : V)
  | nilPtr
  | ptr (x : V)
deriving DecidableEq

/-- `x == nil` -/
def Arg.isNil {V : Type} : Arg V → Bool
  | .nil => true
  | _ => false

/-- A method of a value, found by its name -/
inductive Meth (α : Type)
  | missing
  /-- not of the type of the interface's method; the call of it panics or returns -/
  | wrong (panics : Bool)
  | ok (f : α)

/-- The rest of the program -/
structure Program (V : Type) where
  /-- `reflect.New(typ)`, for the type of the argument or what it points to -/
  zero : Arg V → V
  /-- `encoding/json.Marshal` -/
  marshal : Arg V → Data
  /-- the method with the name: what it returns when it is called with nil; `none`: it panics -/
  append : Arg V → Bytes → Meth (Option (Bytes × Option Err))
  /-- the method with the name: the content of the variable when it was called with a node, and the error; `none`: it panics -/
  unmarshal : Arg V → Bytes → Meth (Doc → Nat → Option (V × Option Err))
  /-- `reflect.DeepEqual` of the contents -/
  deepEq : V → V → Bool

/-- The argument of `Error` (option.go:31-78) -/
inductive ErrArg
  | nil
  | err (e : Err)
  | fn (f : Option (Err → Option Err))
  | str (s : Bytes)
  /-- a `*regexp.Regexp`, as `MatchString` -/
  | regexp (m : Option (Bytes → Bool))
  | bool (b : Bool)
  | other

/-- `strings.Contains` -/
def contains : Bytes → Bytes → Bool
  | [], sub => sub.isPrefixOf []
  | c :: s, sub => sub.isPrefixOf (c :: s) || contains s sub

/-- option.go:31-78 `Error`: the check, which may be nil; `none`: it panics -/
def ErrArg.check : ErrArg → Option (Option (Err → Option Err))
  | .nil => some none
  | .err e => some (some fun err => if err = e then none else some err)
  | .fn f => some f
  | .str s => some (if s ≠ [] then some fun err => if contains err.text s then none else some err else none)
  | .regexp none => some none
  | .regexp (some m) => some (some fun err => if m err.text then none else some err)
  | .bool b => some (if b then some fun _ => none else none) -- the check is called with an error that is not nil only
  | .other => none

/-- The argument of `JSON` (option.go:97-129) -/
inductive JSONArg (V : Type)
  /-- a function; the `n`-th call of it. A nil function panics. -/
  | fn (f : Nat → Data)
  | bytes (s : Bytes)
  | str (s : Bytes)
  /-- a reader; the `n`-th `ioutil.ReadAll` of it -/
  | reader (r : Nat → Data)
  | nil
  | value (x : Arg V)

/-- option.go:100-129 `JSON`: the data in the `n`-th run of the test -/
def JSONArg.get {V : Type} (G : Program V) : JSONArg V → Nat → Data
  | .fn f, n => f n
  | .bytes s, _ => .ok s
  | .str s, _ => .ok s
  | .reader r, n => r n
  | .nil, _ => .ok b!"null"
  | .value x, _ => G.marshal x

/-- `Option` -/
inductive Opt (V : Type)
  /-- a nil interface value (t.go:32) -/
  | nil
  /-- option.go:23-28 `Method` -/
  | method (name : Bytes)
  /-- option.go:31-78 `Error`, which did not panic: the argument is not `.other` -/
  | error (a : ErrArg)
  /-- option.go:93-97 `Value` -/
  | value (x : Arg V)
  | json (j : JSONArg V)

/-- t.go:18-24 `T` -/
structure T (V : Type) where
  value : Arg V
  check : Option (Err → Option Err)
  json : Nat → Data
  method : Bytes

/-- option.go:19-21 `set` -/
def T.set {V : Type} (G : Program V) (t : T V) : Opt V → T V
  | .nil => t
  | .method name => { t with method := name }
  | .error a => { t with check := a.check.getD none }
  | .value x => { t with value := x }
  | .json j => { t with json := j.get G }

/-- t.go:25-35 `newT` -/
def newT {V : Type} (G : Program V) (x : Arg V) (opts : List (Opt V)) : T V :=
  opts.foldl (T.set G) ⟨.nil, none, (JSONArg.value x).get G, []⟩

/-- t.go:135-156 `checkError`: whether there is an error -/
def checkError (v : Option Err) (check : Option (Err → Option Err)) : Bool :=
  match v, check with
  | none, none => false
  | none, some _ => true
  | some _, none => true
  | some e, some c => (c e).isSome

/-- t.go:38-74 `AppendJSON`, when the function it returns is called for the `n`-th time. The name of the interface's method is `AppendJSON`. -/
def testAppend {V : Type} (G : Program V) (x : Arg V) (opts : List (Opt V)) (n : Nat) : Outcome :=
  if x.isNil then .panic -- a nil function
  else
    let test := newT G x opts
    let method := if test.method ≠ [] then test.method else b!"AppendJSON"
    let m := G.append x method
    let failed := match m with | .ok _ => false | _ => true -- `checkMethod`, and the test goes on
    match test.json n with
    | .panic => .panic
    | .err => .fail
    | .ok expect =>
      match m with
      | .missing => .panic -- `Call` of the zero Value
      | .wrong p => if p then .panic else .fail
      | .ok none => .panic
      | .ok (some (actual, err)) =>
        if checkError err test.check then .fail
        else if test.check.isNone ∧ actual ≠ expect then .fail
        else if failed then .fail else .pass

/-- t.go:119-128: the end of the test. `original` is what is expected, if it is there; `v` the variable, with content `y` after the call -/
def verdict {V : Type} (G : Program V) (check : Option (Err → Option Err)) (original : Option V) (v : Arg V) (y : V) (err : Option Err) : Outcome :=
  if checkError err check then .fail
  else if check.isNone then
    match original, v with
    | some o, .ptr _ => if G.deepEq o y then .pass else .fail
    | _, _ => .panic -- `Interface` of the zero Value, or `Elem` of a value that is not a pointer
  else .pass

/-- t.go:85-91: the content of the variable that is expected -/
def Arg.original {V : Type} : Arg V → Option V
  | .plain x => some x
  | .ptr x => some x
  | .nil => none
  | .nilPtr => none

/-- t.go:99, :101-103: the variable that the method is called for -/
def Arg.orNew {V : Type} (G : Program V) (x : Arg V) : Arg V → Arg V
  | .nil => .ptr (G.zero x)
  | .plain y => .plain y
  | .nilPtr => .nilPtr
  | .ptr y => .ptr y

/-- t.go:113-128: the call -/
def call {V : Type} (G : Program V) (test : T V) (x v : Arg V) (f : Doc → Nat → Option (V × Option Err)) (d : Doc) (data : Bytes) : Outcome :=
  match (d.parse data).2 with
  | .crash => .panic
  | .eof _ _ => .fail
  | .err _ _ _ _ _ => .fail
  | .ok id _ =>
    match f (d.parse data).1 id with
    | none => .panic
    | some r => verdict G test.check x.original v r.1 r.2

/-- t.go:79-130 `Unmarshal`, when the function it returns is called for the `n`-th time, and `njson.Blank` returns `d` -/
def testUnmarshal {V : Type} (G : Program V) (x : Arg V) (opts : List (Opt V)) (d : Doc) (n : Nat) : Outcome :=
  if x.isNil then .panic
  else
    let test := newT G x opts
    let method := if test.method ≠ [] then test.method else b!"UnmarshalNodeJSON"
    let v := Arg.orNew G x test.value
    match G.unmarshal v method with
    | .missing => .fail
    | .wrong _ => .fail
    | .ok f =>
      match test.json n with
      | .panic => .panic
      | .err => .fail
      | .ok data => call G test x v f d data

end Verif.Njsontest
