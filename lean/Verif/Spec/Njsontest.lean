import Verif.Model.Njsontest

/-! # Specification of `njsontest`: what a test case expects -/

namespace Verif.Njsontest
open Verif Verif.Njson

/-- An outcome of a method that the argument of `Error` asks for -/
def ErrArg.Accepts : ErrArg → Option Err → Prop
  | .nil, r => r = none
  | .err e, r => r = some e
  | .fn none, r => r = none
  | .fn (some f), r => ∃ e, r = some e ∧ f e = none
  | .str s, r => s = [] ∧ r = none ∨ s ≠ [] ∧ ∃ e p q, r = some e ∧ e.text = p ++ s ++ q
  | .regexp none, r => r = none
  | .regexp (some m), r => ∃ e, r = some e ∧ m e.text = true
  | .bool b, r => r.isSome = b
  | .other, _ => False

/-- The argument says that there is no error. -/
def ErrArg.NoError : ErrArg → Prop
  | .nil => True
  | .fn none => True
  | .str s => s = []
  | .regexp none => True
  | .bool b => b = false
  | _ => False

/-- What the last option of a kind says -/
def lastOf {V α : Type} (p : Opt V → Option α) (opts : List (Opt V)) (default : α) : α := (opts.filterMap p).getLast?.getD default

def Opt.errArg {V : Type} : Opt V → Option ErrArg
  | .error a => some a
  | _ => none
def Opt.name {V : Type} : Opt V → Option Bytes
  | .method n => some n
  | _ => none
def Opt.jsonArg {V : Type} : Opt V → Option (JSONArg V)
  | .json j => some j
  | _ => none
def Opt.start {V : Type} : Opt V → Option (Arg V)
  | .value x => some x
  | _ => none

/-- The argument of the last `Error` option -/
def wantedError {V : Type} (opts : List (Opt V)) : ErrArg := lastOf Opt.errArg opts .nil

/-- The name of the method: of the last `Method` option, unless it is empty -/
def methodName {V : Type} (opts : List (Opt V)) (default : Bytes) : Bytes :=
  let n := lastOf Opt.name opts []
  if n = [] then default else n

/-- The argument of the last `JSON` option; without one, the value itself -/
def wantedJSON {V : Type} (x : Arg V) (opts : List (Opt V)) : JSONArg V := lastOf Opt.jsonArg opts (.value x)

/-- The data that the argument of `JSON` stands for in the `n`-th run -/
inductive JSONArg.Gives {V : Type} (G : Program V) (n : Nat) : JSONArg V → Bytes → Prop
  | fn {f : Nat → Data} {s : Bytes} : f n = .ok s → Gives G n (.fn f) s
  | bytes {s : Bytes} : Gives G n (.bytes s) s
  | str {s : Bytes} : Gives G n (.str s) s
  | reader {r : Nat → Data} {s : Bytes} : r n = .ok s → Gives G n (.reader r) s
  | null : Gives G n .nil b!"null"
  | value {x : Arg V} {s : Bytes} : G.marshal x = .ok s → Gives G n (.value x) s

/-- The argument of the last `Value` option -/
def startValue {V : Type} (opts : List (Opt V)) : Arg V := lastOf Opt.start opts .nil

/-- The content of the variable that the argument is, or points to -/
def Arg.Content {V : Type} : Arg V → V → Prop
  | .plain x, o => o = x
  | .ptr x, o => o = x
  | _, _ => False

end Verif.Njsontest
