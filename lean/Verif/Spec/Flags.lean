import Verif.Model.GenFile

/-!
# Specification: the command line `njson [flag ...] [package [type]]`

A flag is written `-NAME` or `--NAME`; its value follows an equals sign, or is the next word. The value of a boolean flag may be left out and is
then true. The flags end with `--`, which is dropped, or with a word that is not a flag. Of a flag that is given more than once the last value
counts.
-/

namespace Verif.GenFile
open Verif

def boolFlags : List Bytes := [b!"only-tagged", b!"only-exported", b!"omitempty", b!"append", b!"unmarshal", b!"w", b!"d"]
def textFlags : List Bytes := [b!"p", b!"k", b!"match", b!"case"]

def trueWords : List Bytes := [b!"1", b!"t", b!"T", b!"true", b!"TRUE", b!"True"]
def falseWords : List Bytes := [b!"0", b!"f", b!"F", b!"false", b!"FALSE", b!"False"]

/-- `FlagWords ws name v`: the words `ws` give flag `name` the value `v`. -/
inductive FlagWords : List Bytes → Bytes → Bytes → Prop
  | bare {dash name} : dash = b!"-" ∨ dash = b!"--" → name ∈ boolFlags → FlagWords [dash ++ name] name b!"true"
  | eqBool {dash name v} : dash = b!"-" ∨ dash = b!"--" → name ∈ boolFlags → v ∈ trueWords ∨ v ∈ falseWords →
      FlagWords [dash ++ name ++ b!"=" ++ v] name v
  | eqText {dash name v} : dash = b!"-" ∨ dash = b!"--" → name ∈ textFlags → FlagWords [dash ++ name ++ b!"=" ++ v] name v
  | next {dash name v} : dash = b!"-" ∨ dash = b!"--" → name ∈ textFlags → FlagWords [dash ++ name, v] name v

/-- `AllFlags ws sets`: the words give the flags the values `sets`, in this order. -/
inductive AllFlags : List Bytes → List (Bytes × Bytes) → Prop
  | nil : AllFlags [] []
  | cons {ws name v ws' sets} : FlagWords ws name v → AllFlags ws' sets → AllFlags (ws ++ ws') ((name, v) :: sets)

/-- What follows the flags, and the arguments. -/
inductive Arguments : List Bytes → List Bytes → Prop
  | none : Arguments [] []
  | dashes {args} : Arguments (b!"--" :: args) args
  | word {w args} : w = b!"-" ∨ w.head? ≠ some 45 → Arguments (w :: args) (w :: args)

/-- The last value of a flag -/
def lastValue (sets : List (Bytes × Bytes)) (name : Bytes) : Option Bytes := ((sets.filter (·.1 = name)).getLast?).map (·.2)

def isSet (sets : List (Bytes × Bytes)) (name : Bytes) : Bool := ((lastValue sets name).getD b!"false") ∈ trueWords

/-- The flags, with their defaults -/
def flagsOf (sets : List (Bytes × Bytes)) : Flags :=
  { path := (lastValue sets b!"p").getD b!"."
    tagKey := (lastValue sets b!"k").getD b!"json"
    onlyTagged := isSet sets b!"only-tagged"
    onlyExported := isSet sets b!"only-exported"
    omitempty := isSet sets b!"omitempty"
    append := isSet sets b!"append"
    unmarshal := isSet sets b!"unmarshal"
    matchName := (lastValue sets b!"match").getD b!".*"
    caseMode := (lastValue sets b!"case").getD b!"none"
    write := isSet sets b!"w"
    debug := isSet sets b!"d" }

end Verif.GenFile
