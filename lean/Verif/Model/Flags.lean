import Verif.Model.GenFile

/-!
# Model: the command line of njson (cmd/njson/njson.go:18-44)

`flag.Parse` of the Go library with the flags that njson defines. Output for the user (usage, error messages) is not
modelled; both end the program.
-/

namespace Verif.GenFile
open Verif

/-- How a flag is set: a boolean flag or a flag with a text. -/
inductive Setter
  | bool (set : Bool → Flags)
  | text (set : Bytes → Flags)

/-- njson.go:18-32: the flags that are defined, by name -/
def Flags.setter (f : Flags) (name : Bytes) : Option Setter :=
  if name = b!"p" then some (.text fun v => { f with path := v })
  else if name = b!"k" then some (.text fun v => { f with tagKey := v })
  else if name = b!"only-tagged" then some (.bool fun v => { f with onlyTagged := v })
  else if name = b!"only-exported" then some (.bool fun v => { f with onlyExported := v })
  else if name = b!"omitempty" then some (.bool fun v => { f with omitempty := v })
  else if name = b!"append" then some (.bool fun v => { f with append := v })
  else if name = b!"unmarshal" then some (.bool fun v => { f with unmarshal := v })
  else if name = b!"match" then some (.text fun v => { f with matchName := v })
  else if name = b!"case" then some (.text fun v => { f with caseMode := v })
  else if name = b!"w" then some (.bool fun v => { f with write := v })
  else if name = b!"d" then some (.bool fun v => { f with debug := v })
  else none

/-- strconv `ParseBool` -/
def parseBool (v : Bytes) : Option Bool :=
  if v ∈ [b!"1", b!"t", b!"T", b!"true", b!"TRUE", b!"True"] then some true
  else if v ∈ [b!"0", b!"f", b!"F", b!"false", b!"FALSE", b!"False"] then some false
  else none

deriving instance DecidableEq for Flags

/-- The flags and the other arguments; the usage is asked for (`-h`, `-help`); or the command line is wrong. -/
inductive CmdLine
  | ok (f : Flags) (args : List Bytes)
  | help
  | bad
deriving DecidableEq

/-- flag `parseOne`: a name with an equals sign that is not its first byte is cut there -/
def cutEq : Bytes → Bytes × Option Bytes
  | [] => ([], none)
  | c :: r => (c :: r.takeWhile (· ≠ 61), if 61 ∈ r then some ((r.dropWhile (· ≠ 61)).drop 1) else none)

/-- flag `Parse` -/
def parseFlags (f : Flags) : List Bytes → CmdLine
  | [] => .ok f []
  | s :: args =>
    match s with
    | 45 :: c :: r =>
      if c = 45 ∧ r = [] then .ok f args
      else
        let name := if c = 45 then r else c :: r
        if name.head? = some 45 ∨ name.head? = some 61 then .bad
        else
          let (name, value) := cutEq name
          match f.setter name with
          | none => if name = b!"help" ∨ name = b!"h" then .help else .bad
          | some (.bool set) =>
            match parseBool (value.getD b!"true") with
            | none => .bad
            | some b => parseFlags (set b) args
          | some (.text set) =>
            match value with
            | some v => parseFlags (set v) args
            | none =>
              match args with
              | [] => .bad
              | v :: args => parseFlags (set v) args
    | _ => .ok f (s :: args)

/-- The command: njson.go:41-174 on the words of the command line and the files of the directory. `none`: the program ends with a usage
message. -/
def command (W : World) (fuel : Nat) (dir : List SrcFile) (words : List Bytes) : Option (Run File) × List SrcFile :=
  match parseFlags {} words with
  | .ok f args => let r := main W fuel dir f args; (some r.1, r.2)
  | _ => (none, dir)

end Verif.GenFile
