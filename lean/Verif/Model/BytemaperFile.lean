import Verif.Model.Bytemaper
import Verif.Model.ErrText

/-!
# Model of `internal/bytemaper`: the file that is printed

The template (bytemaper.go:208-231) is written out. Package text/template: an action with `{{-` removes the white space before it; `range`
over a map goes through the keys in ascending order; a string is inserted as it is, `printf "%q"` is that of package fmt.
-/

namespace Verif.Bytemaper
open Verif

/-- The order of strings in Go: byte by byte. -/
def bytesLe : Bytes → Bytes → Bool
  | [], _ => true
  | _ :: _, [] => false
  | a :: s, b :: t => if a < b then true else if a = b then bytesLe s t else false

/-- Put an entry in its place. -/
def insertKey (p : Bytes × Bytes) : List (Bytes × Bytes) → List (Bytes × Bytes)
  | [] => [p]
  | q :: m => if bytesLe p.1 q.1 then p :: q :: m else q :: insertKey p m

/-- The order in which `range` goes through a map -/
def sortKeys : List (Bytes × Bytes) → List (Bytes × Bytes)
  | [] => []
  | p :: m => insertKey p (sortKeys m)

/-- bytemaper.go:213-215: the constants -/
def constText (hi : Nat → Bool) (pre : Bytes) : List (Bytes × Bytes) → Bytes
  | [] => []
  | (name, t) :: m => b!"\n\t" ++ pre ++ name ++ b!" = " ++ ErrText.quoteStr hi t ++ constText hi pre m

/-- bytemaper.go:218-230: the functions; `hasprefix` is `strings.HasPrefix`. -/
def funcText (pre : Bytes) : List (Bytes × Bytes) → Bytes
  | [] => b!"\n"
  | (name, _) :: m =>
    (if b!"Is".isPrefixOf name then b!"\n\nfunc " ++ name ++ b!"(c byte) bool {\n\treturn " ++ pre ++ name ++ b!"[c] == 1\n}"
      else b!"\n\nfunc " ++ name ++ b!"(c byte) byte {\n\treturn " ++ pre ++ name ++ b!"[c]\n}") ++ funcText pre m

/-- bytemaper.go:208-231 `tpl` with the package name and the prefix -/
def fileText (hi : Nat → Bool) (pkg pre : Bytes) (m : List (Bytes × Bytes)) : Bytes :=
  b!"// Code generated by bytemaper; DO NOT EDIT.\npackage " ++ pkg ++ b!"\n\nconst (" ++ constText hi pre (sortKeys m) ++ b!"\n)" ++
    funcText pre (sortKeys m)

/-- bytemaper.go:114-203 `main` with the flag -w, when the file can be created and written: what it contains afterwards, and whether the
program succeeds. `os.Create` empties the file before the arguments are read. -/
def main (hi : Nat → Bool) (pkg pre : Bytes) (args : List Bytes) : Bytes × Bool :=
  match run args [] with
  | none => ([], false)
  | some m => (fileText hi pkg pre m, true)

end Verif.Bytemaper
