import Verif.Spec.StructTag

/-!
# Specification: Go files with tables

The part of Go that a printed file consists of, after the Go specification: one group of constants with string literals, and functions that
index them with their argument. Independent of the model.
-/

namespace Verif.Spec.TableFile
open Verif Verif.Spec

def isLetter (c : UInt8) : Bool := (97 ≤ c && c ≤ 122) || (65 ≤ c && c ≤ 90) || c == 95
def isIdChar (c : UInt8) : Bool := isLetter c || (48 ≤ c && c ≤ 57)

def keywords : List Bytes :=
  [b!"break", b!"case", b!"chan", b!"const", b!"continue", b!"default", b!"defer", b!"else", b!"fallthrough", b!"for", b!"func", b!"go",
    b!"goto", b!"if", b!"import", b!"interface", b!"map", b!"package", b!"range", b!"return", b!"select", b!"struct", b!"switch", b!"type",
    b!"var"]

/-- An identifier of ASCII characters. -/
def IsIdent (s : Bytes) : Prop := s.head?.any isLetter = true ∧ s.all isIdChar = true ∧ s ∉ keywords

/-- A function of a byte, its result type, and the constant it indexes. -/
structure Fn where
  name : Bytes
  bool : Bool
  const : Bytes

/-- The lines of a group of constants: names and values. -/
inductive Consts : Bytes → List (Bytes × Bytes) → Prop
  | nil : Consts [] []
  | cons {n q v rest : Bytes} {cs : List (Bytes × Bytes)} : IsIdent n → Lit q v → Consts rest cs →
      Consts (b!"\n\t" ++ n ++ b!" = \"" ++ q ++ b!"\"" ++ rest) ((n, v) :: cs)

/-- The functions. -/
inductive Funcs : Bytes → List Fn → Prop
  | nil : Funcs b!"\n" []
  | bool {f n rest : Bytes} {fs : List Fn} : IsIdent f → IsIdent n → Funcs rest fs →
      Funcs (b!"\n\nfunc " ++ f ++ b!"(c byte) bool {\n\treturn " ++ n ++ b!"[c] == 1\n}" ++ rest) (⟨f, true, n⟩ :: fs)
  | byte {f n rest : Bytes} {fs : List Fn} : IsIdent f → IsIdent n → Funcs rest fs →
      Funcs (b!"\n\nfunc " ++ f ++ b!"(c byte) byte {\n\treturn " ++ n ++ b!"[c]\n}" ++ rest) (⟨f, false, n⟩ :: fs)

/-- The text is the file of a package with these constants and functions. -/
def GoFile (text pkg : Bytes) (cs : List (Bytes × Bytes)) (fs : List Fn) : Prop :=
  ∃ comment a b, 10 ∉ comment ∧ IsIdent pkg ∧ Consts a cs ∧ Funcs b fs ∧
    text = b!"//" ++ comment ++ b!"\npackage " ++ pkg ++ b!"\n\nconst (" ++ a ++ b!"\n)" ++ b

/-- What a function returns. -/
inductive Val
  | bool (b : Bool)
  | byte (c : UInt8)
  deriving DecidableEq

/-- A call of the function `f` with the argument `c` returns `v`. -/
def Call (cs : List (Bytes × Bytes)) (fs : List Fn) (f : Bytes) (c : UInt8) (v : Val) : Prop :=
  ∃ g ∈ fs, g.name = f ∧ ∃ t, (g.const, t) ∈ cs ∧ ∃ x, t[c.toNat]? = some x ∧ v = if g.bool then .bool (x == 1) else .byte x

/-- The names that a file declares. -/
def declared (cs : List (Bytes × Bytes)) (fs : List Fn) : List Bytes := cs.map (·.1) ++ fs.map (·.name)

/-- The file compiles on its own: no name is declared twice (except the blank identifier), `init` and the `main` of package main are not declared
as something else than they have to be, `byte` and `bool` are types where functions use them, and each function finds its constant, which is not
hidden by the parameter. -/
def Compiles (pkg : Bytes) (cs : List (Bytes × Bytes)) (fs : List Fn) : Prop :=
  pkg ≠ b!"_" ∧ ((declared cs fs).filter (· ≠ b!"_")).Nodup ∧ b!"init" ∉ declared cs fs ∧ (pkg = b!"main" → b!"main" ∉ declared cs fs) ∧
    ∀ f ∈ fs, b!"byte" ∉ declared cs fs ∧ (f.bool = true → b!"bool" ∉ declared cs fs) ∧ f.const ≠ b!"_" ∧ f.const ≠ b!"c" ∧ f.const ∈ cs.map (·.1)

/-- Strings in ascending order, byte by byte. -/
inductive Below : Bytes → Bytes → Prop
  | nil {b : UInt8} {t : Bytes} : Below [] (b :: t)
  | head {a b : UInt8} {s t : Bytes} : a < b → Below (a :: s) (b :: t)
  | tail {a : UInt8} {s t : Bytes} : Below s t → Below (a :: s) (a :: t)

end Verif.Spec.TableFile
