import Verif.Model.UnStream
import Verif.Proofs.UnDecode
import Verif.Props.Parse

/-! # Specification: lines, and what a reader delivers -/

namespace Verif.UnStream
open Verif Verif.Njson Verif.Unjson

/-- The content `c` is the lines `ls`, each ended by LF or CR LF. -/
inductive Lines : Bytes → List Bytes → Prop
  | nil : Lines [] []
  | lf {l c ls} : 10 ∉ l → l.getLast? ≠ some 13 → Lines c ls → Lines (l ++ 10 :: c) (l :: ls)
  | crlf {l c ls} : 10 ∉ l → Lines c ls → Lines (l ++ 13 :: 10 :: c) (l :: ls)

/-- The reader delivers the content `c` in some pieces, then reports the end of the file, together with the last piece
or after it. -/
def Delivers : Src → Bytes → Prop
  | [], c => c = []
  | (d, none) :: s, c => ∃ c', c = d ++ c' ∧ Delivers s c'
  | (d, some e) :: s, c => e = .eof ∧ s = [] ∧ c = d

/-- The reader does not return nothing 100 times in a row. -/
def NoStall (s : Src) : Prop := ∀ pre mid post, s = pre ++ mid ++ post → (∀ p ∈ mid, p = ([], none)) → mid.length < 100

/-- The characters for which `unicode.IsSpace` is true: those with the property White_Space. -/
def SpaceChar (c : Char) : Prop :=
  c.toNat ∈ [0x9, 0xA, 0xB, 0xC, 0xD, 0x20, 0x85, 0xA0, 0x1680, 0x2000, 0x2001, 0x2002, 0x2003, 0x2004, 0x2005, 0x2006, 0x2007, 0x2008, 0x2009,
    0x200A, 0x2028, 0x2029, 0x202F, 0x205F, 0x3000]

instance (c : Char) : Decidable (SpaceChar c) := by unfold SpaceChar; infer_instance

/-- `strings.TrimSpace(s) == ""`: the text consists of white space characters. -/
def Blank (s : Bytes) : Prop := ∃ cs : List Char, s = cs.flatMap Spec.enc ∧ ∀ c ∈ cs, SpaceChar c

end Verif.UnStream

namespace Verif.Props
open Verif Verif.Spec Verif.Njson Verif.Unjson Verif.UnStream

/-- What `Decode` does to `x` with one line: the line is no JSON, or there is something behind the value, or the value is decoded,
by the decoder of the stream if it has one. -/
inductive LineResult (U : Univ) (fuel : Nat) (dec : Option TypeDecoder) (s : Bytes) (x : Option (Ty × GV)) : Out (Option (Ty × GV)) → Prop
  | reject : (¬ ∃ d' id j tail, Parses Doc.empty s d' id j tail) → LineResult U fuel dec s x (.done x (some .parse))
  | more {d' id j tail} : Parses Doc.empty s d' id j tail → ¬ Blank tail → LineResult U fuel dec s x (.done x (some .line))
  | value {d' id j tail h n r} : Parses Doc.empty s d' id j tail → Blank tail → dec = none → Tree h n j →
      unmarshalFromNode U fuel h n x = some r → LineResult U fuel dec s x r
  | valueWith {d' id j tail h n c r} : Parses Doc.empty s d' id j tail → Blank tail → dec = some c → Tree h n j →
      decodeWith U c fuel h n x = some r → LineResult U fuel dec s x r

end Verif.Props
