import Verif.Model.UnCodec

/-!
# Specification: the fields of a struct type

In terms of the type only. `parseField` and `embedding` are the model's readings of one field (C46 says what the first
does).
-/

namespace Verif.Unjson
open Verif

/-- A field of a struct (possibly of an embedded one): name, path, declared type, hints. -/
structure Cand where
  key : Bytes
  index : List Int
  typ : Ty
  hint : Hint

/-- The fields of a struct in the order in which `merge` visits them. -/
inductive Cands (U : Univ) (o : Options) : List Field → Nat → List Int → List Cand → Prop
  | nil {i : Nat} {idx} : Cands U o [] i idx []
  | skip {f fs} {i : Nat} {idx cs} : (f.exported = false ∨ (o.parseField f).1 = b!"-") → Cands U o fs (i + 1) idx cs →
      Cands U o (f :: fs) i idx cs
  | embed {f fs} {i : Nat} {idx cs ds idx' j} : f.exported = true → (o.parseField f).1 ≠ b!"-" →
      embedding U f (o.parseField f).2.2 (idx ++ [(i : Int)]) = (idx', some j) → Cands U o (U.fields j) 0 idx' cs →
      Cands U o fs (i + 1) idx ds → Cands U o (f :: fs) i idx (cs ++ ds)
  | field {f fs} {i : Nat} {idx cs idx'} : f.exported = true → (o.parseField f).1 ≠ b!"-" →
      embedding U f (o.parseField f).2.2 (idx ++ [(i : Int)]) = (idx', none) → Cands U o fs (i + 1) idx cs →
      Cands U o (f :: fs) i idx (⟨(o.parseField f).1, idx', f.typ, (o.parseField f).2.1⟩ :: cs)

/-- codec.go:126-129: a field is dropped when there is one with its name whose index does not compare as deeper. -/
def addCand (acc : List Cand) (c : Cand) : List Cand :=
  match acc.find? fun k => k.key = c.key with
  | some k => if cmpIndex k.index c.index ≠ -1 then acc else acc ++ [c]
  | none => acc ++ [c]

def resolve (acc cs : List Cand) : List Cand := cs.foldl addCand acc

end Verif.Unjson
