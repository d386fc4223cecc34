import Verif.Spec.UnDecM

/-! # Specification: JSON trees that differ only in what has no place in a type -/

namespace Verif.Unjson
open Verif Verif.Float Verif.Spec Verif.Njson

mutual
/-- Two trees that differ only in what has no place in a variable of type `t`: members of objects whose name belongs to no field of
the struct, and elements of arrays behind the end of a Go array. Types with unmarshal methods see the whole tree. -/
inductive SameRead (U : Univ) (o : Options) : Ty → JVal → JVal → Prop
  | same {t j} : SameRead U o t j j
  | ptr {t e j j'} : U.base t = .ptr e → unmarshalMeth U t = none → SameRead U o e j j' → SameRead U o t j j'
  | slice {t e xs ys} : U.base t = .slice e → unmarshalMeth U t = none → SameElems U o e xs ys → SameRead U o t (.arr xs) (.arr ys)
  | array {t n e xs ys} : U.base t = .array n e → unmarshalMeth U t = none → SameFirst U o e n xs ys → SameRead U o t (.arr xs) (.arr ys)
  | map {t k e ms ns} : U.base t = .map k e → unmarshalMeth U t = none → SameValues U o e ms ns → SameRead U o t (.obj ms) (.obj ns)
  | struct {t j cs ms ns} : U.base t = .struct j → unmarshalMeth U t = none → Cands U o (U.fields j) 0 [] cs →
      SameMembers U o (resolve [] cs) ms ns → SameRead U o t (.obj ms) (.obj ns)
inductive SameElems (U : Univ) (o : Options) : Ty → List JVal → List JVal → Prop
  | nil {t} : SameElems U o t [] []
  | cons {t x y xs ys} : SameRead U o t x y → SameElems U o t xs ys → SameElems U o t (x :: xs) (y :: ys)
/-- The first `n` elements; what comes after them may be anything. -/
inductive SameFirst (U : Univ) (o : Options) : Ty → Nat → List JVal → List JVal → Prop
  | zero {t xs ys} : SameFirst U o t 0 xs ys
  | nil {t n} : SameFirst U o t n [] []
  | cons {t n x y xs ys} : SameRead U o t x y → SameFirst U o t n xs ys → SameFirst U o t (n + 1) (x :: xs) (y :: ys)
inductive SameValues (U : Univ) (o : Options) : Ty → List (Bytes × JVal) → List (Bytes × JVal) → Prop
  | nil {t} : SameValues U o t [] []
  | cons {t k x y ms ns} : SameRead U o t x y → SameValues U o t ms ns → SameValues U o t ((k, x) :: ms) ((k, y) :: ns)
/-- Members for the fields `rs`: those that belong to no field are left out on either side. -/
inductive SameMembers (U : Univ) (o : Options) : List Cand → List (Bytes × JVal) → List (Bytes × JVal) → Prop
  | nil {rs} : SameMembers U o rs [] []
  | left {rs k x ms ns} : (∀ c ∈ rs, c.key ≠ k) → SameMembers U o rs ms ns → SameMembers U o rs ((k, x) :: ms) ns
  | right {rs k y ms ns} : (∀ c ∈ rs, c.key ≠ k) → SameMembers U o rs ms ns → SameMembers U o rs ms ((k, y) :: ns)
  | both {rs k x y ms ns} : (∀ c ∈ rs, c.key = k → SameRead U o c.typ x y) → SameMembers U o rs ms ns →
      SameMembers U o rs ((k, x) :: ms) ((k, y) :: ns)
end

end Verif.Unjson
