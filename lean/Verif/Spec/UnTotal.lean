import Verif.Spec.UnFits

/-! # Specification: the types for which codecs are built in finite time -/

namespace Verif.Unjson
open Verif Verif.Float

/-- A type is made of finitely many types. So are all types of Go programs. -/
def FiniteTy (U : Univ) (t : Ty) : Prop := ∃ L : List Ty, ∀ t', Comp U t t' → t' ∈ L

/-- Arrays of arrays end at some depth. The Go compiler rejects `type A [1]A`. -/
inductive ArrayEnds (U : Univ) : Ty → Prop
  | elem {t n e} : U.base t = .array n e → ArrayEnds U e → ArrayEnds U t
  | leaf {t} : (∀ n e, U.base t ≠ .array n e) → ArrayEnds U t

/-- Pointers to pointers end at some depth. The Go compiler accepts `type P *P`. -/
inductive PtrEnds (U : Univ) : Ty → Prop
  | elem {t e} : U.base t = .ptr e → PtrEnds U e → PtrEnds U t
  | leaf {t} : (∀ e, U.base t ≠ .ptr e) → PtrEnds U t

/-- The embedded structs of struct type `j` can be listed: no struct embeds itself, directly or through others. -/
def EmbedsEnd (U : Univ) (o : Options) (j : Nat) : Prop := ∃ cs, Cands U o (U.fields j) 0 [] cs

/-- What codec construction needs in order to end. -/
structure Finite (U : Univ) (o : Options) (t : Ty) : Prop where
  types : FiniteTy U t
  arrays : ∀ t', Comp U t t' → ArrayEnds U t'
  embeds : ∀ t' j, Comp U t t' → U.base t' = .struct j → EmbedsEnd U o j

/-- Every float in a value satisfies `F`, every dynamic type of an interface satisfies `D`. What is not exported does not
matter. `F` depends on the options, which are the default ones inside an interface. -/
inductive Parts (U : Univ) (F : Options → Flt → Prop) (D : Ty → Prop) : Options → Ty → GV → Prop
  | leaf {o t v} : (∀ e, U.base t ≠ .ptr e) → (∀ e, U.base t ≠ .slice e) → (∀ n e, U.base t ≠ .array n e) → (∀ k e, U.base t ≠ .map k e) →
      (∀ m i, U.base t ≠ .iface m i) → (∀ j, U.base t ≠ .struct j) → (∀ k, U.base t ≠ .float k) → Parts U F D o t v
  | float {o t k f} : U.base t = .float k → F o f → Parts U F D o t (.float f)
  | nilPtr {o t} : Parts U F D o t .nilPtr
  | ptr {o t e v} : U.base t = .ptr e → Parts U F D o e v → Parts U F D o t (.ptr v)
  | nilSlice {o t} : Parts U F D o t .nilSlice
  | slice {o t e arr len} : U.base t = .slice e → (∀ x ∈ arr.take len, Parts U F D o e x) → Parts U F D o t (.slice arr len)
  | array {o t n e xs} : U.base t = .array n e → (∀ x ∈ xs, Parts U F D o e x) → Parts U F D o t (.array xs)
  | nilMap {o t} : Parts U F D o t .nilMap
  | map {o t k e es} : U.base t = .map k e → (∀ p ∈ es, Parts U F D o e p.2) → Parts U F D o t (.map es)
  | nilIface {o t} : Parts U F D o t .nilIface
  | iface {o t t' v} : D t' → Parts U F D defaultOptions t' v → Parts U F D o t (.iface t' v)
  | struct {o t j fs} : U.base t = .struct j →
      (∀ (i : Nat) f v, (U.fields j)[i]? = some f → fs[i]? = some v → f.exported = true → Parts U F D o f.typ v) → Parts U F D o t (.struct fs)

/-- Codecs for the dynamic types in a value are built in finite time. -/
def FiniteDyn (U : Univ) : Options → Ty → GV → Prop := Parts U (fun _ _ => True) (Finite U defaultOptions)

/-- The options allow the float. -/
def FloatAllowed (o : Options) : Flt → Prop
  | .nan => o.allowNaN = true
  | .num _ .inf => o.allowInf = true
  | .num _ (.fin _ _) => True

/-- Nothing in the value is an error: the floats are allowed and the dynamic types in it are supported. -/
def Marshalable (U : Univ) : Options → Ty → GV → Prop := Parts U FloatAllowed (Supported U)

end Verif.Unjson
