import Verif.Spec.Gen
import Verif.Spec.Unjson

/-!
# Specification: generated code and `unjson` write the same

Which values, and what "the same" means.
-/

namespace Verif.Gen
open Verif Verif.Float Verif.Spec Verif.Njson Verif.Unjson

/-- The selectors of an index of package reflect, in which -1 stands for following a pointer. -/
def selectors (index : List Int) : List Nat := (index.filter (· ≠ -1)).map Int.toNat

/-- A field as `unjson` and as the generator see it: the same field under the same name, both times with omitempty or without, and without a hint on how to
write strings. -/
structure SameField (c : Cand) (p : Pick) : Prop where
  name : c.key = p.name
  path : selectors c.index = p.field.path
  typ : c.typ = p.field.typ
  omitempty : c.hint.omitempty = true ↔ b!"omitempty" ∈ p.params
  plain : c.hint.raw = false ∧ c.hint.html = false ∧ b!"raw" ∉ p.params

/-- `List.Forall₂` -/
inductive Pairs {α β : Type} (R : α → β → Prop) : List α → List β → Prop
  | nil : Pairs R [] []
  | cons {a b as bs} : R a b → Pairs R as bs → Pairs R (a :: as) (b :: bs)

/-- Generator and `unjson` see the same fields of struct type `j`, up to their order; with `ord` in the same order. -/
def SameStruct (ord : Bool) (E : Env) (o : GenOptions) (j : Nat) (cs : List Cand) : Prop :=
  ∃ ds, (resolve [] cs).Perm ds ∧ (ord = true → resolve [] cs = ds) ∧ Pairs SameField ds (appendPicks E o j)

/-- The values that both write alike. Not: maps that are nil or have entries, fields that are nil pointers (unless with omitempty), floats that
are not written the same with the precision of a float32, values with marshal methods. -/
inductive Alike (ord : Bool) (E : Env) (o : GenOptions) : Ty → GV → Prop
  | bool {t b} : NoMarshal E.U t → E.U.base t = .bool → Alike ord E o t (.bool b)
  | int {t k i} : NoMarshal E.U t → E.U.base t = .int k → Alike ord E o t (.int i)
  | uint {t k n} : NoMarshal E.U t → E.U.base t = .uint k → Alike ord E o t (.uint n)
  | float {t k neg m e} : NoMarshal E.U t → E.U.base t = .float k →
      floatText E.U (.num neg (.fin m e)) = floatText64 E.U (.num neg (.fin m e)) → Alike ord E o t (.float (.num neg (.fin m e)))
  | str {t s} : NoMarshal E.U t → E.U.base t = .string → Alike ord E o t (.str s)
  | nilPtr {t e} : NoMarshal E.U t → E.U.base t = .ptr e → Alike ord E o t .nilPtr
  | ptr {t e v} : NoMarshal E.U t → E.U.base t = .ptr e → (∀ e', E.U.base e ≠ .ptr e') → Alike ord E o e v → Alike ord E o t (.ptr v)
  | nilSlice {t e} : NoMarshal E.U t → E.U.base t = .slice e → Alike ord E o t .nilSlice
  | slice {t e arr len} : NoMarshal E.U t → E.U.base t = .slice e → (∀ x ∈ arr.take len, Alike ord E o e x) → Alike ord E o t (.slice arr len)
  | emptyMap {t k e} : NoMarshal E.U t → E.U.base t = .map k e → Alike ord E o t (.map [])
  | struct {j fs cs} : NoMarshal E.U (.struct j) → Cands E.U defaultOptions (E.U.fields j) 0 [] cs → SameStruct ord E o j cs →
      (∀ c ∈ resolve [] cs, ∀ x, sub (.struct fs) c.index = some x → Alike ord E o c.typ x) →
      (∀ c ∈ resolve [] cs, sub (.struct fs) c.index = some .nilPtr → c.hint.omitempty = true) → Alike ord E o (.struct j) (.struct fs)

mutual
/-- The same tree, up to the order of members. -/
inductive SameTree : JVal → JVal → Prop
  | null : SameTree .null .null
  | bool {b} : SameTree (.bool b) (.bool b)
  | num {s} : SameTree (.num s) (.num s)
  | str {s} : SameTree (.str s) (.str s)
  | arr {xs ys} : SameTrees xs ys → SameTree (.arr xs) (.arr ys)
  | obj {ms ns ns'} : ns.Perm ns' → SameMembers ms ns' → SameTree (.obj ms) (.obj ns)
inductive SameTrees : List JVal → List JVal → Prop
  | nil : SameTrees [] []
  | cons {x y xs ys} : SameTree x y → SameTrees xs ys → SameTrees (x :: xs) (y :: ys)
inductive SameMembers : List (Bytes × JVal) → List (Bytes × JVal) → Prop
  | nil : SameMembers [] []
  | cons {k x y ms ns} : SameTree x y → SameMembers ms ns → SameMembers ((k, x) :: ms) ((k, y) :: ns)
end

end Verif.Gen
