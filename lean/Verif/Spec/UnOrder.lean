import Verif.Spec.UnFits

/-! # Specification: JSON trees that differ in the order of members, Go values that differ in the order of map entries -/

namespace Verif.Unjson
open Verif Verif.Float Verif.Spec Verif.Njson

mutual
/-- Two trees that differ only in the order of members with different names, at any depth. Members with the same name are in the
same order. -/
inductive Shuffled : JVal → JVal → Prop
  | same {j} : Shuffled j j
  | arr {xs ys} : ShuffledL xs ys → Shuffled (.arr xs) (.arr ys)
  | obj {ms ns} : ShuffledM ms ns → Shuffled (.obj ms) (.obj ns)
inductive ShuffledL : List JVal → List JVal → Prop
  | nil : ShuffledL [] []
  | cons {x y xs ys} : Shuffled x y → ShuffledL xs ys → ShuffledL (x :: xs) (y :: ys)
/-- The first member is anywhere in the other list, but not behind another one with its name. -/
inductive ShuffledM : List (Bytes × JVal) → List (Bytes × JVal) → Prop
  | nil : ShuffledM [] []
  | insert {k x y ms ns ns'} : Shuffled x y → k ∉ ns.map Prod.fst → ShuffledM ms (ns ++ ns') → ShuffledM ((k, x) :: ms) (ns ++ (k, y) :: ns')
end

/-- `m[k]` is `x`. -/
inductive EntryAt : List (GV × GV) → GV → GV → Prop
  | head {k x es} : EntryAt ((k, x) :: es) k x
  | tail {k k' x y es} : k' ≠ k → EntryAt es k x → EntryAt ((k', y) :: es) k x

/-- The same value: a Go map has no order, and so the entries of maps may be listed in a different order. -/
inductive SameVal : GV → GV → Prop
  | refl {v} : SameVal v v
  | ptr {x y} : SameVal x y → SameVal (.ptr x) (.ptr y)
  | slice {xs ys : List GV} {n} : xs.length = ys.length → (∀ (i : Nat) x y, xs[i]? = some x → ys[i]? = some y → SameVal x y) →
      SameVal (.slice xs n) (.slice ys n)
  | array {xs ys : List GV} : xs.length = ys.length → (∀ (i : Nat) x y, xs[i]? = some x → ys[i]? = some y → SameVal x y) → SameVal (.array xs) (.array ys)
  | map {es fs} : (∀ k, (∃ x, EntryAt es k x) ↔ ∃ y, EntryAt fs k y) → (∀ k x y, EntryAt es k x → EntryAt fs k y → SameVal x y) →
      SameVal (.map es) (.map fs)
  | iface {t x y} : SameVal x y → SameVal (.iface t x) (.iface t y)
  | struct {xs ys : List GV} : xs.length = ys.length → (∀ (i : Nat) x y, xs[i]? = some x → ys[i]? = some y → SameVal x y) → SameVal (.struct xs) (.struct ys)

end Verif.Unjson
