import Verif.Spec.UnOrder
import Verif.Spec.UnMeth

/-! # Specification: texts and trees that differ in the order of members -/

namespace Verif.Unjson
open Verif Verif.Float Verif.Spec Verif.Njson

/-- The text of an object with the given members (names with their quotes). -/
def objText (ms : List (Bytes × Bytes)) : Bytes := [123] ++ commas (ms.map fun p => p.1 ++ [58] ++ p.2) ++ [125]

/-- The text of an array. -/
def arrText (ss : List Bytes) : Bytes := [91] ++ commas ss ++ [93]

/-- Two texts that differ in the order of members only, at any depth. -/
inductive TextSame : Bytes → Bytes → Prop
  | same {s} : TextSame s s
  | arr {ss ss' : List Bytes} : ss.length = ss'.length → (∀ (i : Nat) x y, ss[i]? = some x → ss'[i]? = some y → TextSame x y) →
      TextSame (arrText ss) (arrText ss')
  | obj {ms ns ns' : List (Bytes × Bytes)} : ms.map Prod.fst = ns.map Prod.fst →
      (∀ (i : Nat) p q, ms[i]? = some p → ns[i]? = some q → TextSame p.2 q.2) → ns.Perm ns' → TextSame (objText ms) (objText ns')

/-- Two trees that differ in the order of members only, at any depth. -/
inductive Reordered : JVal → JVal → Prop
  | same {j} : Reordered j j
  | arr {xs ys : List JVal} : xs.length = ys.length → (∀ (i : Nat) x y, xs[i]? = some x → ys[i]? = some y → Reordered x y) → Reordered (.arr xs) (.arr ys)
  | obj {ms ns ns' : List (Bytes × JVal)} : ms.map Prod.fst = ns.map Prod.fst →
      (∀ (i : Nat) p q, ms[i]? = some p → ns[i]? = some q → Reordered p.2 q.2) → ns.Perm ns' → Reordered (.obj ms) (.obj ns')

/-- No object in the tree has a name twice. -/
inductive NamesOnce : JVal → Prop
  | null : NamesOnce .null
  | bool {b} : NamesOnce (.bool b)
  | num {r} : NamesOnce (.num r)
  | str {r} : NamesOnce (.str r)
  | arr {xs : List JVal} : (∀ x ∈ xs, NamesOnce x) → NamesOnce (.arr xs)
  | obj {ms : List (Bytes × JVal)} : (ms.map Prod.fst).Nodup → (∀ m ∈ ms, NamesOnce m.2) → NamesOnce (.obj ms)

/-- No map in the value has a key twice: so it is for the maps of Go. -/
inductive GoMaps : GV → Prop
  | bool {b} : GoMaps (.bool b)
  | int {i} : GoMaps (.int i)
  | uint {n} : GoMaps (.uint n)
  | float {f} : GoMaps (.float f)
  | str {s} : GoMaps (.str s)
  | nilPtr : GoMaps .nilPtr
  | ptr {v} : GoMaps v → GoMaps (.ptr v)
  | nilSlice : GoMaps .nilSlice
  | slice {arr : List GV} {len} : (∀ x ∈ arr, GoMaps x) → GoMaps (.slice arr len)
  | array {xs : List GV} : (∀ x ∈ xs, GoMaps x) → GoMaps (.array xs)
  | nilMap : GoMaps .nilMap
  | map {es : List (GV × GV)} : (es.map Prod.fst).Nodup → (∀ p ∈ es, GoMaps p.2) → GoMaps (.map es)
  | nilIface : GoMaps .nilIface
  | iface {t v} : GoMaps v → GoMaps (.iface t v)
  | struct {fs : List GV} : (∀ x ∈ fs, GoMaps x) → GoMaps (.struct fs)
  | opaque : GoMaps .opaque

/-- The methods of the program do not depend on the order in which a map is iterated over, except for the order of members in their texts. -/
structure Univ.OrderBlind (U : Univ) : Prop where
  text : ∀ m t v v' s, SameVal v v' → methText U m t v = .ok s → ∃ s', methText U m t v' = .ok s' ∧ TextSame s s'
  omits : ∀ name t m v v', U.omitMethod name t = some m → SameVal v v' → m v = m v'
  omitPanics : ∀ name t v v', SameVal v v' → U.omitPanics name t v = U.omitPanics name t v'

end Verif.Unjson
