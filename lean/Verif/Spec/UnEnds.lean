import Verif.Spec.UnTotal

/-! # Specification: the dynamic types in a value -/

namespace Verif.Unjson
open Verif Verif.Float

/-- An interface inside the value holds a value of type `t`. -/
inductive Holds : GV → Ty → Prop
  | here {t v} : Holds (.iface t v) t
  | iface {t t' v} : Holds v t → Holds (.iface t' v) t
  | ptr {t v} : Holds v t → Holds (.ptr v) t
  | slice {t arr len x} : x ∈ arr.take len → Holds x t → Holds (.slice arr len) t
  | array {t xs x} : x ∈ xs → Holds x t → Holds (.array xs) t
  | key {t es k x} : (k, x) ∈ es → Holds k t → Holds (.map es) t
  | value {t es k x} : (k, x) ∈ es → Holds x t → Holds (.map es) t
  | struct {t fs x} : x ∈ fs → Holds x t → Holds (.struct fs) t

end Verif.Unjson
