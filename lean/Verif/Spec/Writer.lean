import Verif.Model.Writer

/-! # Specification: lines on a writer -/

namespace Verif.Spec
open Verif Verif.UnWriter

/-- The calls of `Write` when the lines are written one after the other, each in one call with its newline, whatever became of the lines
before; nothing is written where there is no line. The results are what the calls return. -/
inductive Wrote {σ : Type} (W : Writer σ) : σ → List (Option Bytes) → List (Option (Option Nat)) → σ → Prop
  | nil {s : σ} : Wrote W s [] [] s
  | skip {s s' : σ} {ls rs} : Wrote W s ls rs s' → Wrote W s (none :: ls) (none :: rs) s'
  | line {s s1 s' : σ} {l : Bytes} {n : Int} {err : Option Nat} {ls rs} : W.write s (l ++ [10]) = (n, err, s1) → Wrote W s1 ls rs s' →
      Wrote W s (some l :: ls) (some err :: rs) s'

end Verif.Spec
