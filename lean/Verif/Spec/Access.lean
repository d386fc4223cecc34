import Verif.Spec.Tree
import Verif.Model.Access

/-! # Specification: iteration histories, trees as Go values -/

namespace Verif.Njson
open Verif Verif.Spec

/-- The calls that move an iterator. -/
inductive IterOp
  | next
  | reset
  | close
  deriving DecidableEq

def IterOp.run (i : IterV) : IterOp → IterV
  | .next => i.next.2
  | .reset => i.reset
  | .close => i.close

def runIter (i : IterV) (ops : List IterOp) : IterV := ops.foldl IterOp.run i

/-- How many `Next` calls there were since the last `Reset` (or the beginning). -/
def nexts : List IterOp → Nat
  | [] => 0
  | ops => go ops 0
where
  go : List IterOp → Nat → Nat
  | [], k => k
  | .next :: ops, k => go ops (k + 1)
  | .reset :: ops, _ => go ops 0
  | .close :: ops, k => go ops k

mutual
/-- `IsGo pf t g`: the Go value `g` is the tree `t`. In a map the last member with a key counts. -/
def IsGo {F : Type} (pf : Bytes → Option F) : JVal → GoVal F → Prop
  | .null, g => g = .nil
  | .bool b, g => g = .bool b
  | .num raw, g => ∃ f, pf raw = some f ∧ g = .float f
  | .str raw, g => g = .str (StrJson.unescaped raw)
  | .arr xs, g => ∃ gs, g = .slice gs ∧ IsGoElems pf xs gs
  | .obj ms, g => ∃ m, g = .map m ∧ (∀ k, m k ≠ none → k ∈ ms.map (·.1)) ∧ IsGoMembers pf ms m
def IsGoElems {F : Type} (pf : Bytes → Option F) : List JVal → List (GoVal F) → Prop
  | [], gs => gs = []
  | x :: xs, gs => ∃ g gs', gs = g :: gs' ∧ IsGo pf x g ∧ IsGoElems pf xs gs'
def IsGoMembers {F : Type} (pf : Bytes → Option F) : List (Bytes × JVal) → (Bytes → Option (GoVal F)) → Prop
  | [], _ => True
  | (k, x) :: ms, m => (k ∈ ms.map (·.1) ∨ ∃ g, m k = some g ∧ IsGo pf x g) ∧ IsGoMembers pf ms m
end

/-- Every number of the tree parses. -/
def NumsParse {F : Type} (pf : Bytes → Option F) : JVal → Prop :=
  AllRaw (fun _ => True) (fun _ => True) (fun raw => pf raw ≠ none)

end Verif.Njson
