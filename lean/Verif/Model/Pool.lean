import Verif.Spec.Ops

/-!
# Model of the document pool (document.go:366-412)

`sync.Pool` is a bag: `Put` adds to it, `Get` takes out *some* element or reports that there is none (even when there
are elements: they may be in another processor's cache), and elements may vanish at any time (garbage collection).
Pool operations are atomic. `PState` also has bookkeeping that the Go program does not have: who holds which document,
which Nodes have been obtained, how often a document was reset.
-/

namespace Verif.Njson
open Verif

/-- document.go:378-381: a new document with capacity `minNumNodes = 64`. -/
def Doc.pooled : Doc := ⟨List.replicate 64 NodeD.zero, 0, 0⟩

/-- Goroutines. -/
abbrev Gor := Nat

structure PState where
  heap : Heap
  /-- the documents in the `sync.Pool` -/
  pool : List Ref
  /-- first reference that has never been allocated -/
  next : Ref
  /-- ghost: who got a document from `Get` and has not `Put` it since -/
  held : List (Gor × Ref)
  /-- ghost: the Nodes a goroutine obtained from a document it held, and `count` at that time -/
  issued : List (Gor × Node × Nat)
  /-- ghost: how often a document was reset -/
  count : Ref → Nat

def PState.init : PState := ⟨fun _ => Doc.empty, [], 0, [], [], fun _ => 0⟩

/-- document.go:375-377 `Get` when the `sync.Pool` hands out document `r`. -/
def PState.take (s : PState) (g : Gor) (r : Ref) : PState :=
  { s with pool := s.pool.erase r, held := (g, r) :: s.held }

/-- document.go:378-381 `Get` when the `sync.Pool` has nothing to hand out. -/
def PState.alloc (s : PState) (g : Gor) : PState :=
  { s with heap := s.heap.set s.next Doc.pooled, next := s.next + 1, held := (g, s.next) :: s.held }

/-- document.go:385-399 `Put` (also `Close`, document.go:410-412): reset, then into the pool. -/
def PState.put (s : PState) (g : Gor) (r : Ref) : PState :=
  { s with heap := s.heap.set r (s.heap r).reset, pool := r :: s.pool, held := s.held.erase (g, r)
           count := fun q => if q = r then s.count q + 1 else s.count q }

/-- document.go:374-382: `Get` returns `r` to goroutine `g`. -/
inductive PState.Get (s : PState) (g : Gor) : Ref → PState → Prop
  | pooled {r : Ref} : r ∈ s.pool → Get s g r (s.take g r)
  | new : Get s g s.next (s.alloc g)

/-- One step of the program. -/
inductive PStep : PState → PState → Prop
  | get {s s' : PState} {g : Gor} {r : Ref} : s.Get g r s' → PStep s s'
  /-- the caller holds the document: it puts it back at most once per `Get` -/
  | put {s : PState} {g : Gor} {r : Ref} : (g, r) ∈ s.held → PStep s (s.put g r)
  /-- the garbage collector empties the pool bit by bit -/
  | drop {s : PState} {r : Ref} : PStep s { s with pool := s.pool.erase r }
  /-- a call that writes to no document or to one that the caller holds -/
  | work {s : PState} {g : Gor} {op : Op} {fuel : Nat} {h : Heap} {res : Res} : op.run fuel s.heap = some (h, res) →
      (∀ r, op.target = some r → (g, r) ∈ s.held) →
      PStep s { s with heap := h, count := fun q => s.count q + resets q [op] }
  /-- a goroutine obtains a Node of a document it holds -/
  | issue {s : PState} {g : Gor} {r : Ref} {n : Node} : (g, r) ∈ s.held → n.doc = some r → n.rev = (s.heap r).rev →
      PStep s { s with issued := (g, n, s.count r) :: s.issued }
  /-- a mutation through a Node obtained earlier by a goroutine that no longer holds the document -/
  | late {s : PState} {g : Gor} {op : Op} {fuel : Nat} {h : Heap} {res : Res} {n : Node} {c : Nat} :
      (g, n, c) ∈ s.issued → (∀ r, n.doc = some r → (g, r) ∉ s.held) → op.mutates n →
      op.run fuel s.heap = some (h, res) → PStep s { s with heap := h }

inductive PReach : PState → Prop
  | init : PReach PState.init
  | step {s s' : PState} : PReach s → PStep s s' → PReach s'

end Verif.Njson
