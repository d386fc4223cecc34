import Verif.Bytes

/-!
# Model of the pool of buffers (node.go:165-169) and of the calls that share it

`PrintJSON` (node.go:177-184), `WrapUnmarshalJSON` (node.go:213-221) and `WrapUnmarshalText` (node.go:227-232) take a byte slice from a `sync.Pool`,
append to it, hand it to code of the program (`Write`, `UnmarshalJSON`, `UnmarshalText`) and put it back. Calls run in any number of goroutines, and
the code of the program may make further calls; a step of the model is a step of one of the calls that are running.

The appender is a list of chunks that it appends one after the other and whether it then succeeds; so any interleaving of the bytes of several calls
is possible. `Pool.New` and `append` allocate arrays that nobody else has. The arrays of the program itself are in `own`.
-/

namespace Verif.BufPool
open Verif

/-- A slice that begins at the beginning of array `arr`; its capacity is the length of the array. -/
structure Buf where
  arr : Nat
  len : Nat
deriving DecidableEq

inductive Phase
  /-- in `AppendJSON`, which has appended `n` chunks -/
  | appending (n : Nat)
  /-- in `Write`, `UnmarshalJSON` or `UnmarshalText` -/
  | handed
  /-- before `bufferpool.Put` -/
  | done
deriving DecidableEq

/-- A call that is running -/
structure Call where
  /-- what the appender appends -/
  chunks : List Bytes
  /-- the appender returns no error -/
  ok : Bool
  phase : Phase
  buf : Buf

structure State where
  /-- the arrays -/
  heap : Nat → Bytes
  /-- first array that has never been allocated -/
  next : Nat
  pool : List Buf
  calls : List Call
  /-- arrays of the program -/
  own : List Nat

def State.init : State := ⟨fun _ => [], 0, [], [], []⟩

def update (h : Nat → Bytes) (a : Nat) (s : Bytes) : Nat → Bytes := fun b => if b = a then s else h b

/-- The bytes of a slice -/
def State.content (s : State) (b : Buf) : Bytes := (s.heap b.arr).take b.len

/-- Copy `c` over the bytes of `s` from `i` on -/
def overwrite (s : Bytes) (i : Nat) (c : Bytes) : Bytes := s.take i ++ c ++ s.drop (i + c.length)

/-- `append(b, c...)`: in place if there is room, otherwise in a new array with `room` more bytes -/
def State.append (s : State) (b : Buf) (c : Bytes) (room : Nat) : State × Buf :=
  if b.len + c.length ≤ (s.heap b.arr).length then
    ({ s with heap := update s.heap b.arr (overwrite (s.heap b.arr) b.len c) }, ⟨b.arr, b.len + c.length⟩)
  else
    ({ s with heap := update s.heap s.next (s.content b ++ c ++ List.replicate room 0), next := s.next + 1 }, ⟨s.next, b.len + c.length⟩)

/-- One step -/
inductive Step : State → State → Prop
  /-- node.go:178, :214, :228: `Get` hands out some slice of the pool, which is then cut to length 0 -/
  | reuse {s : State} {b : Buf} {chunks : List Bytes} {ok : Bool} : b ∈ s.pool →
      Step s { s with pool := s.pool.erase b, calls := ⟨chunks, ok, .appending 0, ⟨b.arr, 0⟩⟩ :: s.calls }
  /-- `Get` makes a new array of 2048 bytes, node.go:167 -/
  | new {s : State} {chunks : List Bytes} {ok : Bool} :
      Step s { s with heap := update s.heap s.next (List.replicate 2048 0), next := s.next + 1
                      calls := ⟨chunks, ok, .appending 0, ⟨s.next, 0⟩⟩ :: s.calls }
  /-- the appender appends its next chunk -/
  | chunk {s : State} {l r : List Call} {c : Call} {n room : Nat} {x : Bytes} : s.calls = l ++ c :: r → c.phase = .appending n → c.chunks[n]? = some x →
      Step s { (s.append c.buf x room).1 with calls := l ++ { c with phase := .appending (n + 1), buf := (s.append c.buf x room).2 } :: r }
  /-- node.go:179-180, :215-217, :229-230: the appender returns; without an error the slice is handed to the code of the program -/
  | returns {s : State} {l r : List Call} {c : Call} : s.calls = l ++ c :: r → c.phase = .appending c.chunks.length →
      Step s { s with calls := l ++ { c with phase := if c.ok then .handed else .done } :: r }
  /-- the appender returns nil and an error (node.go:66): the nil slice is a slice of an array of no bytes -/
  | fails {s : State} {l r : List Call} {c : Call} {n : Nat} : s.calls = l ++ c :: r → c.phase = .appending n → c.ok = false →
      Step s { s with heap := update s.heap s.next [], next := s.next + 1, calls := l ++ { c with phase := .done, buf := ⟨s.next, 0⟩ } :: r }
  /-- the code of the program returns -/
  | back {s : State} {l r : List Call} {c : Call} : s.calls = l ++ c :: r → c.phase = .handed →
      Step s { s with calls := l ++ { c with phase := .done } :: r }
  /-- node.go:182, :219, :231 `Put` -/
  | put {s : State} {l r : List Call} {c : Call} : s.calls = l ++ c :: r → c.phase = .done →
      Step s { s with calls := l ++ r, pool := c.buf :: s.pool }
  /-- the code of the program panics: the buffer is lost -/
  | panics {s : State} {l r : List Call} {c : Call} : s.calls = l ++ c :: r → Step s { s with calls := l ++ r }
  /-- the garbage collector -/
  | drop {s : State} {b : Buf} : Step s { s with pool := s.pool.erase b }
  /-- the program allocates an array -/
  | make {s : State} {x : Bytes} : Step s { s with heap := update s.heap s.next x, next := s.next + 1, own := s.next :: s.own }
  /-- the program writes to one of its arrays -/
  | write {s : State} {a : Nat} {x : Bytes} : a ∈ s.own → Step s { s with heap := update s.heap a x }

/-- Also appenders that do not append: they return a slice of an array of the program. -/
inductive AnyStep : State → State → Prop
  | step {s s' : State} : Step s s' → AnyStep s s'
  | foreign {s : State} {l r : List Call} {c : Call} {n a len : Nat} : s.calls = l ++ c :: r → c.phase = .appending n → a ∈ s.own →
      AnyStep s { s with calls := l ++ { c with phase := .handed, buf := ⟨a, len⟩ } :: r }

inductive Reach : State → Prop
  | init : Reach .init
  | step {s s' : State} : Reach s → Step s s' → Reach s'

inductive AnyReach : State → Prop
  | init : AnyReach .init
  | step {s s' : State} : AnyReach s → AnyStep s s' → AnyReach s'

end Verif.BufPool
