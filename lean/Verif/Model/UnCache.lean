import Verif.Model.UnCodec

/-!
# Model of `unjson/cache.go:8-66`: concurrent use of a `Cache`

Goroutines (numbered by `Nat`, any number of them) make calls of `Decoder` and `Encoder` on one `Cache`. A step is one
access to shared memory or one operation of the mutex. Simplifications: `Options` is not written while calls are made;
the result of `NewTypeDecoder` and `NewTypeEncoder` is a new object each time (the number of the object is its
address) or an error that depends on the type only; the `sync.RWMutex` is the set of goroutines that hold it for reading and the
goroutine that holds it for writing (the documentation of package sync: a reader waits for the writer to leave, a writer
waits for everybody; the further rule that readers wait for a waiting writer only removes executions).
-/

namespace Verif.UnCache
open Verif Verif.Unjson

/-- The two methods; they use the maps `decoders` and `encoders`. -/
inductive Kind
  | dec
  | enc
  deriving DecidableEq

/-- Where a goroutine is, with its local variables: the type, `dec`, and `d`. -/
inductive PC
  /-- no call under way -/
  | idle
  /-- cache.go:20, :45: before `c.mu.RLock()` -/
  | start (k : Kind) (t : Ty)
  /-- cache.go:21, :46: before the read of the map -/
  | reading (k : Kind) (t : Ty)
  /-- cache.go:22, :47: before `c.mu.RUnlock()` -/
  | read (k : Kind) (t : Ty) (v : Option Nat)
  /-- cache.go:23-26, :48-51: before the test and `NewTypeDecoder` -/
  | checked (k : Kind) (t : Ty) (v : Option Nat)
  /-- cache.go:30, :55: before `c.mu.Lock()` -/
  | built (k : Kind) (t : Ty) (v : Nat)
  /-- cache.go:31, :56: before the second read of the map -/
  | locked (k : Kind) (t : Ty) (v : Nat)
  /-- cache.go:32-33, :57-58: before `c.mu.Unlock()` and `return d, nil` -/
  | found (k : Kind) (t : Ty) (d : Nat)
  /-- cache.go:35-37, :60-62: before the test for a nil map -/
  | making (k : Kind) (t : Ty) (v : Nat)
  /-- cache.go:38, :63: before the write of the map -/
  | storing (k : Kind) (t : Ty) (v : Nat)
  /-- cache.go:39, :64: before `c.mu.Unlock()` and `return` -/
  | stored (k : Kind) (t : Ty) (v : Nat)
  /-- a write to a nil map -/
  | panicked

/-- cache.go:9-14 `Cache`, with the goroutines, the objects made so far (and for what) and the results of the calls that
have returned, the latest first. `table k` is the map; `none` is the nil map. -/
structure St where
  table : Kind → Option (Ty → Option Nat)
  readers : List Nat
  writer : Option Nat
  pcs : Nat → PC
  made : List (Kind × Ty)
  log : List (Kind × Ty × Except UErr Nat)

/-- cache.go:16: the zero `Cache` -/
def St.init : St := ⟨fun _ => none, [], none, fun _ => .idle, [], []⟩

/-- `m[t]`, which is nil for a nil map -/
def lookup (m : Option (Ty → Option Nat)) (t : Ty) : Option Nat :=
  match m with
  | some f => f t
  | none => none

def setPc (s : St) (i : Nat) (p : PC) : St := { s with pcs := fun j => if j = i then p else s.pcs j }

/-- `fails k t`: the error of `NewTypeDecoder` or `NewTypeEncoder` for type `t`, if it returns one. -/
inductive Step (fails : Kind → Ty → Option UErr) (i : Nat) : St → St → Prop
  | call {s} (k t) : s.pcs i = .idle → Step fails i s (setPc s i (.start k t))
  | rlock {s k t} : s.pcs i = .start k t → s.writer = none → Step fails i s (setPc { s with readers := i :: s.readers } i (.reading k t))
  | get {s k t} : s.pcs i = .reading k t → Step fails i s (setPc s i (.read k t (lookup (s.table k) t)))
  | runlock {s k t v} : s.pcs i = .read k t v → Step fails i s (setPc { s with readers := s.readers.erase i } i (.checked k t v))
  | hit {s k t v} : s.pcs i = .checked k t (some v) → Step fails i s (setPc { s with log := (k, t, .ok v) :: s.log } i .idle)
  | fail {s k t e} : s.pcs i = .checked k t none → fails k t = some e →
      Step fails i s (setPc { s with log := (k, t, .error e) :: s.log } i .idle)
  | build {s k t} : s.pcs i = .checked k t none → fails k t = none →
      Step fails i s (setPc { s with made := s.made ++ [(k, t)] } i (.built k t s.made.length))
  | lock {s k t v} : s.pcs i = .built k t v → s.writer = none → s.readers = [] →
      Step fails i s (setPc { s with writer := some i } i (.locked k t v))
  | recheck {s k t v d} : s.pcs i = .locked k t v → lookup (s.table k) t = some d → Step fails i s (setPc s i (.found k t d))
  | miss {s k t v} : s.pcs i = .locked k t v → lookup (s.table k) t = none → Step fails i s (setPc s i (.making k t v))
  | leave {s k t d} : s.pcs i = .found k t d →
      Step fails i s (setPc { s with writer := none, log := (k, t, .ok d) :: s.log } i .idle)
  | make {s k t v} : s.pcs i = .making k t v →
      Step fails i s (setPc { s with table := fun k' => if k' = k then some ((s.table k).getD fun _ => none) else s.table k' } i (.storing k t v))
  | store {s k t v f} : s.pcs i = .storing k t v → s.table k = some f →
      Step fails i s (setPc { s with table := fun k' => if k' = k then some fun t' => if t' = t then some v else f t' else s.table k' } i (.stored k t v))
  | panic {s k t v} : s.pcs i = .storing k t v → s.table k = none → Step fails i s (setPc s i .panicked)
  | unlock {s k t v} : s.pcs i = .stored k t v →
      Step fails i s (setPc { s with writer := none, log := (k, t, .ok v) :: s.log } i .idle)

/-- Executions: the steps of the goroutines in any order. -/
inductive Run (fails : Kind → Ty → Option UErr) : St → St → Prop
  | refl {s} : Run fails s s
  | step {s s' s'' i} : Run fails s s' → Step fails i s' s'' → Run fails s s''

/-- The states that can be reached. -/
def Reach (fails : Kind → Ty → Option UErr) (s : St) : Prop := Run fails St.init s

/-- The goroutine is about to read a map. -/
def PC.reads : PC → Option Kind
  | .reading k _ => some k
  | .locked k _ _ => some k
  | _ => none

/-- The goroutine is about to write a map, or the variable that holds it. -/
def PC.writes : PC → Option Kind
  | .making k _ _ => some k
  | .storing k _ _ => some k
  | _ => none

end Verif.UnCache
