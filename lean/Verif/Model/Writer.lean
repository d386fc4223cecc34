import Verif.Model.UnStream

/-!
# Model of `LineEncoder` and `PrintJSON` with any `io.Writer`

Model/UnStream.lean has a writer that accepts everything. Here the writer is a program with a state of its own: it returns any number and any
error. Simplification: it does not keep or modify the slice it is given (documentation of `io.Writer`).
-/

namespace Verif.UnWriter
open Verif Verif.Njson Verif.Unjson Verif.UnStream

/-- `io.Writer`: what `Write(p)` returns, and the state afterwards. Errors are numbers. -/
structure Writer (σ : Type) where
  write : σ → Bytes → Int × Option Nat × σ

/-- The error that a call returns: of the codec or of the writer. -/
inductive WErr
  | codec (e : UErr)
  | io (e : Nat)

/-- The result of a call: it panics or returns. -/
inductive WOut (α : Type)
  | panic
  | done (r : α)

/-- stream.go:60-64 `LineEncoder`: the encoder, `buffer` and the state of the writer -/
structure LineEncW (σ : Type) where
  enc : Option TypeEncoder
  buffer : Bytes
  w : σ

/-- stream.go:67-73 `NewLineEncoder` -/
def LineEncW.new {σ : Type} (w : σ) : LineEncW σ := ⟨none, [], w⟩

/-- stream.go:77-81: `AppendJSON(e.buffer[:0], x)` or `e.Encoder.Encode(e.buffer[:0], x)` -/
def LineEncW.text (U : Univ) (fuel : Nat) (enc : Option TypeEncoder) (buf : Bytes) (x : Option (Ty × GV)) : Option (Out Bytes) :=
  match enc, x with
  | none, _ => Unjson.appendJSON U fuel buf x
  | some c, some (t, v) => c.encode U fuel buf t v
  | some _, none => some (.done buf (some .invalidValueType)) -- encode.go:40-42

/-- stream.go:76-88 `Encode` -/
def LineEncW.encode {σ : Type} (U : Univ) (W : Writer σ) (fuel : Nat) (e : LineEncW σ) (x : Option (Ty × GV)) :
    Option (WOut (Option WErr) × LineEncW σ) :=
  match LineEncW.text U fuel e.enc (e.buffer.take 0) x with
  | none => none
  | some .panic => some (.panic, e)
  | some (.done b (some err)) => some (.done (some (.codec err)), { e with buffer := b })
  | some (.done b none) =>
    let e := { e with buffer := b ++ [10] }
    let r := W.write e.w e.buffer
    some (.done (r.2.1.map .io), { e with w := r.2.2 })

/-- Calls of `Encode` one after the other; the results in order and the encoder at the end. -/
def LineEncW.run {σ : Type} (U : Univ) (W : Writer σ) (fuel : Nat) : LineEncW σ → List (Option (Ty × GV)) →
    Option (List (WOut (Option WErr)) × LineEncW σ)
  | e, [] => some ([], e)
  | e, x :: xs =>
    match e.encode U W fuel x with
    | none => none
    | some (r, e) =>
      match LineEncW.run U W fuel e xs with
      | none => none
      | some (rs, e) => some (r :: rs, e)

/-- The error of `PrintJSON`: the appender's or the writer's -/
inductive PErr
  | append
  | io (e : Nat)

/-- node.go:177-189 `PrintJSON`: `n`, `err`, and the state of the writer. The buffer comes from a pool and is emptied. -/
def printTo {σ : Type} (W : Writer σ) (h : Heap) (fuel : Nat) (pooled : Bytes) (n : Node) (w : σ) : Option (Int × Option PErr × σ) :=
  match n.appendJSON h fuel (pooled.take 0) with
  | none => none
  | some (_, true) => some (0, some .append, w)
  | some (b, false) =>
    let r := W.write w b
    some (r.1, r.2.1.map .io, r.2.2)

end Verif.UnWriter
