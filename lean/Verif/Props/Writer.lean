import Verif.Spec.Writer
import Verif.Props.UnStream

/-! # C93: writers that fail -/

namespace Verif.Props
open Verif Verif.Float Verif.Spec Verif.Njson Verif.Unjson Verif.UnStream Verif.UnWriter

/-- The result of a call of `Encode` fits what the writer returned: with no call, it is an error of the codec or a panic; with a call, it is
the error of the writer, or none. -/
def Fits (r : Option (Option Nat)) (o : WOut (Option WErr)) : Prop :=
  match r with
  | none => o = .panic ∨ ∃ e, o = .done (some (.codec e))
  | some none => o = .done none
  | some (some e) => o = .done (some (.io e))

theorem encode_step {σ : Type} {U : Univ} {W : Writer σ} {fuel : Nat} {e e' : LineEncW σ} {x : Option (Ty × GV)} {o : WOut (Option WErr)}
    (h : e.encode U W fuel x = some (o, e')) :
    e'.enc = e.enc ∧
    ((textOf U fuel e.enc x = none ∧ e'.w = e.w ∧ Fits none o) ∨
     ∃ l n err, textOf U fuel e.enc x = some l ∧ W.write e.w (l ++ [10]) = (n, err, e'.w) ∧ Fits (some err) o) := by
  unfold LineEncW.encode at h
  have ht : LineEncW.text U fuel e.enc (e.buffer.take 0) x = LineEnc.text U fuel e.enc x := by
    rw [List.take_zero]
    cases e.enc <;> cases x <;> rfl
  rw [ht] at h
  unfold textOf
  cases hx : LineEnc.text U fuel e.enc x with
  | none => rw [hx] at h; cases h
  | some r =>
    rw [hx] at h
    cases r with
    | panic => cases h; exact ⟨rfl, .inl ⟨rfl, rfl, .inl rfl⟩⟩
    | done b err =>
      cases err with
      | some err => cases h; exact ⟨rfl, .inl ⟨rfl, rfl, .inr ⟨_, rfl⟩⟩⟩
      | none =>
        cases h
        refine ⟨rfl, .inr ⟨b, _, (W.write e.w (b ++ [10])).2.1, rfl, rfl, ?_⟩⟩
        cases (W.write e.w (b ++ [10])).2.1 <;> rfl

/-- **C93**: for every writer, the calls of `Encode` make one call of `Write` for each value that has a text, with the text and a newline, and
return its error; a value without a text is not written at all. What happened before, errors of the writer included, makes no difference to
the lines that follow. -/
theorem C93_lines {σ : Type} {U : Univ} {W : Writer σ} {fuel : Nat} : ∀ (xs : List (Option (Ty × GV))) (e : LineEncW σ)
    (outs : List (WOut (Option WErr))) (e' : LineEncW σ), e.run U W fuel xs = some (outs, e') →
    ∃ rs, Wrote W e.w (xs.map (textOf U fuel e.enc)) rs e'.w ∧ rs.length = xs.length ∧ outs.length = xs.length ∧
      ∀ (i : Nat) r o, rs[i]? = some r → outs[i]? = some o → Fits r o := by
  intro xs
  induction xs with
  | nil => intro e outs e' h; cases h; exact ⟨[], .nil, rfl, rfl, by simp⟩
  | cons x xs ih =>
    intro e outs e' h
    unfold LineEncW.run at h
    cases hq : e.encode U W fuel x with
    | none => rw [hq] at h; cases h
    | some p =>
      obtain ⟨o, e1⟩ := p
      rw [hq] at h
      simp only at h
      cases hr : e1.run U W fuel xs with
      | none => rw [hr] at h; cases h
      | some p =>
        obtain ⟨os, e2⟩ := p
        rw [hr] at h
        cases h
        obtain ⟨k1, k2⟩ := encode_step hq
        obtain ⟨rs, g1, g2, g3, g4⟩ := ih e1 os e' hr
        rw [k1] at g1
        rcases k2 with ⟨k2, k3, k4⟩ | ⟨l, n, err, k2, k3, k4⟩
        · refine ⟨none :: rs, ?_, by simp [g2], by simp [g3], ?_⟩
          · rw [List.map_cons, k2, ← k3]; exact .skip g1
          · intro i r o' h1 h2
            cases i with
            | zero => cases h1; cases h2; exact k4
            | succ i => exact g4 i r o' (by simpa using h1) (by simpa using h2)
        · refine ⟨some err :: rs, ?_, by simp [g2], by simp [g3], ?_⟩
          · rw [List.map_cons, k2]; exact .line k3 g1
          · intro i r o' h1 h2
            cases i with
            | zero => cases h1; cases h2; exact k4
            | succ i => exact g4 i r o' (by simpa using h1) (by simpa using h2)

/-- The writer that keeps everything. -/
def keepAll : Writer Bytes := ⟨fun s p => (p.length, none, s ++ p)⟩

theorem wrote_keepAll {s s' : Bytes} {ls : List (Option Bytes)} {rs} (h : Wrote keepAll s ls rs s') :
    s' = s ++ (ls.filterMap id).flatMap (· ++ [10]) := by
  induction h with
  | nil => simp
  | skip _ ih => rw [ih]; rfl
  | line hw _ ih => cases hw; rw [ih]; simp

/-- **C93**: with a writer that accepts everything it is the encoder of C56: what is written are the texts, each with a newline, so a
`LineDecoder` reads them back. -/
theorem C93_accepting {U : Univ} {fuel : Nat} {xs : List (Option (Ty × GV))} {enc : Option TypeEncoder} {buf : Bytes}
    {outs : List (WOut (Option WErr))} {e' : LineEncW Bytes} (h : LineEncW.run U keepAll fuel ⟨enc, buf, []⟩ xs = some (outs, e')) :
    e'.w = (xs.filterMap (textOf U fuel enc)).flatMap (· ++ [10]) := by
  obtain ⟨rs, h1, _⟩ := C93_lines _ _ _ _ h
  have := wrote_keepAll h1
  rw [List.nil_append, List.filterMap_map] at this
  exact this

/-- **C93**: `PrintJSON` makes one call of `Write` with the text that `AppendJSON` appends to nothing, and returns its results; when
`AppendJSON` fails nothing is written and `n` is 0. -/
theorem C93_print {σ : Type} (W : Writer σ) (h : Heap) (fuel : Nat) (pooled : Bytes) (n : Node) (w : σ) :
    (∀ b, n.appendJSON h fuel [] = some (b, false) →
      printTo W h fuel pooled n w = some ((W.write w b).1, (W.write w b).2.1.map .io, (W.write w b).2.2)) ∧
    (∀ b, n.appendJSON h fuel [] = some (b, true) → printTo W h fuel pooled n w = some (0, some .append, w)) ∧
    (n.appendJSON h fuel [] = none → printTo W h fuel pooled n w = none) := by
  unfold printTo
  rw [List.take_zero]
  refine ⟨fun b hb => by rw [hb], fun b hb => by rw [hb], fun hb => by rw [hb]⟩

/-- A writer that fails every other time and keeps what it accepts. -/
def flaky : Writer (Bool × Bytes) := ⟨fun s p => if s.1 then (p.length, none, (false, s.2 ++ p)) else (0, some 7, (true, s.2))⟩

/-- The outcomes as numbers, for the example. -/
def code : WOut (Option WErr) → Nat
  | .panic => 0
  | .done none => 1
  | .done (some (.codec _)) => 2
  | .done (some (.io e)) => 100 + e

/-- Beside the theorem: `true`, a value that cannot be encoded, `false`, `true` on a writer whose second line fails. -/
example : ((LineEncW.run exU flaky 10 ⟨none, b!"rest", (true, [])⟩
    [some (.bool, .bool true), some (.other, .bool true), some (.bool, .bool false), some (.bool, .bool true)]).map
      fun p => (p.1.map code, p.2.w)) = some ([1, 2, 107, 1], (false, b!"true\ntrue\n")) := by decide +kernel

/-- **C93, a new encoder**: the calls of `Encode` on `NewLineEncoder(w)` write the lines of what `AppendJSON` gives for each value to `w`. -/
theorem C93_new {σ : Type} {U : Univ} {W : Writer σ} {fuel : Nat} (w : σ) (xs : List (Option (Ty × GV)))
    (outs : List (WOut (Option WErr))) (e' : LineEncW σ) (h : (LineEncW.new w).run U W fuel xs = some (outs, e')) :
    ∃ rs, Wrote W w (xs.map (textOf U fuel none)) rs e'.w ∧ rs.length = xs.length ∧ outs.length = xs.length ∧
      ∀ (i : Nat) r o, rs[i]? = some r → outs[i]? = some o → Fits r o :=
  C93_lines xs (LineEncW.new w) outs e' h

end Verif.Props
