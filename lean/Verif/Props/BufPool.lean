import Verif.Proofs.BufPool

/-!
# C103: the buffers of PrintJSON, WrapUnmarshalJSON and WrapUnmarshalText
-/

namespace Verif.Props
open Verif Verif.BufPool

/-- **C103** (exclusive): at no time do two running calls have the same buffer, nor is the buffer of a running call in the pool, or an array of the
program. -/
theorem C103_exclusive {s : State} (h : Reach s) :
    (∀ l m r c c', s.calls = l ++ c :: (m ++ c' :: r) → c.buf.arr ≠ c'.buf.arr) ∧
    (∀ c ∈ s.calls, ∀ b ∈ s.pool, c.buf.arr ≠ b.arr) ∧ (∀ c ∈ s.calls, c.buf.arr ∉ s.own) := by
  have hi := inv_reach h
  refine ⟨fun l m r c c' e he => ?_, fun c hc b hb he => ?_, fun c hc ho => ?_⟩
  · have := other_ne hi (l := l) (c := c) (r := m ++ c' :: r) e c'.buf.arr (List.mem_append_left _ (List.mem_map.2 ⟨c', by simp, rfl⟩))
    exact this he.symm
  · obtain ⟨l, r, e⟩ := List.append_of_mem hc
    exact other_ne hi e b.arr (List.mem_append_right _ (List.mem_append_left _ (List.mem_map.2 ⟨b, hb, rfl⟩))) he.symm
  · obtain ⟨l, r, e⟩ := List.append_of_mem hc
    exact other_ne hi e c.buf.arr (List.mem_append_right _ (List.mem_append_right _ ho)) rfl

/-- **C103** (content): while the code of the program has the slice, it is what the appender appended, and while the appender runs, what it has
appended so far, whatever the other calls do. -/
theorem C103_content {s : State} (h : Reach s) {c : Call} (hc : c ∈ s.calls) :
    (c.phase = .handed → s.content c.buf = c.chunks.flatten) ∧ (∀ n, c.phase = .appending n → s.content c.buf = (c.chunks.take n).flatten) := by
  obtain ⟨_, h2, h3⟩ := (inv_reach h).right c hc
  exact ⟨h3, fun n hn => (h2 n hn).2⟩

/-- **C103** (the program): arrays of the program change only when the program writes to them. -/
theorem C103_own {s s' : State} (h : Reach s) (hs : Step s s') {a : Nat} (ha : a ∈ s.own) :
    s'.heap a = s.heap a ∨ ∃ x, s' = { s with heap := update s.heap a x } := by
  have hi := inv_reach h
  have hlt : a < s.next := hi.fresh a (List.mem_append_right _ (List.mem_append_right _ ha))
  cases hs with
  | reuse hb => exact .inl rfl
  | new => exact .inl (update_ne (by omega))
  | @chunk l r c n room x e hph hx =>
    left
    unfold State.append
    split
    · exact update_ne (other_ne hi e a (List.mem_append_right _ (List.mem_append_right _ ha)))
    · exact update_ne (by omega)
  | returns e hph => exact .inl rfl
  | fails e hph hok => exact .inl (update_ne (by omega))
  | back e hph => exact .inl rfl
  | put e hph => exact .inl rfl
  | panics => exact .inl rfl
  | drop => exact .inl rfl
  | make => exact .inl (update_ne (by omega))
  | @write b x hb =>
    by_cases e : a = b
    · subst e; exact .inr ⟨x, rfl⟩
    · exact .inl (update_ne e)

/-! ## Appenders that do not append

An `AppendJSON` method that returns a slice of its own instead of appending to its argument gives the slice away: it is put into the pool. -/

/-- a call of such a method puts the slice into the pool -/
theorem foreign_call {s : State} (h : AnyReach s) (hc : s.calls = []) {a len : Nat} (ha : a ∈ s.own) (hn : a < s.next) :
    ∃ s', AnyReach s' ∧ s'.calls = [] ∧ s'.pool = ⟨a, len⟩ :: s.pool ∧ s'.own = s.own ∧ s'.heap a = s.heap a ∧ a < s'.next := by
  have s1 := AnyReach.step h (.step (.new (chunks := []) (ok := true)))
  have s2 := AnyReach.step s1 (.foreign (l := []) (r := []) (n := 0) (a := a) (len := len) (c := ⟨[], true, .appending 0, ⟨s.next, 0⟩⟩) (by simp [hc]) rfl ha)
  have s3 := AnyReach.step s2 (.step (.back (l := []) (r := []) (c := ⟨[], true, .handed, ⟨a, len⟩⟩) rfl rfl))
  have s4 := AnyReach.step s3 (.step (.put (l := []) (r := []) (c := ⟨[], true, .done, ⟨a, len⟩⟩) rfl rfl))
  exact ⟨_, s4, rfl, rfl, rfl, update_ne (by omega), by show a < s.next + 1; omega⟩

/-- Without the condition that appenders append C103 is false: after two such calls, another call is handed what a third one wrote. -/
theorem C103_needs_append : ∃ s c, AnyReach s ∧ c ∈ s.calls ∧ c.phase = .handed ∧ c.chunks = [b!"1"] ∧ s.content c.buf = b!"2" := by
  have s1 := AnyReach.step .init (.step (.make (x := b!"abc")))
  obtain ⟨t, t1, t2, t3, t4, t5, t6⟩ := foreign_call s1 rfl (a := 0) (len := 3) (by simp [State.init]) (by simp [State.init])
  obtain ⟨u, u1, u2, u3, u4, u5, u6⟩ := foreign_call t1 t2 (a := 0) (len := 3) (by simp [t4, State.init]) t6
  have hp : u.pool = [⟨0, 3⟩, ⟨0, 3⟩] := by rw [u3, t3]; rfl
  have hh : u.heap 0 = b!"abc" := by rw [u5, t5]; rfl
  have r1 := AnyReach.step u1 (.step (.reuse (b := ⟨0, 3⟩) (chunks := [b!"1"]) (ok := true) (by simp [hp])))
  have r2 := AnyReach.step r1 (.step (.reuse (b := ⟨0, 3⟩) (chunks := [b!"2"]) (ok := true) (by simp [hp])))
  rw [u2] at r2
  have r3 := AnyReach.step r2 (.step (.chunk (room := 0) (n := 0) (x := b!"1") (l := [⟨[b!"2"], true, .appending 0, ⟨0, 0⟩⟩]) (r := [])
    (c := ⟨[b!"1"], true, .appending 0, ⟨0, 0⟩⟩) rfl rfl rfl))
  simp only [State.append, hh, List.length_cons, List.length_nil, overwrite] at r3
  rw [if_pos (by decide)] at r3
  have r4 := AnyReach.step r3 (.step (.returns (l := [⟨[b!"2"], true, .appending 0, ⟨0, 0⟩⟩]) (r := []) (c := ⟨[b!"1"], true, .appending 1, ⟨0, 1⟩⟩) rfl rfl))
  have r5 := AnyReach.step r4 (.step (.chunk (room := 0) (n := 0) (x := b!"2") (l := []) (r := [⟨[b!"1"], true, .handed, ⟨0, 1⟩⟩])
    (c := ⟨[b!"2"], true, .appending 0, ⟨0, 0⟩⟩) rfl rfl rfl))
  simp only [State.append, update_eq, List.length_cons, List.length_nil, overwrite] at r5
  rw [if_pos (by decide)] at r5
  refine ⟨_, ⟨[b!"1"], true, .handed, ⟨0, 1⟩⟩, r5, ?_, rfl, rfl, ?_⟩
  · simp
  · simp [State.content, update_eq]

set_option maxRecDepth 20000 in
-- two calls that are interleaved, the second with an array that was used before; the slice of the second is in the hands of the program
example : ∃ s c, Reach s ∧ s.calls.length = 2 ∧ c ∈ s.calls ∧ c.phase = .handed ∧ c.buf.arr = 0 ∧ c.chunks = [b!"x", b!"yz"] := by
  have s1 := Reach.step .init (.new (chunks := []) (ok := false))
  have s2 := Reach.step s1 (.returns (l := []) (r := []) rfl rfl)
  have s3 := Reach.step s2 (.put (l := []) (r := []) rfl rfl)
  have s4 := Reach.step s3 (.new (chunks := [b!"ab"]) (ok := true))
  have s5 := Reach.step s4 (.reuse (b := ⟨0, 0⟩) (chunks := [b!"x", b!"yz"]) (ok := true) (by simp [State.init]))
  have s6 := Reach.step s5 (.chunk (room := 0) (n := 0) (x := b!"x") (l := []) (r := [⟨[b!"ab"], true, .appending 0, ⟨1, 0⟩⟩])
    (c := ⟨[b!"x", b!"yz"], true, .appending 0, ⟨0, 0⟩⟩) rfl rfl rfl)
  have s7 := Reach.step s6 (.chunk (room := 0) (n := 1) (x := b!"yz") (l := []) (r := [⟨[b!"ab"], true, .appending 0, ⟨1, 0⟩⟩])
    (c := ⟨[b!"x", b!"yz"], true, .appending 1, ⟨0, 1⟩⟩) rfl rfl rfl)
  have s8 := Reach.step s7 (.returns (l := []) (r := [⟨[b!"ab"], true, .appending 0, ⟨1, 0⟩⟩])
    (c := ⟨[b!"x", b!"yz"], true, .appending 2, ⟨0, 3⟩⟩) rfl rfl)
  exact ⟨_, _, s8, rfl, List.mem_cons_self, rfl, rfl, rfl⟩

end Verif.Props
