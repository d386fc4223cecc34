import Verif.Props.Parse
import Verif.Proofs.BoundSlots
import Verif.Proofs.BoundText

/-!
# C101: the memory of `Document.Parse` is linear in the text

`Doc.arr` is the backing array of `d.nodes` with its spare capacity and `Doc.slots` counts the elements of the
backing arrays of the children of all its nodes, used or spare.
-/

namespace Verif.Props
open Verif Verif.Spec Verif.Njson

theorem value_split {d : Doc} (hwf : d.Wf) {s : Bytes} {d' : Doc} {id : Nat} {t : JVal} {r : Bytes} (h : Parses d s d' id t r) :
    ∃ w v, s = w ++ v ++ r ∧ 2 * t.size ≤ v.length + 1 ∧ Shortest t.ser v := by
  obtain ⟨w, v, h1, _, h3, _⟩ := (C11_language d hwf s t r).1 ⟨d', id, h⟩
  refine ⟨w, v, h1, gval_size ?_ h3, gval_shortest h3⟩
  rintro s ⟨⟨c, r, rfl, _⟩, _⟩
  simp

theorem parse_view {d : Doc} (hwf : d.Wf) {s : Bytes} {d' : Doc} {id : Nat} {t : JVal} {r : Bytes} (h : Parses d s d' id t r) :
    d'.Wf ∧ d'.view = d.view ++ rootHead (flat d.len t) := by
  obtain ⟨pos, htp⟩ := (parses_iff hwf).1 ⟨d', id, h⟩
  obtain ⟨t', pos', e1, e2, e3, _, e4⟩ := parse_ok hwf h.1
  rw [htp] at e1
  cases e1
  exact ⟨e3, e4⟩

/-- **C101** (nodes): a value takes as many nodes as it has values, no more than half of the bytes that it is
read from, rounded up. -/
theorem C101_nodes (d : Doc) (hwf : d.Wf) (s : Bytes) (d' : Doc) (id : Nat) (t : JVal) (r : Bytes) (h : Parses d s d' id t r) :
    d'.len = d.len + t.size ∧ 2 * (d'.len - d.len) + r.length ≤ s.length + 1 := by
  obtain ⟨w, v, h1, h2, _⟩ := value_split hwf h
  obtain ⟨g1, g2⟩ := parse_view hwf h
  have hl : d'.len = d.len + t.size := by
    have := congrArg List.length g2
    rw [view_length g1, List.length_append, view_length hwf, rootHead_length, flat_length_all.1] at this
    exact this
  refine ⟨hl, ?_⟩
  rw [h1]
  simp
  omega

/-- **C101** (array of nodes): the array grows only when it is full, to less than twice the nodes in use,
whatever the outcome, and not at all when there is an error. -/
theorem C101_array (d : Doc) (hwf : d.Wf) (s : Bytes) :
    d.arr.length ≤ (d.parse s).1.arr.length ∧ (d.parse s).1.arr.length ≤ max d.arr.length (2 * (d.parse s).1.len - 1) ∧
    ((∀ id r, (d.parse s).2 ≠ .ok id r) → (d.parse s).1.arr.length = d.arr.length ∧ (d.parse s).1.len = d.len) := by
  have h := (parse_bounded (2 * s.length + 2)).1 ⟨d.arr, d.len⟩ 0 s hwf
  unfold Doc.parse
  dsimp only
  generalize parseValue (2 * s.length + 2) ⟨d.arr, d.len⟩ 0 s = q at h
  cases q with
  | crash => exact ⟨Nat.le_refl _, Nat.le_max_left _ _, fun _ => ⟨rfl, rfl⟩⟩
  | ok p pos rest =>
    obtain ⟨_, ⟨_, h2, h3⟩, _⟩ := h
    refine ⟨by simpa using h2, by simpa using h3, fun hn => absurd rfl (hn _ _)⟩
  | err p e =>
    obtain ⟨_, ⟨_, h2, h3⟩, _⟩ := h
    have h2' : d.arr.length ≤ p.nodes.length := h2
    cases e with
    | eof typ =>
      have : (List.take d.arr.length p.nodes).length = d.arr.length := by rw [List.length_take]; omega
      exact ⟨by simp only [this]; omega, by simp only [this]; omega, fun _ => ⟨this, rfl⟩⟩
    | abort pos typ got want =>
      have : (List.take d.arr.length p.nodes).length = d.arr.length := by rw [List.length_take]; omega
      exact ⟨by simp only [this]; omega, by simp only [this]; omega, fun _ => ⟨this, rfl⟩⟩

/-- **C101** (working memory): also when the text turns out to be wrong the parser has made no more nodes than
the text has bytes, in an array of less than twice the nodes. -/
theorem C101_working (d : Doc) (hwf : d.Wf) (s : Bytes) (p : P)
    (h : (∃ pos rest, parseValue (2 * s.length + 2) ⟨d.arr, d.len⟩ 0 s = .ok p pos rest) ∨ (∃ e, parseValue (2 * s.length + 2) ⟨d.arr, d.len⟩ 0 s = .err p e)) :
    d.len ≤ p.n ∧ p.n ≤ d.len + s.length ∧ p.nodes.length ≤ max d.arr.length (2 * p.n - 1) := by
  have hb := (parse_bounded (2 * s.length + 2)).1 ⟨d.arr, d.len⟩ 0 s hwf
  rcases h with ⟨pos, rest, h⟩ | ⟨e, h⟩
  · rw [h] at hb
    obtain ⟨h1, ⟨h2, _, h3⟩, _⟩ := hb
    dsimp only at h1 h2 h3
    exact ⟨h2, by omega, h3⟩
  · rw [h] at hb
    obtain ⟨h1, ⟨h2, _, h3⟩, _⟩ := hb
    exact ⟨h2, h1, h3⟩

theorem cap_le {d : Doc} (hwf : d.Wf) {s : Bytes} {d' : Doc} {id : Nat} {r : Bytes} (h : d.parse s = (d', .ok id r)) (i : Nat) :
    At ⟨d.arr, d.len⟩ ⟨d'.arr, d'.len⟩ i := by
  have hs := (slots_all (2 * s.length + 2)).1 ⟨d.arr, d.len⟩ 0 s hwf
  have hb := (parse_bounded (2 * s.length + 2)).1 ⟨d.arr, d.len⟩ 0 s hwf
  unfold Doc.parse at h
  dsimp only at h
  generalize parseValue (2 * s.length + 2) ⟨d.arr, d.len⟩ 0 s = q at h hs hb
  cases q with
  | crash => simp at h
  | ok p pos rest =>
    simp only [Prod.mk.injEq, ParseOut.ok.injEq] at h
    obtain ⟨rfl, _⟩ := h
    refine (hs i).trans (At.same ?_) hb.2.1.1 (Nat.le_refl _)
    show (p.setNode d.len (fun n => { n with root := true })).sl i = p.sl i
    by_cases hi : i = d.len
    · subst hi
      by_cases hl : d.len < p.nodes.length
      · rw [setNode_sl _ hl]; rfl
      · unfold P.sl P.setNode
        simp only [List.getD_eq_getElem?_getD]
        rw [List.getElem?_eq_none (by simpa using hl), List.getElem?_eq_none (by simpa using hl)]
    · exact setNode_sl_ne _ hi
  | err p e => cases e <;> simp at h

/-- **C101** (arrays of children): reading a value adds fewer slots for children than the bytes that it is
read from. -/
theorem C101_children (d : Doc) (hwf : d.Wf) (s : Bytes) (d' : Doc) (id : Nat) (t : JVal) (r : Bytes) (h : Parses d s d' id t r) :
    d'.slots + r.length < d.slots + s.length := by
  obtain ⟨w, v, h1, h2, _⟩ := value_split hwf h
  obtain ⟨g1, g2⟩ := parse_view hwf h
  have hfl := flat_children.1 t d.len
  have key : d'.slots ≤ d.slots + (List.replicate d.len 0 ++ ((rootHead (flat d.len t)).map (fun a : ANode => 2 * a.vals.length))).sum := by
    apply sum_le
    intro i
    have ha := cap_le hwf h.1 i
    have e' : (d'.arr.map fun n => n.values.arr.length).getD i 0 = ((⟨d'.arr, d'.len⟩ : P).sl i).arr.length := by
      unfold P.sl
      simp only [List.getD_eq_getElem?_getD, List.getElem?_map]
      cases d'.arr[i]? <;> rfl
    have e : (d.arr.map fun n => n.values.arr.length).getD i 0 = ((⟨d.arr, d.len⟩ : P).sl i).arr.length := by
      unfold P.sl
      simp only [List.getD_eq_getElem?_getD, List.getElem?_map]
      cases d.arr[i]? <;> rfl
    rw [e, e']
    by_cases hi : i < d.len
    · rw [ha.old hi]; omega
    · by_cases hi' : d'.len ≤ i
      · rw [ha.new hi']; omega
      · have hv : d'.view[i]? = (rootHead (flat d.len t))[i - d.len]? := by
          rw [g2, List.getElem?_append_right (by rw [view_length hwf]; omega), view_length hwf]
        have hc : (List.replicate d.len 0 ++ ((rootHead (flat d.len t)).map (fun a : ANode => 2 * a.vals.length))).getD i 0 = 2 * ((⟨d'.arr, d'.len⟩ : P).sl i).vis.length := by
          rw [List.getD_eq_getElem?_getD, List.getElem?_append_right (by simp; omega), List.length_replicate, List.getElem?_map, ← hv]
          unfold Doc.view P.sl
          unfold Doc.Wf at g1
          rw [List.getElem?_map, List.getElem?_take, if_pos (by omega), List.getD_eq_getElem?_getD, List.getElem?_eq_getElem (by omega)]
          rfl
        rw [hc]
        have := ha.cap
        omega
  have hsum : (List.replicate d.len 0 ++ ((rootHead (flat d.len t)).map (fun a : ANode => 2 * a.vals.length))).sum = 2 * ((flat d.len t).map (·.vals.length)).sum := by
    rw [List.sum_append]
    have h0 : ∀ n, (List.replicate n 0).sum = 0 := by intro n; simp
    have hr : ∀ l : List ANode, ((rootHead l).map (fun a : ANode => 2 * a.vals.length)).sum = 2 * (l.map (·.vals.length)).sum := by
      have : ∀ l : List ANode, (l.map (fun a : ANode => 2 * a.vals.length)).sum = 2 * (l.map (·.vals.length)).sum := by
        intro l
        induction l with
        | nil => rfl
        | cons a l ih => simp only [List.map_cons, List.sum_cons, ih]; omega
      intro l
      cases l with
      | nil => rfl
      | cons a l => simp only [rootHead, List.map_cons, List.sum_cons, this]; omega
    rw [h0, hr]
    omega
  rw [hsum] at key
  rw [h1]
  simp
  omega

/-- **C101** (text): what is written for a value that was read is never longer than the text that it was read
from, and when it is as long it is that text. -/
theorem C101_text (d : Doc) (hwf : d.Wf) (s : Bytes) (d' : Doc) (id : Nat) (t : JVal) (r : Bytes) (h : Parses d s d' id t r)
    (fuel : Nat) (hf : t.size ≤ fuel) :
    ∃ j, appendJSON d'.get fuel [] id = some (j, false) ∧ j.length + r.length ≤ s.length ∧ (j.length + r.length = s.length → s = j ++ r) := by
  obtain ⟨w, v, h1, _, h2, h3⟩ := value_split hwf h
  refine ⟨t.ser, by simpa using appendJSON_reps h.2 hf [], by rw [h1]; simp; omega, fun e => ?_⟩
  rw [h1] at e
  simp at e
  have hw : w = [] := List.length_eq_zero_iff.1 (by omega)
  rw [h1, hw, h3 (by omega)]
  rfl

-- a text for which the bounds are met: four nodes from seven bytes, three slots, the array of nodes has seven elements
example : (let p := Doc.empty.parse b!"[1,2,3]"; (p.2, p.1.len, p.1.arr.length, p.1.slots)) = (.ok 0 [], 4, 7, 3) := by decide +kernel
-- a document that is used again
example : (let p := dirty.parse b!" [[1],2] x"; (p.2, p.1.len, p.1.arr.length, dirty.slots, p.1.slots)) = (.ok 1 b!" x", 5, 7, 3, 3) := by decide +kernel
example : Parses dirty b!" [[1],2] x" (dirty.parse b!" [[1],2] x").1 1 (.arr [.arr [.num b!"1"], .num b!"2"]) b!" x" := by
  have n : ∀ c : UInt8, c = 49 ∨ c = 50 → LenientNum [c] := by
    intro c hc
    refine ⟨⟨c, [], rfl, .inl ?_⟩, ?_⟩
    · rcases hc with rfl | rfl <;> (unfold IsDigitByte; decide)
    · rcases hc with rfl | rfl <;> (unfold NumberEnd; decide)
  have hv : LenientValue b!"[[1],2]" (.arr [.arr [.num b!"1"], .num b!"2"]) :=
    GVal.arr (w := []) (body := b!"[1],2") IsWs.nil
      (.cons (v := b!"[1]") (w := []) (w' := []) (body := b!"2")
        (.arr (w := []) (body := b!"1") IsWs.nil (.one (v := b!"1") (w := []) (.num (n 49 (.inl rfl))) IsWs.nil)) IsWs.nil IsWs.nil
        (.one (v := b!"2") (w := []) (.num (n 50 (.inr rfl))) IsWs.nil))
  obtain ⟨d', id, h⟩ := (C11_language dirty dirty_wf b!" [[1],2] x" (.arr [.arr [.num b!"1"], .num b!"2"]) b!" x").2
    ⟨b!" ", b!"[[1],2]", by decide, by unfold IsWs; decide, hv, trivial⟩
  obtain ⟨_, _, _, e, _⟩ := parse_ok dirty_wf h.1
  have e : id = 1 := e
  subst e
  rw [h.1]
  exact h

end Verif.Props
