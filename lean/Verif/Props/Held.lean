import Mathlib.Tactic.Ring
import Verif.Proofs.Held
import Verif.Props.Cycle

/-!
# Property C138: the text of a document is in proportion to its nodes

In a document where no node has two parents, the tree of a node has no more nodes than the document and its text is no longer than
what the nodes of the document hold (`Doc.held`). This is false of the code in general: a copied root keeps its root flag, so
`Append` links it a second time (C29). A document with `n + 1` nodes, made with `2 n + 2` calls, can have a text of more than `2 ^ n` bytes.
-/

namespace Verif.Props
open Verif Verif.Spec Verif.Njson

theorem cont_lt {d : Doc} {j : Nat} {c : Cont} (h : d.cont j = some c) : j < d.len := by
  unfold Doc.cont Doc.get at h
  split at h
  · assumption
  · simp at h

/-- **C138 (partial)**: in a document without sharing the tree of a node has no more nodes than the document.
Missing: documents in which a node has two parents (`C138_false`). -/
theorem C138_nodes_partial (h : Heap) (n : Node) (t : JVal) (r : Ref) (hr : n.document h = some r) (hn : NoSharing (h r)) (ht : Tree h n t) :
    t.size ≤ (h r).len := by
  obtain ⟨r', h1, h2⟩ := ht
  rw [hr] at h1; simp at h1; subst h1
  obtain ⟨l, a1, _, a3, a4⟩ := (tree_nodes hn).1 t n.id h2
  rw [← a1]
  refine length_le_range a4 fun j hj => ?_
  obtain ⟨t', e1, _⟩ := reps_reach h2 (a3 j hj)
  obtain ⟨c, hc⟩ := reps_some e1
  exact cont_lt hc

/-- **C138 (partial)**: in a document without sharing AppendJSON goes through no more nodes than the document has, and the text that it appends
is no longer than what the nodes of the document hold. Missing: documents in which a node has two parents (`C138_false`). -/
theorem C138_text_partial (h : Heap) (n : Node) (t : JVal) (r : Ref) (hr : n.document h = some r) (hn : NoSharing (h r)) (ht : Tree h n t)
    (dst : Bytes) : ∃ s : Bytes, n.appendJSON h (h r).len dst = some (dst ++ s, false) ∧ s.length ≤ (h r).held := by
  refine ⟨t.ser, C21_appendJSON h n t dst ht _ (C138_nodes_partial h n t r hr hn ht), ?_⟩
  obtain ⟨r', h1, h2⟩ := ht
  rw [hr] at h1; simp at h1; subst h1
  obtain ⟨l, _, a2, a3, a4⟩ := (tree_nodes hn).1 t n.id h2
  refine Nat.le_trans a2 (sum_le_range a4 (fun j hj => ?_) _)
  obtain ⟨t', e1, _⟩ := reps_reach h2 (a3 j hj)
  obtain ⟨c, hc⟩ := reps_some e1
  exact cont_lt hc

/-- **C138 (partial)**: so after any sequence of calls in which every orphan that gets linked has no parent yet and `Append` is not given
dead nodes. -/
theorem C138_history_partial (fuel : Nat) (ops : List Op) (h0 h : Heap) (rs : List Res) (hw : h0.Wf) (hb : Blank h0)
    (hs : AllSteps (fun h op => LiveAppends h op ∧ TrueOrphans h op) fuel ops h0) (hrun : runOps fuel ops h0 = some (h, rs))
    (n : Node) (t : JVal) (r : Ref) (hr : n.document h = some r) (ht : Tree h n t) (dst : Bytes) :
    ∃ s : Bytes, n.appendJSON h (h r).len dst = some (dst ++ s, false) ∧ s.length ≤ (h r).held :=
  C138_text_partial h n t r hr (C29_no_sharing_partial fuel ops h0 h rs hw hb hs hrun r) ht dst

/-! ## sharing -/

/-- `y` is the last node made in document 0: `y.Append(other.Root()); y.Append(y.Index(0))`, and again with `y.Index(0)` for `y`. -/
def doubleOps : Nat → List Op
  | 0 => [.add 1 tArray [], .add 0 tArray []]
  | n + 1 => doubleOps n ++ [.append ⟨n, 0, some 0⟩ [⟨0, 0, some 1⟩], .append ⟨n, 0, some 0⟩ [⟨n + 1, 0, some 0⟩]]

/-- `[]`, `[[],[]]`, `[[[],[]],[[],[]]]`, … -/
def doubled : Nat → JVal
  | 0 => .arr []
  | n + 1 => .arr [doubled n, doubled n]

theorem doubled_long : ∀ n, 2 ^ n < (doubled n).ser.length
  | 0 => by decide
  | n + 1 => by
    have := doubled_long n
    simp [doubled, JVal.ser, serElems]
    omega

/-- the nodes of document 0 after `doubleOps n` -/
def links (n : Nat) : List ANode := (List.range n).map fun i => ⟨tArray, i == 0, [], [⟨i + 1, []⟩, ⟨i + 1, []⟩]⟩

theorem links_succ (n : Nat) : links (n + 1) = links n ++ [⟨tArray, n == 0, [], [⟨n + 1, []⟩, ⟨n + 1, []⟩]⟩] := by
  simp [links, List.range_succ]

theorem links_length (n : Nat) : (links n).length = n := by simp [links]

theorem modify_at (f : ANode → ANode) (x : ANode) (R : List ANode) : ∀ L : List ANode, (L ++ x :: R).modify L.length f = L ++ f x :: R
  | [] => rfl
  | y :: L => by simp [modify_at f x R L]

theorem set_same (a : AH) (r : Ref) (d : AD) : (a.set r d) r = d := by simp [AH.set]

theorem set_set (a : AH) (r : Ref) (d d' : AD) : (a.set r d).set r d' = a.set r d' := by
  funext q; unfold AH.set; split <;> simp_all

theorem append_copy {a : AH} {L : List ANode} {b : Bool} {f : Nat} (h0 : a 0 = ⟨L ++ [⟨tArray, b, [], []⟩], 0⟩)
    (h1 : a 1 = ⟨[⟨tArray, true, [], []⟩], 0⟩) : A.append a (f + 1) ⟨L.length, 0, some 0⟩ [⟨0, 0, some 1⟩] =
      some (a.set 0 ⟨L ++ [⟨tArray, b, [], [⟨L.length + 1, []⟩]⟩, ⟨tArray, true, [], []⟩], 0⟩) := by
  have hm := modify_at (fun n => { n with vals := [⟨L.length + 1, []⟩] }) ⟨tArray, b, [], []⟩ [⟨tArray, true, [], []⟩] L
  have hm' := modify_at (fun n => { n with vals := [] }) ⟨tArray, true, [], []⟩ [] (L ++ [⟨tArray, b, [], []⟩])
  simp only [List.length_append, List.length_singleton, List.append_assoc, List.singleton_append] at hm'
  simp [A.append, A.get, A.document, A.getOf, A.appendLoop, A.copyOrAdopt, h0, h1, A.ncopy, A.ncopyVals, A.modify, set_same, set_set, hm, hm']

theorem append_link {a : AH} {L : List ANode} {b : Bool} {f : Nat}
    (h0 : a 0 = ⟨L ++ [⟨tArray, b, [], [⟨L.length + 1, []⟩]⟩, ⟨tArray, true, [], []⟩], 0⟩) :
    A.append a f ⟨L.length, 0, some 0⟩ [⟨L.length + 1, 0, some 0⟩] =
      some (a.set 0 ⟨L ++ [⟨tArray, b, [], [⟨L.length + 1, []⟩, ⟨L.length + 1, []⟩]⟩, ⟨tArray, false, [], []⟩], 0⟩) := by
  have hm := modify_at (fun n => { n with vals := [⟨L.length + 1, []⟩, ⟨L.length + 1, []⟩] }) ⟨tArray, b, [], [⟨L.length + 1, []⟩]⟩
    [⟨tArray, false, [], []⟩] L
  have hm' := modify_at (fun n => { n with root := false }) ⟨tArray, true, [], []⟩ [] (L ++ [⟨tArray, b, [], [⟨L.length + 1, []⟩]⟩])
  simp only [List.length_append, List.length_singleton, List.append_assoc, List.singleton_append] at hm'
  simp [A.append, A.get, A.document, A.getOf, A.appendLoop, A.copyOrAdopt, h0, A.modify, set_same, set_set, hm, hm']

theorem append_run {h : Heap} (hw : h.Wf) {fuel : Nat} {n : Node} {vs : List Node} {a : AH} (ha : A.append h.abs fuel n vs = some a) :
    ∃ h', (Op.append n vs).run fuel h = some (h', .unit) ∧ h'.Wf ∧ h'.abs = a := by
  obtain ⟨c1, c2⟩ := abs_append hw fuel n vs
  rw [ha] at c1
  cases hc : n.append h fuel vs with
  | none => rw [hc] at c1; simp at c1
  | some h' =>
    rw [hc] at c1; simp at c1
    exact ⟨h', by simp [Op.run, hc], c2 h' hc, c1⟩

theorem double_run (f : Nat) : ∀ n, ∃ h rs, runOps (f + 1) (doubleOps n) newHeap = some (h, rs) ∧ h.Wf ∧
    h.abs 0 = ⟨links n ++ [⟨tArray, n == 0, [], []⟩], 0⟩ ∧ h.abs 1 = ⟨[⟨tArray, true, [], []⟩], 0⟩
  | 0 => by
    refine ⟨_, _, rfl, ?_, ?_, ?_⟩
    · exact (newHeap_wf.set 1 (abs_add (newHeap_wf 1) _ _).1).set 0 (abs_add ((newHeap_wf.set 1 (abs_add (newHeap_wf 1) _ _).1) 0) _ _).1
    · decide +kernel
    · decide +kernel
  | n + 1 => by
    obtain ⟨h, rs, h1, h2, h3, h4⟩ := double_run f n
    have e1 := append_copy (f := f) h3 h4
    rw [links_length] at e1
    obtain ⟨h', r1, w1, a1⟩ := append_run h2 e1
    have k0 : h'.abs 0 = ⟨links n ++ [⟨tArray, n == 0, [], [⟨(links n).length + 1, []⟩]⟩, ⟨tArray, true, [], []⟩], 0⟩ := by
      rw [a1, set_same, links_length]
    have e2 := append_link (f := f + 1) k0
    rw [links_length] at e2
    obtain ⟨h'', r2, w2, a2⟩ := append_run w1 e2
    refine ⟨h'', rs ++ [.unit] ++ [.unit], ?_, w2, ?_, ?_⟩
    · have := runOps_snoc (runOps_snoc h1 r1) r2
      rw [List.append_assoc] at this
      exact this
    · rw [a2, set_same, links_succ, List.append_assoc]
      simp
    · rw [a2, a1]
      simp [AH.set, h4]

theorem doubled_reps (n : Nat) (b : Bool) : ∀ m i, i + m = n → Reps (lcont (links n ++ [⟨tArray, b, [], []⟩])) (doubled m) i
  | 0, i, hi => by
    refine ⟨[], ?_, rfl⟩
    simp [lcont, ← hi, links_length, ANode.cont]
  | m + 1, i, hi => by
    have hr := doubled_reps n b m (i + 1) (by omega)
    refine ⟨[⟨i + 1, []⟩, ⟨i + 1, []⟩], ?_, _, _, rfl, hr, _, _, rfl, hr, rfl⟩
    have : i < n := by omega
    simp [lcont, links, List.getElem?_append, this, ANode.cont]

/-- **C138 is false**: for every `n`, `2 n + 2` calls make a document of `n + 1` nodes, without any raw text or key, whose text has more than `2 ^ n` bytes. -/
theorem C138_doubles (f n : Nat) : ∃ h rs, runOps (f + 1) (doubleOps n) newHeap = some (h, rs) ∧ (doubleOps n).length = 2 * n + 2 ∧
    (h 0).len = n + 1 ∧ (h 0).held = 10 * n + 2 ∧ Tree h ⟨0, 0, some 0⟩ (doubled n) ∧ 2 ^ n < (doubled n).ser.length := by
  obtain ⟨h, rs, h1, h2, h3, h4⟩ := double_run f n
  have hv : (h 0).view = links n ++ [⟨tArray, n == 0, [], []⟩] := congrArg AD.nodes h3
  have hrev : (h 0).rev = 0 := congrArg AD.rev h3
  have hlen : (h 0).len = n + 1 := by
    rw [← view_length (h2 0), hv]; simp [links_length]
  have hc : (h 0).cont = lcont (links n ++ [⟨tArray, n == 0, [], []⟩]) := by
    rw [abs_cont]; unfold A.cont; rw [h3]
  refine ⟨h, rs, h1, ?_, hlen, ?_, ⟨0, by simp [Node.document, hrev], ?_⟩, doubled_long n⟩
  · clear h1 h2 h3 h4 hv hrev hlen hc
    induction n with
    | zero => rfl
    | succ n ih => simp [doubleOps, ih]; omega
  · unfold Doc.held
    rw [hlen, hc, List.range_succ]
    have : (List.range n).map (heldAt (lcont (links n ++ [⟨tArray, n == 0, [], []⟩]))) = (List.range n).map fun _ => 10 := by
      refine List.map_congr_left fun i hi => ?_
      have : i < n := by simpa using hi
      simp [heldAt, lcont, links, List.getElem?_append, this, ANode.cont]
    rw [List.map_append, List.sum_append, this]
    simp [heldAt, lcont, links_length, ANode.cont]
    omega
  · rw [hc]; exact doubled_reps n _ n 0 (by omega)

/-- **C138 is false**: no factor bounds the text of a node by what its document holds. -/
theorem C138_false : ¬ ∃ c : Nat, ∀ (fuel : Nat) (ops : List Op) (h : Heap) (rs : List Res) (n : Node) (t : JVal) (r : Ref),
    runOps fuel ops newHeap = some (h, rs) → n.document h = some r → Tree h n t → t.ser.length ≤ c * (h r).held := by
  rintro ⟨c, hc⟩
  have hp : ∀ c : Nat, c * (10 * (c + 7) + 2) ≤ 2 ^ (c + 7) := by
    intro c
    induction c with
    | zero => simp
    | succ c ih =>
      have h1 : c < 2 ^ c := Nat.lt_two_pow_self
      rw [show c + 1 + 7 = (c + 7) + 1 by omega, Nat.pow_succ]
      have h2 : 2 ^ (c + 7) = 128 * 2 ^ c := by rw [Nat.pow_add, Nat.mul_comm]
      have h3 : (c + 1) * (10 * (c + 7 + 1) + 2) = c * (10 * (c + 7) + 2) + (20 * c + 82) := by ring
      omega
  obtain ⟨h, rs, h1, _, _, h2, h3, h4⟩ := C138_doubles 0 (c + 7)
  have h5 : Node.document h ⟨0, 0, some 0⟩ = some 0 := by
    obtain ⟨r, e, _⟩ := h3
    unfold Node.document at e ⊢
    split at e
    · rename_i r' he
      simp at he; subst he
      split at e
      · rename_i hr; simp [hr]
      · simp at e
    · simp at e
  have := hc 1 _ h rs _ _ 0 h1 h5 h3
  rw [h2] at this
  have := hp c
  omega

/-! ## examples -/

example : (runOps 9 (doubleOps 3 ++ [.json ⟨0, 0, some 0⟩ []]) newHeap).map (fun p => (p.2.getLast?, (p.1 0).len, (p.1 0).held)) =
    some (some (.json (b!"[[[[],[]],[[],[]]],[[[],[]],[[],[]]]]", false)), 4, 32) := by decide +kernel

/-- the nodes of `{"a":[1,2],"b":"x"}` hold 31 bytes; the text has 19 -/
example : (runOps 9 [.parse 0 b!"{\"a\":[1,2],\"b\":\"x\"}"] newHeap).map (fun p => ((p.1 0).len, (p.1 0).held)) = some (5, 31) := by decide +kernel

/-- a call that inserts nothing meets the conditions of `C138_history_partial` -/
example : AllSteps (fun h op => LiveAppends h op ∧ TrueOrphans h op) 9 [.parse 0 b!"[[1],2]", .remove ⟨0, 0, some 0⟩ 1] newHeap ∧
    (runOps 9 [.parse 0 b!"[[1],2]", .remove ⟨0, 0, some 0⟩ 1, .json ⟨0, 0, some 0⟩ []] newHeap).map (fun p => (p.2.getLast?, (p.1 0).held)) =
      some (some (.json (b!"[[1]]", false)), 18) := by
  refine ⟨⟨⟨fun n vs h => by simp at h, fun p hp => by simp [Op.inserted] at hp⟩, fun h' res _ =>
    ⟨⟨fun n vs h => by simp at h, fun p hp => by simp [Op.inserted] at hp⟩, fun _ _ _ => trivial⟩⟩, by decide +kernel⟩

end Verif.Props
