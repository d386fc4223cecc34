import Verif.Proofs.Commute
import Verif.Spec.Commute
import Verif.Props.Place

/-!
# Property C119: edits of two nodes give the same trees in either order
-/

namespace Verif.Props
open Verif Verif.Spec Verif.Njson

theorem live_cont {h : Heap} {n : Node} (hl : ¬ Dead h n) : ∃ r c, A.document h.abs n = some r ∧ A.cont h.abs r n.id = some c := by
  cases hg : n.get h with
  | none => exact absurd hg hl
  | some d =>
    have ha := abs_get h n
    rw [hg] at ha
    unfold A.get at ha
    cases hd : A.document h.abs n with
    | none => rw [hd] at ha; simp [A.getOf] at ha
    | some r =>
      rw [hd] at ha
      simp only [A.getOf, Option.map_some] at ha
      exact ⟨r, d.abs.cont, rfl, by unfold A.cont lcont; rw [← ha]; rfl⟩

theorem apart_fits {h : Heap} {fuel : Nat} {op : Op} {n1 n2 : Node} (ha : ApartFrom h fuel op n1 n2) {r1 : Ref} (hd1 : A.document h.abs n1 = some r1) :
    ∃ ts, ValsFit h.abs fuel r1 n1.id op.vals ts := by
  have key : ∀ vals : List Node, (∀ v ∈ vals, (∃ t, Tree h v t ∧ t.size ≤ fuel) ∧ ¬ Contains h v n1) → ∃ ts, ValsFit h.abs fuel r1 n1.id vals ts := by
    intro vals
    induction vals with
    | nil => intro _; exact ⟨[], rfl, by simp⟩
    | cons v vals ih =>
      intro hv
      obtain ⟨ts, k1, k2⟩ := ih fun w hw => hv w (List.mem_cons_of_mem _ hw)
      obtain ⟨⟨t, ht, hs⟩, hc⟩ := hv v (List.mem_cons_self ..)
      refine ⟨t :: ts, by simp [k1], ?_⟩
      intro i w s g1 g2
      cases i with
      | succ i => exact k2 i w s (by simpa using g1) (by simpa using g2)
      | zero =>
        simp only [List.getElem?_cons_zero, Option.some.injEq] at g1 g2
        subst g1; subst g2
        obtain ⟨q, e1, e2⟩ := tree_abs.1 ht
        refine ⟨hs, q, e1, e2, ?_⟩
        rintro rfl hr
        exact hc ⟨q, e1, hd1, by rw [abs_cont]; exact hr⟩
  refine key op.vals fun v hv => ?_
  obtain ⟨p, hp, rfl⟩ := List.mem_map.1 hv
  exact ⟨(ha p hp).1, (ha p hp).2.1⟩

theorem apart_other {h : Heap} {fuel : Nat} {op : Op} {n1 n2 : Node} (ha : ApartFrom h fuel op n1 n2) {r2 : Ref} (hd2 : A.document h.abs n2 = some r2) :
    ∀ v ∈ op.vals, A.document h.abs v = some r2 → ¬ Reach (A.cont h.abs r2) v.id n2.id := by
  intro v hv hd hr
  obtain ⟨p, hp, rfl⟩ := List.mem_map.1 hv
  exact (ha p hp).2.2 ⟨r2, hd, hd2, by rw [abs_cont]; exact hr⟩

theorem apart_swap {h : Heap} {fuel : Nat} {op : Op} {n1 n2 : Node} (ha : ApartFrom h fuel op n1 n2) : ApartFrom h fuel op n2 n1 :=
  fun p hp => ⟨(ha p hp).1, (ha p hp).2.2, (ha p hp).2.1⟩

/-- the two edited nodes after both edits -/
theorem two_edits {h : Heap} (hw : h.Wf) {fuel : Nat} {op1 op2 : Op} {n1 n2 : Node} (m1 : op1.mutates n1) (m2 : op2.mutates n2)
    (s1 : ∀ k, op1 ≠ .strip n1 k) (s2 : ∀ k, op2 ≠ .strip n2 k) (hne : ¬ SameNode n1 n2)
    {r1 r2 : Ref} {c1 c2 : Cont} (d1 : A.document h.abs n1 = some r1) (d2 : A.document h.abs n2 = some r2)
    (hc1 : A.cont h.abs r1 n1.id = some c1) (hc2 : A.cont h.abs r2 n2.id = some c2)
    (a1 : ApartFrom h fuel op1 n1 n2) (a2 : ApartFrom h fuel op2 n1 n2) {ts1 ts2 : List JVal}
    (f1 : ValsFit h.abs fuel r1 n1.id op1.vals ts1) (f2 : ValsFit h.abs fuel r2 n2.id op2.vals ts2)
    {h12 : Heap} {rs : List Res} (hrun : runOps fuel [op1, op2] h = some (h12, rs)) (hlen : ∀ r, (h12 r).len < maxUint) :
    (∀ n, A.document h12.abs n = A.document h.abs n) ∧
    (∀ r j, j < (h.abs r).nodes.length → ¬ (r = r1 ∧ j = n1.id) → ¬ (r = r2 ∧ j = n2.id) → A.cont h12.abs r j = A.cont h.abs r j) ∧
    After h12.abs op1 r1 n1.id c1 ts1 ∧ After h12.abs op2 r2 n2.id c2 ts2 := by
  have hdiff : ¬ (r2 = r1 ∧ n2.id = n1.id) := by
    rintro ⟨rfl, e⟩
    exact hne ⟨by rw [document_doc d1, document_doc d2], e.symm⟩
  simp only [runOps] at hrun
  split at hrun
  · simp at hrun
  rename_i h1 res1 hr1
  cases hr2 : op2.run fuel h1 with
  | none => rw [hr2] at hrun; simp at hrun
  | some p =>
    obtain ⟨h2, res2⟩ := p
    rw [hr2] at hrun
    simp only [Option.some.injEq, Prod.mk.injEq] at hrun
    obtain ⟨rfl, -⟩ := hrun
    -- the documents only grow
    have grow : ∀ {g g' : Heap} {op : Op} {n : Node} {res : Res}, g.Wf → op.mutates n → (∀ k, op ≠ .strip n k) → op.run fuel g = some (g', res) →
        ∀ r, (g.abs r).nodes.length ≤ (g'.abs r).nodes.length := by
      intro g g' op n res hg hm hs hr r
      rcases mutation_local hg hm hs hr with he | ⟨q, _, hl⟩
      · exact Nat.le_of_eq (by rw [he])
      · by_cases hq : r = q
        · subst hq; exact hl.len
        · exact Nat.le_of_eq (by rw [hl.other r hq])
    have hw1 : h1.Wf := run_wf hw hr1
    have hw2 : h2.Wf := run_wf hw1 hr2
    have hlen1 : ∀ r, (h1.abs r).nodes.length < maxUint := fun r =>
      Nat.lt_of_le_of_lt (grow hw1 m2 s2 hr2 r) (by rw [abs_len hw2]; exact hlen r)
    have hlen0 : ∀ r, (h.abs r).nodes.length < maxUint := fun r => Nat.lt_of_le_of_lt (grow hw m1 s1 hr1 r) (hlen1 r)
    obtain ⟨eff1, _⟩ := run_edit_eff hw m1 s1 hr1 d1 hc1 f1 (hlen0 _)
    have d2' : A.document h1.abs n2 = some r2 := by rw [eff1.1.document, d2]
    have hc2' : A.cont h1.abs r2 n2.id = some c2 := by
      rw [← hc2]
      by_cases hr : r2 = r1
      · subst hr
        exact eff1.1.old _ (acont_lt hc2) fun he => hdiff ⟨rfl, he⟩
      · unfold A.cont; rw [eff1.1.other _ hr]
    have f2' := eff1.1.fits f2 (apart_other (apart_swap a2) d1)
    obtain ⟨eff2, _⟩ := run_edit_eff hw1 m2 s2 hr2 d2' hc2' f2' (hlen1 _)
    refine ⟨fun n => by rw [eff2.1.document, eff1.1.document], ?_, eff1.after_local f1 (acont_lt hc1) eff2.1 hdiff (acont_lt hc2) (apart_other a1 d2), eff2.after f2'⟩
    intro r j hj k1 k2
    have e1 : A.cont h1.abs r j = A.cont h.abs r j := by
      by_cases hr : r = r1
      · subst hr; exact eff1.1.old j hj fun he => k1 ⟨rfl, he⟩
      · unfold A.cont; rw [eff1.1.other _ hr]
    rw [← e1]
    by_cases hr : r = r2
    · subst hr; exact eff2.1.old j (Nat.lt_of_lt_of_le hj (grow hw m1 s1 hr1 r)) fun he => k2 ⟨rfl, he⟩
    · unfold A.cont; rw [eff2.1.other _ hr]

/-- **C119**: an edit of node `n1` and an edit of a different node `n2` (the setters, Set, Append, Replace, Slice, Remove, Del), of the
same document or of two, whose values contain neither of them: every node has the same tree afterwards in either order. One of the nodes may
be inside the other, and both edits may insert the same value. -/
theorem C119_commute (h : Heap) (hw : h.Wf) (fuel : Nat) (op1 op2 : Op) (n1 n2 : Node) (m1 : op1.mutates n1) (m2 : op2.mutates n2)
    (s1 : ∀ k, op1 ≠ .strip n1 k) (s2 : ∀ k, op2 ≠ .strip n2 k) (hne : ¬ SameNode n1 n2) (l1 : ¬ Dead h n1) (l2 : ¬ Dead h n2)
    (a1 : ApartFrom h fuel op1 n1 n2) (a2 : ApartFrom h fuel op2 n1 n2) (h12 h21 : Heap) (rs rs' : List Res)
    (hrun : runOps fuel [op1, op2] h = some (h12, rs)) (hrun' : runOps fuel [op2, op1] h = some (h21, rs'))
    (hlen : ∀ r, (h12 r).len < maxUint) (hlen' : ∀ r, (h21 r).len < maxUint) (m : Node) (t : JVal) (ht : Tree h m t) (t' : JVal) :
    Tree h12 m t' ↔ Tree h21 m t' := by
  obtain ⟨r1, c1, d1, hc1⟩ := live_cont l1
  obtain ⟨r2, c2, d2, hc2⟩ := live_cont l2
  obtain ⟨ts1, f1⟩ := apart_fits a1 d1
  obtain ⟨ts2, f2⟩ := apart_fits (apart_swap a2) d2
  obtain ⟨b1, b2, b3, b4⟩ := two_edits hw m1 m2 s1 s2 hne d1 d2 hc1 hc2 a1 a2 f1 f2 hrun hlen
  obtain ⟨b1', b2', b3', b4'⟩ := two_edits hw m2 m1 s2 s1 (fun h => hne ⟨h.1.symm, h.2.symm⟩) d2 d1 hc2 hc1 (apart_swap a2) (apart_swap a1) f2 f1 hrun' hlen'
  rw [tree_abs, tree_abs]
  obtain ⟨r, hd, hr⟩ := tree_abs.1 ht
  unfold ATree
  simp only [b1, b1', hd, Option.some.injEq, exists_eq_left']
  constructor
  · exact trees_agree hc1 hc2 f1.1 f2.1 b2 (fun r j h0 h1 h2 => b2' r j h0 h2 h1) b3 b4 b4' b3' hr
  · exact trees_agree hc1 hc2 f1.1 f2.1 (fun r j h0 h1 h2 => b2' r j h0 h2 h1) b2 b4' b3' b3 b4 hr

/-- **C119, trees**: every node that had a tree has one afterwards, if the setters write null, booleans, numbers and strings. -/
theorem C119_trees (h : Heap) (hw : h.Wf) (fuel : Nat) (op1 op2 : Op) (n1 n2 : Node) (m1 : op1.mutates n1) (m2 : op2.mutates n2)
    (s1 : ∀ k, op1 ≠ .strip n1 k) (s2 : ∀ k, op2 ≠ .strip n2 k) (hne : ¬ SameNode n1 n2) (l1 : ¬ Dead h n1) (l2 : ¬ Dead h n2)
    (a1 : ApartFrom h fuel op1 n1 n2) (a2 : ApartFrom h fuel op2 n1 n2) (z1 : SetsScalar op1) (z2 : SetsScalar op2) (h12 : Heap) (rs : List Res)
    (hrun : runOps fuel [op1, op2] h = some (h12, rs)) (hlen : ∀ r, (h12 r).len < maxUint) (m : Node) (t : JVal) (ht : Tree h m t) :
    ∃ t', Tree h12 m t' := by
  obtain ⟨r1, c1, d1, hc1⟩ := live_cont l1
  obtain ⟨r2, c2, d2, hc2⟩ := live_cont l2
  obtain ⟨ts1, f1⟩ := apart_fits a1 d1
  obtain ⟨ts2, f2⟩ := apart_fits (apart_swap a2) d2
  obtain ⟨b1, b2, b3, b4⟩ := two_edits hw m1 m2 s1 s2 hne d1 d2 hc1 hc2 a1 a2 f1 f2 hrun hlen
  obtain ⟨r, hd, hr⟩ := tree_abs.1 ht
  obtain ⟨t', ht'⟩ := after_exists hc1 hc2 f1.1 f2.1 z1 z2 b2 b3 b4 r t m.id hr
  exact ⟨t', tree_abs.2 ⟨r, by rw [b1, hd], ht'⟩⟩

/-- **C119, text**: every node is written as the same JSON afterwards in either order, and all of them are written. -/
theorem C119_json (h : Heap) (hw : h.Wf) (fuel : Nat) (op1 op2 : Op) (n1 n2 : Node) (m1 : op1.mutates n1) (m2 : op2.mutates n2)
    (s1 : ∀ k, op1 ≠ .strip n1 k) (s2 : ∀ k, op2 ≠ .strip n2 k) (hne : ¬ SameNode n1 n2) (l1 : ¬ Dead h n1) (l2 : ¬ Dead h n2)
    (a1 : ApartFrom h fuel op1 n1 n2) (a2 : ApartFrom h fuel op2 n1 n2) (z1 : SetsScalar op1) (z2 : SetsScalar op2) (h12 h21 : Heap) (rs rs' : List Res)
    (hrun : runOps fuel [op1, op2] h = some (h12, rs)) (hrun' : runOps fuel [op2, op1] h = some (h21, rs'))
    (hlen : ∀ r, (h12 r).len < maxUint) (hlen' : ∀ r, (h21 r).len < maxUint) (m : Node) (t : JVal) (ht : Tree h m t) (dst : Bytes) :
    ∃ t' : JVal, ∀ fuel', t'.size ≤ fuel' →
      m.appendJSON h12 fuel' dst = some (dst ++ t'.ser, false) ∧ m.appendJSON h21 fuel' dst = some (dst ++ t'.ser, false) := by
  obtain ⟨t', h1⟩ := C119_trees h hw fuel op1 op2 n1 n2 m1 m2 s1 s2 hne l1 l2 a1 a2 z1 z2 h12 rs hrun hlen m t ht
  have h2 := (C119_commute h hw fuel op1 op2 n1 n2 m1 m2 s1 s2 hne l1 l2 a1 a2 h12 h21 rs rs' hrun hrun' hlen hlen' m t ht t').1 h1
  exact ⟨t', fun fuel' hf => ⟨C21_appendJSON h12 m t' dst h1 fuel' hf, C21_appendJSON h21 m t' dst h2 fuel' hf⟩⟩

-- node 3 is inside node 1, and both edits insert node 6 (copied)
example : (runOps 12 [.append ⟨1, 0, some 0⟩ [⟨6, 0, some 0⟩], .set ⟨3, 0, some 0⟩ b!"q" ⟨6, 0, some 0⟩, .json ⟨0, 0, some 0⟩ []] parsedHeap).map (·.2) =
    some [.unit, .unit, .json (b!"{\"a\":[1,{\"b\":\"x\",\"q\":true},true],\"c\":null,\"a\":true}", false)] ∧
  (runOps 12 [.set ⟨3, 0, some 0⟩ b!"q" ⟨6, 0, some 0⟩, .append ⟨1, 0, some 0⟩ [⟨6, 0, some 0⟩], .json ⟨0, 0, some 0⟩ []] parsedHeap).map (·.2) =
    some [.unit, .unit, .json (b!"{\"a\":[1,{\"b\":\"x\",\"q\":true},true],\"c\":null,\"a\":true}", false)] := by decide +kernel

theorem parsed_leaf : Tree parsedHeap ⟨6, 0, some 0⟩ (.bool true) := ⟨0, by decide +kernel, by unfold Reps; decide +kernel⟩

theorem leaf_apart {n : Node} (h : n.id ≠ 6) : ¬ Contains parsedHeap ⟨6, 0, some 0⟩ n := by
  rintro ⟨r, h1, _, hr⟩
  have hd : Node.document parsedHeap ⟨6, 0, some 0⟩ = some 0 := by decide +kernel
  rw [hd] at h1
  simp only [Option.some.injEq] at h1
  subst h1
  generalize hj : n.id = j at hr h
  cases hr with
  | refl => exact h rfl
  | step k1 k2 _ =>
    have : (parsedHeap 0).cont 6 = some ⟨tBoolean, b!"true", []⟩ := by decide +kernel
    rw [this] at k1
    simp only [Option.some.injEq] at k1
    subst k1
    simp at k2

-- they meet the hypotheses
example : ¬ SameNode ⟨1, 0, some 0⟩ ⟨3, 0, some 0⟩ ∧ ¬ Dead parsedHeap ⟨1, 0, some 0⟩ ∧ ¬ Dead parsedHeap ⟨3, 0, some 0⟩ ∧
    ApartFrom parsedHeap 12 (.append ⟨1, 0, some 0⟩ [⟨6, 0, some 0⟩]) ⟨1, 0, some 0⟩ ⟨3, 0, some 0⟩ ∧
    ApartFrom parsedHeap 12 (.set ⟨3, 0, some 0⟩ b!"q" ⟨6, 0, some 0⟩) ⟨1, 0, some 0⟩ ⟨3, 0, some 0⟩ := by
  refine ⟨by rintro ⟨_, h⟩; simp at h, by unfold Dead; decide +kernel, by unfold Dead; decide +kernel, ?_, ?_⟩ <;>
  · intro p hp
    simp only [Op.inserted, List.map_cons, List.map_nil, List.mem_singleton] at hp
    subst hp
    exact ⟨⟨_, parsed_leaf, by decide⟩, leaf_apart (by decide), leaf_apart (by decide)⟩

/-- C119 needs that the values do not contain the edited nodes: a copy of node 1, which contains node 4, is taken before or after the edit of node 4. -/
theorem C119_sharp : ∃ (op1 op2 : Op) (n1 n2 : Node), op1.mutates n1 ∧ op2.mutates n2 ∧ ¬ SameNode n1 n2 ∧
    (runOps 12 [op1, op2, .json n1 []] parsedHeap).map (·.2) =
      some [.unit, .unit, .json (b!"{\"a\":[1,{\"b\":\"y\"}],\"c\":[1,{\"b\":\"x\"}],\"a\":true}", false)] ∧
    (runOps 12 [op2, op1, .json n1 []] parsedHeap).map (·.2) =
      some [.unit, .unit, .json (b!"{\"a\":[1,{\"b\":\"y\"}],\"c\":[1,{\"b\":\"y\"}],\"a\":true}", false)] :=
  ⟨.set ⟨0, 0, some 0⟩ b!"c" ⟨1, 0, some 0⟩, .setScalar ⟨4, 0, some 0⟩ tString b!"y", ⟨0, 0, some 0⟩, ⟨4, 0, some 0⟩, rfl, rfl,
    by rintro ⟨_, h⟩; simp at h, by decide +kernel, by decide +kernel⟩

end Verif.Props
