import Verif.Proofs.Grow
import Verif.Props.History

/-!
# Property C139: a document grows by exactly the nodes that it is given

Parse adds the nodes of the value, a constructor one node, an insertion the nodes of the value if it copies the value and none if it
links it; every other call adds none, and none but Reset removes a node. So the nodes of values that are replaced or deleted stay.
-/

namespace Verif.Props
open Verif Verif.Spec Verif.Njson

theorem len_abs {h : Heap} (hw : h.Wf) (r : Ref) : (h.abs r).nodes.length = (h r).len := view_length (hw r)

theorem run_wf {h h' : Heap} (hw : h.Wf) {fuel : Nat} {op : Op} {res : Res} (he : op.run fuel h = some (h', res)) : h'.Wf :=
  runOps_wf (fuel := fuel) (ops := [op]) (rs := [res]) hw (by simp [runOps, he])

/-- **C139, Parse**: a text that is accepted adds as many nodes as its value has, a text that is rejected none. -/
theorem C139_parse (d : Doc) (hw : d.Wf) (s : Bytes) :
    (∀ id rest, (d.parse s).2 = .ok id rest → ∃ t : JVal, Reps (d.parse s).1.cont t id ∧ (d.parse s).1.len = d.len + t.size) ∧
    ((∀ id rest, (d.parse s).2 ≠ .ok id rest) → (d.parse s).1.len = d.len) := by
  refine ⟨fun id rest hok => ?_, (C17_parse_frame d hw s).2.1⟩
  rcases parse_cases hw s with ⟨t, _, _, d1, e1, e2, e3, e4, e5⟩ | ⟨_, d1, e1, e2, e3, e4, e5, e6⟩ | ⟨_, _, _, _, d1, e1, e2, e3, e4, e5, e6⟩
  · rw [e2] at hok ⊢
    simp at hok
    refine ⟨t, ?_, ?_⟩
    · have hc : d1.cont = lcont (d.view ++ rootHead (flat d.len t)) := by
        funext j; rw [cont_eq_view, e5]; rfl
      rw [hc, ← hok.1, ← view_length hw]
      apply flat_reps_append
      cases flat d.view.length t <;> simp [rootHead, ANode.cont]
    · have := congrArg List.length e5
      rw [view_length e3, List.length_append, view_length hw] at this
      rw [this]
      congr 1
      rw [← flat_length t d.len]
      cases flat d.len t <;> simp [rootHead]
  · rw [e2] at hok; simp at hok
  · rw [e2] at hok; simp at hok

/-- **C139, Set**: none for an orphan of the same document, else as many as the value has. -/
theorem C139_set (h : Heap) (hw : h.Wf) (fuel : Nat) (n v : Node) (k : Bytes) (t : JVal) (r : Ref) (hn : ¬ Dead h n) (ht : n.typ h = tObject)
    (hd : n.document h = some r) (hv : Tree h v t) (hf : t.size ≤ fuel) (h' : Heap) (hs : n.set h fuel k v = some h') :
    (Adopted h n v → (h' r).len = (h r).len) ∧ (¬ Adopted h n v → (h' r).len = (h r).len + t.size) := by
  obtain ⟨r1, x, hd', hx, hdoc, hg, htyp, hvals⟩ := live_acont hn
  rw [← abs_document, hd] at hd'
  simp only [Option.some.injEq] at hd'
  subst hd'
  obtain ⟨r', hdv, hr⟩ := hv
  obtain ⟨hcom, hw'⟩ := abs_nset hw fuel n k v
  rw [hs] at hcom
  simp only [Option.map_some] at hcom
  have hcom := hcom.symm
  unfold A.nset at hcom
  rw [hg, hdoc] at hcom
  simp only at hcom
  rw [if_pos (by rw [← htyp, ht]), ← abs_document, hdv] at hcom
  split at hcom
  · simp at hcom
  · rename_i a1 id1 hc
    rw [abs_cont] at hr
    have hl := copyOrAdopt_len hr hf hc
    rw [adopted_abs hd hdv, ← len_abs (hw' h' hs), ← len_abs hw]
    have : (h'.abs r).nodes.length = (a1 r).nodes.length := by
      split at hcom
      · simp only [Option.some.injEq] at hcom
        rw [← hcom, modify_len]
      · simp only [Option.some.injEq] at hcom
        rw [← hcom]
    rw [this]
    exact hl

/-- **C139, Replace**, of an element that exists. -/
theorem C139_replace (h : Heap) (hw : h.Wf) (fuel : Nat) (n v : Node) (i : Nat) (t : JVal) (r : Ref) (hn : ¬ Dead h n) (ht : n.typ h = tArray)
    (hi : i < (n.values h).length) (hd : n.document h = some r) (hv : Tree h v t) (hf : t.size ≤ fuel) (h' : Heap) (hs : n.replace h fuel i v = some h') :
    (Adopted h n v → (h' r).len = (h r).len) ∧ (¬ Adopted h n v → (h' r).len = (h r).len + t.size) := by
  obtain ⟨r1, x, hd', hx, hdoc, hg, htyp, hvals⟩ := live_acont hn
  rw [← abs_document, hd] at hd'
  simp only [Option.some.injEq] at hd'
  subst hd'
  obtain ⟨r', hdv, hr⟩ := hv
  obtain ⟨hcom, hw'⟩ := abs_replace hw fuel n i v
  rw [hs] at hcom
  simp only [Option.map_some] at hcom
  have hcom := hcom.symm
  unfold A.replace at hcom
  rw [hg, hdoc] at hcom
  simp only at hcom
  rw [if_pos (by rw [← htyp, ht, ← hvals]; exact ⟨rfl, by omega, by omega⟩), ← abs_document, hdv] at hcom
  split at hcom
  · simp at hcom
  · rename_i a1 id1 hc
    rw [abs_cont] at hr
    have hl := copyOrAdopt_len hr hf hc
    rw [adopted_abs hd hdv, ← len_abs (hw' h' hs), ← len_abs hw]
    have : (h'.abs r).nodes.length = (a1 r).nodes.length := by
      split at hcom
      · simp only [Option.some.injEq] at hcom
        rw [← hcom, modify_len]
      · simp only [Option.some.injEq] at hcom
        rw [← hcom]
    rw [this]
    exact hl

/-- **C139, Append**: none for the first occurrence of an orphan of the same document, as many as the value has for every other value. -/
theorem C139_append (h : Heap) (hw : h.Wf) (fuel : Nat) (n : Node) (vs : List Node) (ts : List JVal) (cs : List Nat) (r : Ref) (hn : ¬ Dead h n)
    (ht : n.typ h = tArray) (hd : n.document h = some r) (hl : ts.length = vs.length) (hl' : cs.length = vs.length)
    (hv : ∀ (i : Nat) (v : Node) (t : JVal), vs[i]? = some v → ts[i]? = some t → Tree h v t ∧ t.size ≤ fuel)
    (hc : ∀ (i : Nat) (v : Node) (t : JVal) (c : Nat), vs[i]? = some v → ts[i]? = some t → cs[i]? = some c →
      (Adopted h n v ∧ (∀ j, j < i → vs[j]? ≠ some v) → c = 0) ∧ (¬ (Adopted h n v ∧ (∀ j, j < i → vs[j]? ≠ some v)) → c = t.size))
    (h' : Heap) (hs : n.append h fuel vs = some h') : (h' r).len = (h r).len + cs.sum := by
  obtain ⟨r1, x, hd', hx, hdoc, hg, htyp, hvals⟩ := live_acont hn
  rw [← abs_document, hd] at hd'
  simp only [Option.some.injEq] at hd'
  subst hd'
  obtain ⟨hcom, hw'⟩ := abs_append hw fuel n vs
  rw [hs] at hcom
  simp only [Option.map_some] at hcom
  have hcom := hcom.symm
  rw [← len_abs (hw' h' hs), ← len_abs hw]
  unfold A.append at hcom
  split at hcom
  · rename_i h0
    simp only [Option.some.injEq] at hcom
    have : cs = [] := List.length_eq_zero_iff.1 (by omega)
    rw [← hcom, this]; simp
  · rw [hg, hdoc] at hcom
    simp only at hcom
    rw [if_pos (by rw [← htyp, ht])] at hcom
    split at hcom
    · simp at hcom
    · rename_i a1 vv hloop
      simp only [Option.some.injEq] at hcom
      rw [← hcom, modify_len]
      refine appendLoop_len vs ts cs _ _ _ _ hloop hl hl' ?_ ?_
      · intro i v t hvi hti
        obtain ⟨⟨q, e1, e2⟩, e3⟩ := hv i v t hvi hti
        exact ⟨e3, q, e1, by rw [← abs_cont]; exact e2⟩
      · intro i v t c q hvi hti hci hdv
        rw [← adopted_abs hd hdv]
        exact hc i v t c hvi hti hci

/-- **C139, the other calls**: a call that is no Parse, Reset, constructor, Set, Append or Replace adds and removes no node. -/
theorem C139_others (h : Heap) (hw : h.Wf) (fuel : Nat) (op : Op) (h' : Heap) (res : Res) (hrun : op.run fuel h = some (h', res))
    (h1 : ∀ r s, op ≠ .parse r s) (h2 : ∀ r, op ≠ .reset r) (h3 : ∀ r t b, op ≠ .add r t b) (h4 : op.inserted = []) (r : Ref) :
    (h' r).len = (h r).len := by
  have ha := abs_run hw hrun
  rw [← len_abs (run_wf hw hrun), ← len_abs hw]
  cases op <;> simp only [A.run] at ha <;> simp only [Op.inserted] at h4
  case parse r s => exact absurd rfl (h1 r s)
  case reset r => exact absurd rfl (h2 r)
  case add r t b => exact absurd rfl (h3 r t b)
  case set => simp at h4
  case replace => simp at h4
  case append n vs =>
    simp at h4
    subst h4
    simp [A.append] at ha
    rw [ha]
  case strip n k => exact nstrip_len ha r
  all_goals
    simp only [Option.some.injEq] at ha
    rw [← ha]
    try exact update_len _ _ _ r

/-- **C139, constructors and Reset**. -/
theorem C139_new (d : Doc) (hw : d.Wf) (typ : Typ) (raw : Bytes) : (d.add typ raw).1.len = d.len + 1 ∧ d.reset.len = 0 := by
  refine ⟨?_, rfl⟩
  obtain ⟨h1, h2⟩ := abs_add hw typ raw
  rw [← view_length h1, ← view_length hw]
  have := congrArg (fun p => p.1.nodes.length) h2
  simpa [A.add, Doc.abs] using this

theorem local_len {a a' : AH} {n : Node} (h : a' = a ∨ ∃ r, A.document a n = some r ∧ Local a a' r n.id) (q : Ref) :
    (a q).nodes.length ≤ (a' q).nodes.length := by
  rcases h with rfl | ⟨r, _, hl⟩
  · exact Nat.le_refl _
  · by_cases hq : q = r
    · subst hq; exact hl.len
    · exact Nat.le_of_eq (by rw [hl.other q hq])

/-- **C139, histories**: a document loses no node before it is reset. -/
theorem C139_grows (fuel : Nat) (r : Ref) : ∀ (ops : List Op) (h h' : Heap) (rs : List Res), h.Wf → runOps fuel ops h = some (h', rs) → resets r ops = 0 →
    (h r).len ≤ (h' r).len := by
  have one : ∀ (op : Op) (h h' : Heap) (res : Res), h.Wf → op.run fuel h = some (h', res) → op ≠ .reset r → (h r).len ≤ (h' r).len := by
    intro op h h' res hw hrun hne
    by_cases hm : op.inserted = [] ∧ (∀ r s, op ≠ .parse r s) ∧ (∀ r, op ≠ .reset r) ∧ (∀ r t b, op ≠ .add r t b)
    · exact Nat.le_of_eq (C139_others h hw fuel op h' res hrun hm.2.1 hm.2.2.1 hm.2.2.2 hm.1 r).symm
    · have ha := abs_run hw hrun
      rw [← len_abs (run_wf hw hrun), ← len_abs hw]
      cases op <;> simp only [A.run] at ha <;> simp [Op.inserted] at hm
      case parse q s =>
        simp only [Option.some.injEq] at ha
        rw [← ha]
        unfold AH.set
        split
        · rename_i he; subst he
          unfold A.parse
          split <;> simp
        · exact Nat.le_refl _
      case reset q =>
        simp only [Option.some.injEq] at ha
        rw [← ha]
        unfold AH.set
        rw [if_neg (by rintro rfl; exact hne rfl)]
        exact Nat.le_refl _
      case add q t b =>
        simp only [Option.some.injEq] at ha
        rw [← ha]
        unfold AH.set
        split
        · rename_i he; subst he; simp [A.add]
        · exact Nat.le_refl _
      case set n k v => exact local_len (local_nset ha) r
      case append n vs => exact local_len (local_append ha) r
      case replace n i v => exact local_len (local_replace ha) r
  intro ops
  induction ops with
  | nil => intro h h' rs _ he _; simp [runOps] at he; rw [he.1]; exact Nat.le_refl _
  | cons op ops ih =>
    intro h h' rs hw he hr
    unfold runOps at he
    split at he
    · simp at he
    · rename_i h1 res1 e1
      split at he
      · simp at he
      · rename_i h2 rs2 e2
        simp at he
        obtain ⟨rfl, rfl⟩ := he
        have hr' : resets r ops = 0 ∧ op ≠ .reset r := by
          cases op <;> simp [resets] at hr ⊢ <;> first | exact hr | exact ⟨hr.2, hr.1⟩
        exact Nat.le_trans (one op h h1 res1 hw e1 hr'.2) (ih h1 h2 rs2 (run_wf hw e1) e2 hr'.1)

/-- **C139, Replace again and again**: `m` times `n.Replace(i, v)` with the same value of another document leave the array with as many elements as before and
the document with `m` copies of the value. -/
theorem C139_replaced (fuel : Nat) (n v : Node) (i : Nat) (t : JVal) (r : Ref) (hf : t.size ≤ fuel) (hne : v.doc ≠ n.doc) : ∀ (m : Nat) (h : Heap) (xs : List JVal),
    h.Wf → Tree h n (.arr xs) → Tree h v t → n.document h = some r → i < xs.length → (∀ q, (h q).len + m * t.size < maxUint) →
    ∃ h' rs, runOps fuel (List.replicate m (.replace n i v)) h = some (h', rs) ∧ (h' r).len = (h r).len + m * t.size ∧
      Tree h' n (.arr (if m = 0 then xs else xs.set i t)) := by
  intro m
  induction m with
  | zero => intro h xs hw hn hv hd hi _; exact ⟨h, [], rfl, by simp, by simpa using hn⟩
  | succ m ih =>
    intro h xs hw hn hv hd hi hlen
    have hlen0 : ∀ q, (h q).len < maxUint := fun q => by have := hlen q; omega
    obtain ⟨h1, e1, e2⟩ := C27_replace_copies h hw fuel n v xs i t hn hi hv hne hlen0 hf
    have e3 := e2 0 [] h1 [] rfl
    have hn1 := e3.1 (by simp)
    have hv1 := e3.2 (by simp)
    have hrun : (Op.replace n i v).run fuel h = some (h1, .unit) := by simp [Op.run, e1]
    have hw1 := run_wf hw hrun
    obtain ⟨q, d, k1, k2, k3, k4, vs, k5, _⟩ := tree_cont hn
    rw [hd] at k1
    simp only [Option.some.injEq] at k1
    subst k1
    have hdead : ¬ Dead h n := by unfold Dead; rw [k3]; simp
    have htyp : n.typ h = tArray := by unfold Node.typ; rw [k3]; exact (cont_get k5 k4).1
    have had : ¬ Adopted h n v := by
      rintro ⟨q, _, g1, g2, _⟩
      exact hne (by rw [document_heap g1, document_heap g2])
    have hgrow := (C139_replace h hw fuel n v i t r hdead htyp (by rw [(C19_values_array h n xs hn).1]; exact hi) hd hv hf h1 e1).2 had
    have hother : ∀ q, q ≠ r → h1 q = h q := fun q hq =>
      (C27_documents_independent h fuel [.replace n i v] h1 [.unit] (by simp [runOps, hrun]) q (by
        intro op hop
        simp at hop; subst hop
        simp only [Op.target, k2, ne_eq, Option.some.injEq]
        exact fun e => hq e.symm)).1
    have hd1 : n.document h1 = some r := by
      obtain ⟨q, g1, _⟩ := hn1
      have := document_heap g1
      rw [k2] at this
      simp only [Option.some.injEq] at this
      rw [g1, this]
    have hmul : (m + 1) * t.size = t.size + m * t.size := by rw [Nat.add_mul]; omega
    obtain ⟨h2, rs, f1, f2, f3⟩ := ih h1 (xs.set i t) hw1 hn1 hv1 hd1 (by simpa using hi) (by
      intro q
      have := hlen q
      by_cases hq : q = r
      · subst hq; omega
      · rw [hother q hq]; omega)
    refine ⟨h2, .unit :: rs, ?_, by omega, ?_⟩
    · rw [List.replicate_succ]
      simp [runOps, hrun, f1]
    · simp only [Nat.succ_ne_zero, if_false]
      split at f3
      · exact f3
      · simpa using f3

/-! ## examples -/

/-- a copy from document 1, an orphan, the same orphan again: 2 + 0 + 1 nodes -/
example : (runOps 9 [.parse 0 b!"[]", .add 0 tNumber b!"1", .parse 1 b!"[2]",
      .append ⟨0, 0, some 0⟩ [⟨0, 0, some 1⟩, ⟨1, 0, some 0⟩, ⟨1, 0, some 0⟩], .json ⟨0, 0, some 0⟩ []] newHeap).map
    (fun p => ((p.1 0).len, p.2.getLast?)) = some (5, some (.json (b!"[[2],1,1]", false))) := by decide +kernel

/-- nodes that are removed stay -/
example : (runOps 9 [.parse 0 b!"[1,[2,3]]", .remove ⟨0, 0, some 0⟩ 1, .json ⟨0, 0, some 0⟩ []] newHeap).map
    (fun p => ((p.1 0).len, p.2.getLast?)) = some (5, some (.json (b!"[1]", false))) := by decide +kernel

example : (runOps 9 (.parse 0 b!"[1]" :: .parse 1 b!"[2,3]" :: List.replicate 4 (.replace ⟨0, 0, some 0⟩ 0 ⟨0, 0, some 1⟩)) newHeap).map
    (fun p => (p.1 0).len) = some 14 := by decide +kernel

end Verif.Props
