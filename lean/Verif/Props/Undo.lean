import Verif.Proofs.Undo
import Verif.Props.Commute
import Verif.Props.Grow
import Verif.Props.Strip

/-! # Property C146: edits of one node overwrite and undo each other -/

namespace Verif.Props
open Verif Verif.Spec Verif.Njson

/-- **C146**: two sequences of edits of node `n`, of any length, that leave `n` with the same tree leave every node with the same tree. -/
theorem C146_ends (h : Heap) (hw : h.Wf) (fuel : Nat) (n : Node) (ops ops' : List Op) (ho : Edits n ops) (ho' : Edits n ops') (h1 h2 : Heap) (rs rs' : List Res)
    (hrun : runOps fuel ops h = some (h1, rs)) (hrun' : runOps fuel ops' h = some (h2, rs')) (s : JVal) (hs1 : Tree h1 n s) (hs2 : Tree h2 n s)
    (m : Node) (t : JVal) (ht : Tree h m t) : ∃ t', Tree h1 m t' ∧ Tree h2 m t' := by
  cases hd : A.document h.abs n with
  | none =>
    exfalso
    -- a node without a document is not edited, and has no tree
    have : ∀ (ops : List Op) (h h1 : Heap) (rs : List Res), h.Wf → Edits n ops → runOps fuel ops h = some (h1, rs) → A.document h.abs n = none →
        A.document h1.abs n = none := by
      intro ops
      induction ops with
      | nil => intro h h1 rs _ _ hr hd; simp only [runOps, Option.some.injEq, Prod.mk.injEq] at hr; rw [← hr.1]; exact hd
      | cons op ops ih =>
        intro h h1 rs hw he hr hd
        simp only [runOps] at hr
        cases hop : op.run fuel h with
        | none => rw [hop] at hr; simp at hr
        | some p =>
          rw [hop] at hr
          simp only at hr
          cases hops : runOps fuel ops p.1 with
          | none => rw [hops] at hr; simp at hr
          | some q =>
            rw [hops] at hr
            simp only [Option.some.injEq, Prod.mk.injEq] at hr
            rw [← hr.1]
            obtain ⟨m1, m2⟩ := he op (by simp)
            refine ih p.1 q.1 q.2 (run_wf hw hop) (fun o ho => he o (by simp [ho])) hops ?_
            rcases mutation_local hw m1 m2 hop with e | ⟨r', e1, _⟩
            · rw [e]; exact hd
            · rw [hd] at e1; simp at e1
    rw [tree_abs] at hs1
    obtain ⟨r, e, _⟩ := hs1
    rw [this ops h h1 rs hw ho hrun hd] at e
    simp at e
  | some r =>
    have l1 := edits_local hw ho hrun hd
    have l2 := edits_local hw ho' hrun' hd
    rw [tree_abs] at hs1 hs2 ht
    obtain ⟨q, e1, e2⟩ := ht
    obtain ⟨r1, a1, a2⟩ := hs1
    obtain ⟨r2, b1, b2⟩ := hs2
    rw [l1.document, hd] at a1
    rw [l2.document, hd] at b1
    simp only [Option.some.injEq] at a1 b1
    subst a1 b1
    by_cases hq : q = r
    · subst hq
      obtain ⟨t', k1, k2⟩ := (reps_both a2 b2).1 t m.id e2 fun j hj hne => ⟨l1.old j (reach_lt e2 hj) hne, l2.old j (reach_lt e2 hj) hne⟩
      exact ⟨t', tree_abs.2 ⟨q, by rw [l1.document, e1], k1⟩, tree_abs.2 ⟨q, by rw [l2.document, e1], k2⟩⟩
    · refine ⟨t, tree_abs.2 ⟨q, by rw [l1.document, e1], ?_⟩, tree_abs.2 ⟨q, by rw [l2.document, e1], ?_⟩⟩
      · unfold A.cont; rw [l1.other q hq]; exact e2
      · unfold A.cont; rw [l2.other q hq]; exact e2

/-- **C146**: edits of `n` after which `n` has its old tree leave every node with its old tree. -/
theorem C146_back (h : Heap) (hw : h.Wf) (fuel : Nat) (n : Node) (ops : List Op) (ho : Edits n ops) (h1 : Heap) (rs : List Res)
    (hrun : runOps fuel ops h = some (h1, rs)) (s : JVal) (hs : Tree h n s) (hs1 : Tree h1 n s) (m : Node) (t : JVal) (ht : Tree h m t) : Tree h1 m t := by
  obtain ⟨t', k1, k2⟩ := C146_ends h hw fuel n ops [] ho (by simp [Edits]) h1 h rs [] hrun rfl s hs1 hs m t ht
  rw [tree_unique ht k2]; exact k1

theorem edits_one {n : Node} {op : Op} (h1 : op.mutates n) (h2 : ∀ k, op ≠ .strip n k) : Edits n [op] := by
  intro o ho; simp at ho; subst ho; exact ⟨h1, h2⟩

theorem edits_two {n : Node} {op op' : Op} (h1 : op.mutates n) (h2 : ∀ k, op ≠ .strip n k) (h3 : op'.mutates n) (h4 : ∀ k, op' ≠ .strip n k) : Edits n [op, op'] := by
  intro o ho; simp at ho; rcases ho with rfl | rfl
  · exact ⟨h1, h2⟩
  · exact ⟨h3, h4⟩

theorem run_two {fuel : Nat} {op op' : Op} {h h1 : Heap} {rs : List Res} (hr : runOps fuel [op, op'] h = some (h1, rs)) :
    ∃ h' res res', op.run fuel h = some (h', res) ∧ op'.run fuel h' = some (h1, res') ∧ runOps fuel [op] h = some (h', [res]) := by
  simp only [runOps] at hr ⊢
  cases ho : op.run fuel h with
  | none => rw [ho] at hr; simp at hr
  | some p =>
    rw [ho] at hr
    simp only at hr ⊢
    cases ho' : op'.run fuel p.1 with
    | none => rw [ho'] at hr; simp at hr
    | some q =>
      rw [ho'] at hr
      simp only [Option.some.injEq, Prod.mk.injEq] at hr
      exact ⟨p.1, p.2, q.2, rfl, by rw [ho', ← hr.1], rfl⟩

theorem op_run_one {fuel : Nat} {op : Op} {h h1 : Heap} {rs : List Res} (hr : runOps fuel [op] h = some (h1, rs)) : ∃ res, op.run fuel h = some (h1, res) := by
  simp only [runOps] at hr
  cases ho : op.run fuel h with
  | none => rw [ho] at hr; simp at hr
  | some p => rw [ho] at hr; simp only [Option.some.injEq, Prod.mk.injEq] at hr; exact ⟨p.2, by rw [← hr.1]⟩

theorem map_unit {x : Option Heap} {h h1 : Heap} {res : Res} (e : x.map (·, Res.unit) = some (h1, res)) (e' : x = some h) : h1 = h := by
  rw [e'] at e; simp at e; exact e.1.symm

/-- the document, and its size before the last of two edits -/
theorem tree_doc {h : Heap} {n : Node} {t : JVal} (ht : Tree h n t) : ∃ r, A.document h.abs n = some r := by
  rw [tree_abs] at ht; obtain ⟨r, e, _⟩ := ht; exact ⟨r, e⟩

theorem len_before {h h1 : Heap} (hw : h.Wf) {fuel : Nat} {n : Node} {op : Op} {res : Res} (hm : op.mutates n) (hs : ∀ k, op ≠ .strip n k)
    (hr : op.run fuel h = some (h1, res)) (hlen : ∀ r, (h1 r).len < maxUint) (r : Ref) : (h r).len < maxUint :=
  Nat.lt_of_le_of_lt (C139_grows fuel r [op] h h1 [res] hw (by simp [runOps, hr]) (edits_resets r (edits_one hm hs))) (hlen r)

/-- **C146, Set then Set**: the second value of a key wins, as if the first one had never been set. -/
theorem C146_set_set (h : Heap) (hw : h.Wf) (fuel : Nat) (n v w : Node) (k : Bytes) (ms : List (Bytes × JVal)) (tv tw : JVal) (hn : Tree h n (.obj ms))
    (hv : Tree h v tv) (hw' : Tree h w tw) (hi : Insertable h n v) (hc : ¬ Contains h w n) (hfv : tv.size ≤ fuel) (hfw : tw.size ≤ fuel)
    (h1 h2 : Heap) (rs rs' : List Res) (hrun : runOps fuel [.set n k v, .set n k w] h = some (h1, rs)) (hrun' : runOps fuel [.set n k w] h = some (h2, rs'))
    (hlen : ∀ r, (h1 r).len < maxUint) (m : Node) (t : JVal) (ht : Tree h m t) : ∃ t', Tree h1 m t' ∧ Tree h2 m t' := by
  obtain ⟨h', res, res', e1, e2, e3⟩ := run_two hrun
  obtain ⟨r, hd⟩ := tree_doc hn
  have hl' := len_before (run_wf hw e1) (n := n) (by simp [Op.mutates]) (by simp) e2 hlen
  have hl := len_before hw (n := n) (by simp [Op.mutates]) (by simp) e1 hl'
  have lo := edits_local hw (edits_one (n := n) (by simp [Op.mutates]) (by simp)) e3 hd
  obtain ⟨x, x1, x2⟩ := C22_set h hw fuel n v ms k tv hn hv hi hl hfv
  have := map_unit e1 x1
  subst this
  obtain ⟨y1, y2⟩ := local_value lo hd hw' hc
  obtain ⟨z, z1, z2⟩ := C22_set h' (run_wf hw e1) fuel n w _ k tw x2 y1 (fun hh => y2 hh.2) hl' hfw
  have := map_unit e2 z1
  subst this
  obtain ⟨u, u1, u2⟩ := C22_set h hw fuel n w ms k tw hn hw' (fun hh => hc hh.2) hl hfw
  obtain ⟨_, f1⟩ := op_run_one hrun'
  have := map_unit f1 u1
  subst this
  rw [assocSet_twice] at z2
  exact C146_ends h hw fuel n _ _ (edits_two (by simp [Op.mutates]) (by simp) (by simp [Op.mutates]) (by simp)) (edits_one (by simp [Op.mutates]) (by simp)) _ _ rs rs' hrun hrun' _ z2 u2 m t ht

/-- **C146, Set then Del**: a member that was added is deleted without a trace; the other members keep their order. -/
theorem C146_set_del (h : Heap) (hw : h.Wf) (fuel : Nat) (n v : Node) (k : Bytes) (ms : List (Bytes × JVal)) (tv : JVal) (hn : Tree h n (.obj ms))
    (hk : assocGet ms k = none) (hv : Tree h v tv) (hi : Insertable h n v) (hfv : tv.size ≤ fuel) (h1 : Heap) (rs : List Res)
    (hrun : runOps fuel [.set n k v, .del n k] h = some (h1, rs)) (hlen : ∀ r, (h1 r).len < maxUint) (m : Node) (t : JVal) (ht : Tree h m t) : Tree h1 m t := by
  obtain ⟨h', res, res', e1, e2, e3⟩ := run_two hrun
  have hl' := len_before (run_wf hw e1) (n := n) (by simp [Op.mutates]) (by simp) e2 hlen
  have hl := len_before hw (n := n) (by simp [Op.mutates]) (by simp) e1 hl'
  obtain ⟨x, x1, x2⟩ := C22_set h hw fuel n v ms k tv hn hv hi hl hfv
  have := map_unit e1 x1
  subst this
  obtain ⟨a1, a2⟩ := assocSet_absent (t := tv) hk
  rw [a1] at x2
  have d := del_swap h' (run_wf hw e1) n _ k x2 _ a2
  rw [swapRm_last] at d
  have : n.del h' k = h1 := by simp only [Op.run, Option.some.injEq, Prod.mk.injEq] at e2; exact e2.1
  rw [this] at d
  exact C146_back h hw fuel n _ (edits_two (by simp [Op.mutates]) (by simp) (by simp [Op.mutates]) (by simp)) h1 rs hrun _ hn d m t ht

/-- **C146, Set of the own value**: `n.Set(k, n.Get(k))` changes no tree if there is a member with the key. -/
theorem C146_set_own (h : Heap) (hw : h.Wf) (fuel : Nat) (n : Node) (k : Bytes) (ms : List (Bytes × JVal)) (x : JVal) (hn : Tree h n (.obj ms))
    (hk : assocGet ms k = some x) (hf : x.size ≤ fuel) (hlen : ∀ r, (h r).len < maxUint) (h1 : Heap) (rs : List Res)
    (hrun : runOps fuel [.set n k (n.getKey h k)] h = some (h1, rs)) (m : Node) (t : JVal) (ht : Tree h m t) : Tree h1 m t := by
  obtain ⟨_, e1⟩ := op_run_one hrun
  have hg := C19_get h n ms k hn fun r => Nat.le_of_lt (hlen r)
  rw [hk] at hg
  obtain ⟨a1, a2⟩ := assocSet_own hk
  have hc := child_not_contains hn hg (by simp only [JVal.size]; omega)
  obtain ⟨y, y1, y2⟩ := C22_set h hw fuel n _ ms k x hn hg (fun hh => hc hh.2) hlen hf
  have := map_unit e1 y1
  subst this
  rw [a1] at y2
  exact C146_back h hw fuel n _ (edits_one (by simp [Op.mutates]) (by simp)) h1 rs hrun _ hn y2 m t ht

/-- **C146, Append then Remove**: elements that were appended are removed without a trace, here the last one. -/
theorem C146_append_remove (h : Heap) (hw : h.Wf) (fuel : Nat) (n v : Node) (xs : List JVal) (tv : JVal) (hn : Tree h n (.arr xs))
    (hv : Tree h v tv) (hi : Insertable h n v) (hfv : tv.size ≤ fuel) (h1 : Heap) (rs : List Res)
    (hrun : runOps fuel [.append n [v], .remove n xs.length] h = some (h1, rs)) (m : Node) (t : JVal) (ht : Tree h m t) : Tree h1 m t := by
  obtain ⟨h', res, res', e1, e2, e3⟩ := run_two hrun
  obtain ⟨x, x1, x2⟩ := C24_append h hw fuel n [v] xs [tv] hn rfl (by
    intro i v' t' g1 g2
    cases i with
    | zero => simp at g1 g2; subst g1 g2; exact ⟨hv, hi, hfv⟩
    | succ i => simp at g1)
  have := map_unit e1 x1
  subst this
  have d := (C25_remove h' (run_wf hw e1) n _ x2).1 xs.length (by simp)
  rw [List.eraseIdx_append_of_length_le (Nat.le_refl _)] at d
  simp at d
  have : n.remove h' xs.length = h1 := by simp only [Op.run, Option.some.injEq, Prod.mk.injEq] at e2; exact e2.1
  rw [this] at d
  exact C146_back h hw fuel n _ (edits_two (by simp [Op.mutates]) (by simp) (by simp [Op.mutates]) (by simp)) h1 rs hrun _ hn d m t ht

/-- **C146, Replace then Replace**: the second value of an element wins. -/
theorem C146_replace_replace (h : Heap) (hw : h.Wf) (fuel : Nat) (n v w : Node) (i : Nat) (xs : List JVal) (tv tw : JVal) (hn : Tree h n (.arr xs))
    (hix : i < xs.length) (hv : Tree h v tv) (hw' : Tree h w tw) (hi : Insertable h n v) (hc : ¬ Contains h w n) (hfv : tv.size ≤ fuel) (hfw : tw.size ≤ fuel)
    (h1 h2 : Heap) (rs rs' : List Res) (hrun : runOps fuel [.replace n i v, .replace n i w] h = some (h1, rs))
    (hrun' : runOps fuel [.replace n i w] h = some (h2, rs')) (hlen : ∀ r, (h1 r).len < maxUint) (m : Node) (t : JVal) (ht : Tree h m t) :
    ∃ t', Tree h1 m t' ∧ Tree h2 m t' := by
  obtain ⟨h', res, res', e1, e2, e3⟩ := run_two hrun
  obtain ⟨r, hd⟩ := tree_doc hn
  have hl' := len_before (run_wf hw e1) (n := n) (by simp [Op.mutates]) (by simp) e2 hlen
  have hl := len_before hw (n := n) (by simp [Op.mutates]) (by simp) e1 hl'
  have lo := edits_local hw (edits_one (n := n) (by simp [Op.mutates]) (by simp)) e3 hd
  obtain ⟨x, x1, x2⟩ := C25_replace h hw fuel n v xs i tv hn hix hv hi hl hfv
  have := map_unit e1 x1
  subst this
  obtain ⟨y1, y2⟩ := local_value lo hd hw' hc
  obtain ⟨z, z1, z2⟩ := C25_replace h' (run_wf hw e1) fuel n w _ i tw x2 (by simpa using hix) y1 (fun hh => y2 hh.2) hl' hfw
  have := map_unit e2 z1
  subst this
  obtain ⟨u, u1, u2⟩ := C25_replace h hw fuel n w xs i tw hn hix hw' (fun hh => hc hh.2) hl hfw
  obtain ⟨_, f1⟩ := op_run_one hrun'
  have := map_unit f1 u1
  subst this
  rw [List.set_set] at z2
  exact C146_ends h hw fuel n _ _ (edits_two (by simp [Op.mutates]) (by simp) (by simp [Op.mutates]) (by simp)) (edits_one (by simp [Op.mutates]) (by simp)) _ _ rs rs' hrun hrun' _ z2 u2 m t ht

/-- **C146, Replace by the own value**: `n.Replace(i, n.Index(i))` changes no tree. -/
theorem C146_replace_own (h : Heap) (hw : h.Wf) (fuel : Nat) (n : Node) (i : Nat) (xs : List JVal) (x : JVal) (hn : Tree h n (.arr xs))
    (hk : xs[i]? = some x) (hf : x.size ≤ fuel) (hlen : ∀ r, (h r).len < maxUint) (h1 : Heap) (rs : List Res)
    (hrun : runOps fuel [.replace n i (n.index h i)] h = some (h1, rs)) (m : Node) (t : JVal) (ht : Tree h m t) : Tree h1 m t := by
  obtain ⟨_, e1⟩ := op_run_one hrun
  have hg := (C19_index h n xs i hn fun r => Nat.le_of_lt (hlen r)).1 i x rfl hk
  have hsz := size_elem hk
  have hix := (List.getElem?_eq_some_iff.1 hk).1
  have hc := child_not_contains hn hg (by simp only [JVal.size]; omega)
  obtain ⟨y, y1, y2⟩ := C25_replace h hw fuel n _ xs i x hn hix hg (fun hh => hc hh.2) hlen hf
  have := map_unit e1 y1
  subst this
  have hset : xs.set i x = xs := by
    rw [(List.getElem?_eq_some_iff.1 hk).2.symm]; exact List.set_getElem_self hix
  rw [hset] at y2
  exact C146_back h hw fuel n _ (edits_one (by simp [Op.mutates]) (by simp)) h1 rs hrun _ hn y2 m t ht

/-- **C146, setters**: after a setter nothing is left of the edits before it, of any number and with any values, even ones that close a loop. -/
theorem C146_setter (h : Heap) (hw : h.Wf) (fuel : Nat) (n : Node) (ops : List Op) (typ : Typ) (raw : Bytes) (ho : Edits n ops)
    (hz : SetsScalar (.setScalar n typ raw)) (hl : ¬ Dead h n) (h1 h2 : Heap) (rs rs' : List Res)
    (hrun : runOps fuel (ops ++ [.setScalar n typ raw]) h = some (h1, rs)) (hrun' : runOps fuel [.setScalar n typ raw] h = some (h2, rs'))
    (m : Node) (t : JVal) (ht : Tree h m t) : ∃ t', Tree h1 m t' ∧ Tree h2 m t' := by
  obtain ⟨d, hg⟩ : ∃ d, n.get h = some d := by
    cases e : n.get h with
    | none => exact absurd e hl
    | some d => exact ⟨d, rfl⟩
  obtain ⟨r, c, hd, _⟩ := live_cont hl
  have split : ∀ (ops : List Op) (h h1 : Heap) (rs : List Res), runOps fuel (ops ++ [.setScalar n typ raw]) h = some (h1, rs) →
      ∃ h' rs', runOps fuel ops h = some (h', rs') ∧ n.setScalar h' typ raw = h1 := by
    intro ops
    induction ops with
    | nil => intro h h1 rs hr; simp [runOps, Op.run] at hr; exact ⟨h, [], rfl, hr.1⟩
    | cons op ops ih =>
      intro h h1 rs hr
      simp only [List.cons_append, runOps] at hr ⊢
      cases hop : op.run fuel h with
      | none => rw [hop] at hr; simp at hr
      | some p =>
        rw [hop] at hr
        simp only at hr ⊢
        cases hops : runOps fuel (ops ++ [.setScalar n typ raw]) p.1 with
        | none => rw [hops] at hr; simp at hr
        | some q =>
          rw [hops] at hr
          simp only [Option.some.injEq, Prod.mk.injEq] at hr
          obtain ⟨h', rs', k1, k2⟩ := ih p.1 q.1 q.2 hops
          exact ⟨h', p.2 :: rs', by rw [k1], by rw [k2, hr.1]⟩
  obtain ⟨h', rs1, k1, k2⟩ := split ops h h1 rs hrun
  have lo := edits_local hw ho k1 hd
  obtain ⟨d', hg'⟩ := local_live lo hd hg
  have e2 : n.setScalar h typ raw = h2 := by simp [runOps, Op.run] at hrun'; exact hrun'.1
  have tree : ∀ (h : Heap) (d : NodeD), n.get h = some d → Tree (n.setScalar h typ raw) n
      (if typ = tNull then .null else if typ = tBoolean then .bool (raw = b!"true") else if typ = tNumber then .num raw else .str raw) := by
    intro h d hg
    obtain ⟨_, r, a2, a3⟩ := setScalar_get hg typ raw
    refine ⟨r, a2, ?_⟩
    rcases hz n typ raw rfl with ⟨rfl, rfl⟩ | ⟨rfl, rfl | rfl⟩ | rfl | rfl
    · rw [if_pos rfl]; exact a3
    · rw [if_neg (by decide), if_pos rfl]; exact a3
    · rw [if_neg (by decide), if_pos rfl]; exact a3
    · rw [if_neg (by decide), if_neg (by decide), if_pos rfl]; exact a3
    · rw [if_neg (by decide), if_neg (by decide), if_neg (by decide)]; exact a3
  have t1 := tree h' d' hg'
  rw [k2] at t1
  have t2 := tree h d hg
  rw [e2] at t2
  refine C146_ends h hw fuel n _ _ ?_ (edits_one (by simp [Op.mutates]) (by simp)) h1 h2 rs rs' hrun hrun' _ t1 t2 m t ht
  intro o hm
  simp at hm
  rcases hm with hm | rfl
  · exact ho o hm
  · exact ⟨rfl, by simp⟩

-- an inner object that gets a member and loses it: the whole document is as it was
example : (runOps 12 [.set ⟨3, 0, some 0⟩ b!"z" ⟨5, 0, some 0⟩, .del ⟨3, 0, some 0⟩ b!"z", .json ⟨0, 0, some 0⟩ []] parsedHeap).map (·.2) =
    some [.unit, .unit, .json (b!"{\"a\":[1,{\"b\":\"x\"}],\"c\":null,\"a\":true}", false)] := by decide +kernel
-- a setter after an edit
example : (runOps 12 [.set ⟨3, 0, some 0⟩ b!"z" ⟨5, 0, some 0⟩, .setScalar ⟨3, 0, some 0⟩ tNumber b!"7", .json ⟨0, 0, some 0⟩ []] parsedHeap).map (·.2) =
    some [.unit, .unit, .json (b!"{\"a\":[1,7],\"c\":null,\"a\":true}", false)] := by decide +kernel
-- the hypotheses of `C146_set_del` hold there
example : assocGet [(b!"b", JVal.str b!"x")] b!"z" = none ∧ Insertable parsedHeap ⟨3, 0, some 0⟩ ⟨0, 0, some 0⟩ :=
  ⟨by decide +kernel, by rintro ⟨⟨r, d, _, _, _, h, _⟩, _⟩; exact h rfl⟩

/-- **C146, the limits**: `Del` does not undo a `Set` that overwrites, and a value that contains the object is not the same value after the first of two calls. -/
theorem C146_sharp :
    (runOps 12 [.set ⟨3, 0, some 0⟩ b!"b" ⟨5, 0, some 0⟩, .del ⟨3, 0, some 0⟩ b!"b", .json ⟨3, 0, some 0⟩ []] parsedHeap).map (·.2) = some [.unit, .unit, .json (b!"{}", false)] ∧
    (runOps 12 [.set ⟨3, 0, some 0⟩ b!"b" ⟨5, 0, some 0⟩, .set ⟨3, 0, some 0⟩ b!"b" ⟨0, 0, some 0⟩, .json ⟨3, 0, some 0⟩ []] parsedHeap).map (·.2) =
      some [.unit, .unit, .json (b!"{\"b\":{\"a\":[1,{\"b\":null}],\"c\":null,\"a\":true}}", false)] ∧
    (runOps 12 [.set ⟨3, 0, some 0⟩ b!"b" ⟨0, 0, some 0⟩, .json ⟨3, 0, some 0⟩ []] parsedHeap).map (·.2) =
      some [.unit, .json (b!"{\"b\":{\"a\":[1,{\"b\":\"x\"}],\"c\":null,\"a\":true}}", false)] := by decide +kernel

end Verif.Props
