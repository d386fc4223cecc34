import Verif.Proofs.Commute
import Verif.Props.Place
import Verif.Spec.Undo

/-! # Several edits of one node -/

namespace Verif.Njson
open Verif Verif.Spec Verif.Props

/-- two documents that differ from a third one in node `b` only, which has the same tree in both: the trees of the third document have become the same -/
theorem reps_both {g0 g g' : Nat → Option Cont} {b : Nat} {s : JVal} (hs : Reps g s b) (hs' : Reps g' s b) :
    (∀ t : JVal, ∀ a, Reps g0 t a → (∀ j, Reach g0 a j → j ≠ b → g j = g0 j ∧ g' j = g0 j) → ∃ t', Reps g t' a ∧ Reps g' t' a) ∧
    (∀ xs : List JVal, ∀ vs, RepsElems g0 xs vs → (∀ v ∈ vs, ∀ j, Reach g0 v.id j → j ≠ b → g j = g0 j ∧ g' j = g0 j) →
      ∃ xs', RepsElems g xs' vs ∧ RepsElems g' xs' vs) ∧
    (∀ ms : List (Bytes × JVal), ∀ vs, RepsMembers g0 ms vs → (∀ v ∈ vs, ∀ j, Reach g0 v.id j → j ≠ b → g j = g0 j ∧ g' j = g0 j) →
      ∃ ms', RepsMembers g ms' vs ∧ RepsMembers g' ms' vs) := by
  have at_b : ∀ {a : Nat}, (a ≠ b → ∃ t', Reps g t' a ∧ Reps g' t' a) → ∃ t', Reps g t' a ∧ Reps g' t' a := by
    intro a h
    by_cases e : a = b
    · subst e; exact ⟨s, hs, hs'⟩
    · exact h e
  have here : ∀ {a : Nat} {c : Cont}, g0 a = some c → (∀ j, Reach g0 a j → j ≠ b → g j = g0 j ∧ g' j = g0 j) → a ≠ b → g a = some c ∧ g' a = some c := by
    intro a c h1 h2 h3
    obtain ⟨k1, k2⟩ := h2 a (.refl a) h3
    rw [k1, k2]; exact ⟨h1, h1⟩
  apply jval_ind
  · intro a h hr
    refine at_b fun e => ⟨.null, ?_⟩
    simp only [Reps] at h ⊢; exact here h hr e
  · intro x a h hr
    refine at_b fun e => ⟨.bool x, ?_⟩
    cases x <;> (simp only [Reps] at h ⊢; exact here h hr e)
  · intro x a h hr
    refine at_b fun e => ⟨.num x, ?_⟩
    simp only [Reps] at h ⊢; exact here h hr e
  · intro x a h hr
    refine at_b fun e => ⟨.str x, ?_⟩
    simp only [Reps] at h ⊢; exact here h hr e
  · intro xs ih a h hr
    refine at_b fun e => ?_
    simp only [Reps] at h
    obtain ⟨vs, h1, h2⟩ := h
    obtain ⟨xs', k1, k2⟩ := ih vs h2 fun v hv j hj => hr j (.step h1 hv hj)
    obtain ⟨e1, e2⟩ := here h1 hr e
    exact ⟨.arr xs', by simp only [Reps]; exact ⟨vs, e1, k1⟩, by simp only [Reps]; exact ⟨vs, e2, k2⟩⟩
  · intro ms ih a h hr
    refine at_b fun e => ?_
    simp only [Reps] at h
    obtain ⟨vs, h1, h2⟩ := h
    obtain ⟨xs', k1, k2⟩ := ih vs h2 fun v hv j hj => hr j (.step h1 hv hj)
    obtain ⟨e1, e2⟩ := here h1 hr e
    exact ⟨.obj xs', by simp only [Reps]; exact ⟨vs, e1, k1⟩, by simp only [Reps]; exact ⟨vs, e2, k2⟩⟩
  · intro vs h _
    simp only [RepsElems] at h; subst h
    exact ⟨[], by simp only [RepsElems], by simp only [RepsElems]⟩
  · intro x xs ihx ihxs vs h hr
    simp only [RepsElems] at h
    obtain ⟨id, vs', rfl, h1, h2⟩ := h
    obtain ⟨t', k1, k2⟩ := ihx id h1 fun j hj => hr ⟨id, []⟩ (by simp) j hj
    obtain ⟨xs', k3, k4⟩ := ihxs vs' h2 fun v hv => hr v (by simp [hv])
    exact ⟨t' :: xs', by simp only [RepsElems]; exact ⟨id, vs', rfl, k1, k3⟩, by simp only [RepsElems]; exact ⟨id, vs', rfl, k2, k4⟩⟩
  · intro vs h _
    simp only [RepsMembers] at h; subst h
    exact ⟨[], by simp only [RepsMembers], by simp only [RepsMembers]⟩
  · intro k x xs ihx ihxs vs h hr
    simp only [RepsMembers] at h
    obtain ⟨id, vs', rfl, h1, h2⟩ := h
    obtain ⟨t', k1, k2⟩ := ihx id h1 fun j hj => hr ⟨id, k⟩ (by simp) j hj
    obtain ⟨xs', k3, k4⟩ := ihxs vs' h2 fun v hv => hr v (by simp [hv])
    exact ⟨(k, t') :: xs', by simp only [RepsMembers]; exact ⟨id, vs', rfl, k1, k3⟩, by simp only [RepsMembers]; exact ⟨id, vs', rfl, k2, k4⟩⟩

theorem Local.trans {a a' a'' : AH} {r : Ref} {id : Nat} (h1 : Local a a' r id) (h2 : Local a' a'' r id) : Local a a'' r id :=
  ⟨fun q hq => by rw [h2.other q hq, h1.other q hq], by rw [h2.rev, h1.rev], Nat.le_trans h1.len h2.len,
    fun j hj hne => by rw [h2.old j (Nat.lt_of_lt_of_le hj h1.len) hne, h1.old j hj hne]⟩

/-- edits of one node leave the other nodes alone -/
theorem edits_local {fuel : Nat} {n : Node} {r : Ref} : ∀ {ops : List Op} {h h1 : Heap} {rs : List Res}, h.Wf → Edits n ops →
    runOps fuel ops h = some (h1, rs) → A.document h.abs n = some r → Local h.abs h1.abs r n.id
  | [], h, h1, rs, _, _, hrun, _ => by
    simp only [runOps, Option.some.injEq, Prod.mk.injEq] at hrun
    rw [← hrun.1]; exact .refl _ _ _
  | op :: ops, h, h1, rs, hw, he, hrun, hd => by
    simp only [runOps] at hrun
    cases hop : op.run fuel h with
    | none => rw [hop] at hrun; simp at hrun
    | some p =>
      obtain ⟨h', res⟩ := p
      rw [hop] at hrun
      simp only at hrun
      cases hops : runOps fuel ops h' with
      | none => rw [hops] at hrun; simp at hrun
      | some q =>
        obtain ⟨h'', rs'⟩ := q
        rw [hops] at hrun
        simp only [Option.some.injEq, Prod.mk.injEq] at hrun
        obtain ⟨rfl, _⟩ := hrun
        obtain ⟨m1, m2⟩ := he op (by simp)
        have l1 : Local h.abs h'.abs r n.id := by
          rcases mutation_local hw m1 m2 hop with e | ⟨r', e1, e2⟩
          · rw [e]; exact .refl _ _ _
          · rw [hd] at e1
            simp only [Option.some.injEq] at e1
            rw [e1]; exact e2
        exact l1.trans (edits_local (run_wf hw hop) (fun o ho => he o (by simp [ho])) hops (by rw [l1.document, hd]))

theorem edits_resets {n : Node} (r : Ref) : ∀ {ops : List Op}, Edits n ops → resets r ops = 0
  | [], _ => rfl
  | op :: ops, he => by
    have ih := edits_resets r (ops := ops) fun o ho => he o (by simp [ho])
    obtain ⟨m1, _⟩ := he op (by simp)
    cases op <;> simp_all [resets, Op.mutates]

/-- a value that does not contain the edited node stays what it is, and does not contain the node afterwards either -/
theorem local_value {h h1 : Heap} {n w : Node} {r : Ref} {t : JVal} (hl : Local h.abs h1.abs r n.id) (hd : A.document h.abs n = some r) (ht : Tree h w t)
    (hc : ¬ Contains h w n) : Tree h1 w t ∧ ¬ Contains h1 w n := by
  have ht0 := ht
  rw [tree_abs] at ht ⊢
  obtain ⟨q, e1, e2⟩ := ht
  have hno : q = r → ¬ Reach (A.cont h.abs r) w.id n.id := by
    rintro rfl hr
    exact hc ⟨q, by rw [abs_document]; exact e1, by rw [abs_document]; exact hd, by rw [abs_cont]; exact hr⟩
  refine ⟨⟨q, by rw [hl.document, e1], hl.reps e2 hno⟩, ?_⟩
  rintro ⟨p, k1, k2, k3⟩
  rw [abs_document, hl.document] at k1 k2
  rw [abs_cont] at k3
  rw [e1] at k1
  rw [hd] at k2
  simp only [Option.some.injEq] at k1 k2
  subst k1 k2
  refine hno rfl (reach_back k3 fun j hj => hl.old j (reach_lt e2 hj) fun he => by subst he; exact hno rfl hj)

/-- the node stays in the document -/
theorem local_live {h h1 : Heap} {n : Node} {r : Ref} {d : NodeD} (hl : Local h.abs h1.abs r n.id) (hd : A.document h.abs n = some r) (hg : n.get h = some d) :
    ∃ d1, n.get h1 = some d1 := by
  have e1 := abs_get h n
  rw [hg] at e1
  unfold A.get at e1
  rw [hd] at e1
  simp only [Option.map_some, A.getOf] at e1
  have hlt : n.id < (h.abs r).nodes.length := (List.getElem?_eq_some_iff.1 e1.symm).1
  obtain ⟨x, hx⟩ : ∃ x, (h1.abs r).nodes[n.id]? = some x := ⟨_, List.getElem?_eq_getElem (Nat.lt_of_lt_of_le hlt hl.len)⟩
  have e2 := abs_get h1 n
  rw [aget_some (by rw [hl.document, hd]) hx] at e2
  cases hn : n.get h1 with
  | none => rw [hn] at e2; simp at e2
  | some d1 => exact ⟨d1, rfl⟩

theorem child_not_contains {h : Heap} {n v : Node} {t x : JVal} (hn : Tree h n t) (hv : Tree h v x) (hlt : x.size < t.size) : ¬ Contains h v n := by
  rintro ⟨r, k1, k2, k3⟩
  obtain ⟨q, e1, e2⟩ := hn
  obtain ⟨p, f1, f2⟩ := hv
  rw [e1] at k2
  rw [f1] at k1
  simp only [Option.some.injEq] at k1 k2
  subst k1 k2
  obtain ⟨t', g1, g2⟩ := reps_reach f2 k3
  have := reps_unique g1 e2
  subst this
  omega

/-- `Del` moves the last member to the place of the first one with the key -/
theorem del_swap (h : Heap) (hw : h.Wf) (n : Node) (ms : List (Bytes × JVal)) (k : Bytes) (hn : Tree h n (.obj ms)) (i : Nat)
    (hi : ms.findIdx? (fun m => m.1 = k) = some i) : Tree (n.del h k) n (.obj (swapRm ms i)) := by
  obtain ⟨r, hd, hr⟩ := hn
  rw [abs_cont] at hr
  have hr0 := hr
  obtain ⟨vs, hc, hms⟩ := hr
  have hidx := findIdx_key k hms
  have habs := (abs_del hw n k).2
  have hdoc : n.document (n.del h k) = some r := by
    rw [abs_document, habs]
    rcases local_update h.abs n (A.delF k) with he | ⟨r', _, hl⟩
    · rw [he]; exact hd
    · rw [hl.document]; exact hd
  refine ⟨r, hdoc, ?_⟩
  rw [abs_cont, habs]
  refine (update_tree (a := h.abs) (vs' := swapRm vs i) (typ := tObject) hd hr0 hc ?_ ?_).2.2
  · intro x hx
    unfold A.delF
    have hv : x.vals = vs := by have := congrArg Cont.vals hx; exact this
    have ht : x.typ = tObject := by have := congrArg Cont.typ hx; exact this
    have hw : x.raw = [] := by have := congrArg Cont.raw hx; exact this
    rw [if_pos ht, hv, hidx, hi]
    simp only [ANode.cont, swapRemoveV_eq, ht, hw]
  · intro g hg hgn
    exact ⟨_, hgn, repsMembers_swapRm (repsMembers_congr hms hg) i⟩

theorem assocSet_absent {k : Bytes} {t : JVal} : ∀ {ms : List (Bytes × JVal)}, assocGet ms k = none → assocSet ms k t = ms ++ [(k, t)] ∧
    (ms ++ [(k, t)]).findIdx? (fun m => m.1 = k) = some ms.length
  | [], _ => by simp [assocSet]
  | (k', x) :: ms, h => by
    simp only [assocGet] at h
    split at h
    · simp at h
    · rename_i hk
      obtain ⟨h1, h2⟩ := assocSet_absent (t := t) h
      refine ⟨by simp [assocSet, hk, h1], ?_⟩
      simp only [List.cons_append, List.findIdx?_cons, hk, decide_false, Bool.false_eq_true, if_false, h2]
      simp

theorem swapRm_last {α : Type} (l : List α) (x : α) : swapRm (l ++ [x]) l.length = l := by simp [swapRm]

theorem assocSet_twice (k : Bytes) (t u : JVal) : ∀ ms : List (Bytes × JVal), assocSet (assocSet ms k t) k u = assocSet ms k u
  | [] => by simp [assocSet]
  | (k', x) :: ms => by
    by_cases hk : k' = k
    · simp [assocSet, hk]
    · simp [assocSet, hk, assocSet_twice k t u ms]

theorem assocSet_own {k : Bytes} {x : JVal} : ∀ {ms : List (Bytes × JVal)}, assocGet ms k = some x → assocSet ms k x = ms ∧ x.size ≤ sizeMembers ms
  | [], h => by simp [assocGet] at h
  | (k', y) :: ms, h => by
    by_cases hk : k' = k
    · simp [assocGet, hk] at h
      subst h
      simp [assocSet, hk, sizeMembers]
    · simp only [assocGet, if_neg hk] at h
      obtain ⟨h1, h2⟩ := assocSet_own h
      refine ⟨by simp [assocSet, hk, h1], ?_⟩
      simp only [sizeMembers]; omega

theorem size_elem {x : JVal} : ∀ {xs : List JVal} {i : Nat}, xs[i]? = some x → x.size ≤ sizeElems xs
  | [], i, h => by simp at h
  | y :: xs, 0, h => by simp at h; subst h; simp [sizeElems]
  | y :: xs, i + 1, h => by
    have := size_elem (xs := xs) (i := i) (by simpa using h)
    simp only [sizeElems]; omega

end Verif.Njson
