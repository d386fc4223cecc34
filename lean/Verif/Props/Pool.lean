import Verif.Model.Pool
import Verif.Props.Doc

/-!
# Properties of the document pool (C38)

All theorems are about every reachable state, i.e. every interleaving of any number of goroutines and every choice
of the `sync.Pool`. The revision counter has 64 bits, so "differs from every Node handed out before" needs that the
document was reset fewer than 2^64 times (see C20).
-/

namespace Verif.Props
open Verif Verif.Spec Verif.Njson

/-- The invariant. -/
structure PoolInv (s : PState) : Prop where
  wf : s.heap.Wf
  nodup : (s.held.map (·.2) ++ s.pool).Nodup
  below : ∀ r ∈ s.held.map (·.2) ++ s.pool, r < s.next
  blank : ∀ r ∈ s.pool, (s.heap r).len = 0
  fresh : ∀ r, s.next ≤ r → s.count r = 0
  rev : ∀ r, (s.heap r).rev = UInt64.ofNat (s.count r)
  issued : ∀ g n c, (g, n, c) ∈ s.issued → ∃ r, n.doc = some r ∧ r < s.next ∧ n.rev = UInt64.ofNat c ∧ c ≤ s.count r ∧
    ((g, r) ∈ s.held ∨ c < s.count r)

theorem mutate_dead {h : Heap} {n : Node} (hd : n.document h = none) {fuel : Nat} {op : Op} (hm : op.mutates n) :
    op.run fuel h = some (h, .unit) := by
  have hg := dead_doc hd
  have hu : ∀ f, n.update h f = h := by intro f; unfold Node.update; rw [hg]
  cases op <;> simp only [Op.mutates] at hm <;> subst hm <;>
    simp [Op.run, Node.set, Node.append, Node.replace, Node.slice, Node.remove, Node.del, Node.setScalar, Node.strip, hg, hd, hu]

theorem count_mono {s s' : PState} (h : PStep s s') (r : Ref) : s.count r ≤ s'.count r := by
  cases h with
  | get h => cases h <;> exact Nat.le_refl _
  | put _ => simp only [PState.put]; split <;> omega
  | drop => exact Nat.le_refl _
  | work _ _ => simp
  | issue _ _ _ => exact Nat.le_refl _
  | late _ _ _ _ => exact Nat.le_refl _

theorem ofNat_ne {a b : Nat} (h : a < b) (hb : b < 2 ^ 64) : UInt64.ofNat a ≠ UInt64.ofNat b := by
  intro he
  have := congrArg UInt64.toNat he
  simp only [UInt64.toNat_ofNat'] at this
  omega

theorem issued_dead {s : PState} (hi : PoolInv s) (hb : ∀ r, s.count r < 2 ^ 64) {g : Gor} {n : Node} {c : Nat}
    (h : (g, n, c) ∈ s.issued) (hnot : ∀ r, n.doc = some r → (g, r) ∉ s.held) : n.document s.heap = none := by
  obtain ⟨r, h1, h2, h3, h4, h5⟩ := hi.issued g n c h
  have hlt : c < s.count r := h5.resolve_left (hnot r h1)
  unfold Node.document
  rw [h1]
  simp only
  rw [if_neg]
  rw [hi.rev, h3]
  exact (ofNat_ne hlt (hb r)).symm

theorem inv_step {s s' : PState} (hi : PoolInv s) (hb : ∀ r, s.count r < 2 ^ 64) (h : PStep s s') : PoolInv s' := by
  cases h with
  | get h =>
    rename_i g r
    cases h with
    | pooled hr =>
      have hp : (s.held.map (·.2) ++ s.pool).Perm ((g, r) :: s.held |>.map (·.2) |>.append (s.pool.erase r)) := by
        simp only [List.map_cons]
        show List.Perm _ (r :: (s.held.map (·.2) ++ s.pool.erase r))
        refine ((List.perm_cons_erase hr).append_left _).trans ?_
        exact List.perm_middle
      refine ⟨hi.wf, hp.nodup hi.nodup, fun q hq => hi.below q (hp.mem_iff.2 hq), fun q hq => hi.blank q (List.mem_of_mem_erase hq),
        hi.fresh, hi.rev, fun g' n c hm => ?_⟩
      obtain ⟨q, h1, h2, h3, h4, h5⟩ := hi.issued g' n c hm
      exact ⟨q, h1, h2, h3, h4, h5.imp (List.mem_cons_of_mem _) id⟩
    | new =>
      have hnot : s.next ∉ s.held.map (·.2) ++ s.pool := fun hc => absurd (hi.below _ hc) (Nat.lt_irrefl _)
      refine ⟨hi.wf.set _ (by simp [Doc.Wf, Doc.pooled]), ?_, ?_, ?_, ?_, ?_, ?_⟩
      · exact List.nodup_cons.2 ⟨hnot, hi.nodup⟩
      · intro q hq
        rcases List.mem_cons.1 hq with rfl | hq
        · exact Nat.lt_succ_self _
        · exact Nat.lt_succ_of_lt (hi.below q hq)
      · intro q hq
        have hne : q ≠ s.next := fun hc => hnot (List.mem_append_right _ (hc ▸ hq))
        show ((s.heap.set s.next Doc.pooled) q).len = 0
        unfold Heap.set
        rw [if_neg hne]
        exact hi.blank q hq
      · intro q hq
        exact hi.fresh q (Nat.le_of_succ_le hq)
      · intro q
        show ((s.heap.set s.next Doc.pooled) q).rev = UInt64.ofNat (s.count q)
        unfold Heap.set
        by_cases hq : q = s.next
        · rw [if_pos hq, hi.fresh q (Nat.le_of_eq hq.symm)]; rfl
        · rw [if_neg hq]; exact hi.rev q
      · intro g' n c hm
        obtain ⟨q, h1, h2, h3, h4, h5⟩ := hi.issued g' n c hm
        exact ⟨q, h1, Nat.lt_succ_of_lt h2, h3, h4, h5.imp (List.mem_cons_of_mem _) id⟩
  | put hr =>
    rename_i g r
    have hmem : r ∈ s.held.map (·.2) := List.mem_map.2 ⟨(g, r), hr, rfl⟩
    have hp : (s.held.map (·.2) ++ s.pool).Perm (((s.held.erase (g, r)).map (·.2)) ++ (r :: s.pool)) := by
      refine (((List.perm_cons_erase hr).map (·.2)).append_right _).trans ?_
      exact List.perm_middle.symm
    refine ⟨hi.wf.set _ (Nat.zero_le _), hp.nodup hi.nodup, fun q hq => hi.below q (hp.mem_iff.2 hq), ?_, ?_, ?_, ?_⟩
    · intro q hq
      show ((s.heap.set r (s.heap r).reset) q).len = 0
      unfold Heap.set
      by_cases hqr : q = r
      · rw [if_pos hqr]; rfl
      · rw [if_neg hqr]
        rcases List.mem_cons.1 hq with h | h
        · exact absurd h hqr
        · exact hi.blank q h
    · intro q hq
      have : q ≠ r := by
        intro hc
        have := hi.below r (List.mem_append_left _ hmem)
        subst hc
        exact absurd this (Nat.not_lt.2 hq)
      show (if q = r then s.count q + 1 else s.count q) = 0
      rw [if_neg this]; exact hi.fresh q hq
    · intro q
      show ((s.heap.set r (s.heap r).reset) q).rev = UInt64.ofNat (if q = r then s.count q + 1 else s.count q)
      unfold Heap.set
      by_cases hqr : q = r
      · subst hqr
        rw [if_pos rfl, if_pos rfl]
        show (s.heap q).rev + 1 = _
        rw [hi.rev q, UInt64.ofNat_add]; rfl
      · rw [if_neg hqr, if_neg hqr]; exact hi.rev q
    · intro g' n c hm
      obtain ⟨q, h1, h2, h3, h4, h5⟩ := hi.issued g' n c hm
      refine ⟨q, h1, h2, h3, ?_, ?_⟩
      · show c ≤ if q = r then s.count q + 1 else s.count q
        split <;> omega
      · show (g', q) ∈ s.held.erase (g, r) ∨ c < if q = r then s.count q + 1 else s.count q
        by_cases hqr : q = r
        · rw [if_pos hqr]; right; omega
        · rw [if_neg hqr]
          refine h5.imp (fun h => ?_) id
          exact (List.mem_erase_of_ne (by intro hc; simp at hc; exact hqr hc.2)).2 h
  | drop =>
    rename_i r
    have hs : List.Sublist (s.held.map (·.2) ++ s.pool.erase r) (s.held.map (·.2) ++ s.pool) :=
      List.Sublist.append (List.Sublist.refl _) List.erase_sublist
    exact ⟨hi.wf, hi.nodup.sublist hs, fun q hq => hi.below q (hs.subset hq), fun q hq => hi.blank q (List.mem_of_mem_erase hq),
      hi.fresh, hi.rev, hi.issued⟩
  | work hrun hown =>
    rename_i g op fuel h res
    have hpool : ∀ q, (∀ g', (g', q) ∉ s.held) → h q = s.heap q := by
      intro q hq
      exact run_other hrun (fun hc => hq g (hown q hc))
    refine ⟨run_wf hi.wf hrun, hi.nodup, hi.below, ?_, ?_, ?_, ?_⟩
    · intro q hq
      show (h q).len = 0
      rw [hpool q]
      · exact hi.blank q hq
      · intro g' hc
        have := (List.nodup_append.1 hi.nodup).2.2 q (List.mem_map.2 ⟨_, hc, rfl⟩) q hq
        exact this rfl
    · intro q hq
      show s.count q + resets q [op] = 0
      rw [hi.fresh q hq]
      cases op <;> simp [resets]
      rename_i q'
      intro hc
      have := hown q' rfl
      have := hi.below q' (List.mem_append_left _ (List.mem_map.2 ⟨_, this, rfl⟩))
      subst hc
      exact absurd this (Nat.not_lt.2 hq)
    · intro q
      show (h q).rev = UInt64.ofNat (s.count q + resets q [op])
      rw [run_rev hi.wf hrun q, hi.rev q, UInt64.ofNat_add]
    · intro g' n c hm
      obtain ⟨q, h1, h2, h3, h4, h5⟩ := hi.issued g' n c hm
      exact ⟨q, h1, h2, h3, Nat.le_trans h4 (Nat.le_add_right _ _), h5.imp id (fun h => Nat.lt_of_lt_of_le h (Nat.le_add_right _ _))⟩
  | issue hr hdoc hrev =>
    rename_i g r n
    refine ⟨hi.wf, hi.nodup, hi.below, hi.blank, hi.fresh, hi.rev, fun g' n' c hm => ?_⟩
    rcases List.mem_cons.1 hm with hm | hm
    · simp only [Prod.mk.injEq] at hm
      obtain ⟨rfl, rfl, rfl⟩ := hm
      exact ⟨r, hdoc, hi.below r (List.mem_append_left _ (List.mem_map.2 ⟨_, hr, rfl⟩)), by rw [hrev, hi.rev], Nat.le_refl _, Or.inl hr⟩
    · exact hi.issued g' n' c hm
  | late hm hnot hop hrun =>
    have hd := issued_dead hi hb hm hnot
    rw [mutate_dead hd hop] at hrun
    simp only [Option.some.injEq, Prod.mk.injEq] at hrun
    obtain ⟨rfl, _⟩ := hrun
    exact hi

theorem inv_init : PoolInv PState.init := by
  refine ⟨fun _ => Nat.zero_le _, ?_, ?_, ?_, fun _ _ => rfl, fun _ => rfl, ?_⟩ <;> simp [PState.init]

theorem inv_reach {s : PState} (h : PReach s) (hb : ∀ r, s.count r < 2 ^ 64) : PoolInv s := by
  induction h with
  | init => exact inv_init
  | step _ hs ih =>
    have hb' := fun r => Nat.lt_of_le_of_lt (count_mono hs r) (hb r)
    exact inv_step (ih hb') hb' hs

/-- **C38, one owner**: in every reachable state a document is held by at most one goroutine, at most once, and a held
document is not in the pool. -/
theorem C38_one_owner (s : PState) (h : PReach s) (hb : ∀ r, s.count r < 2 ^ 64) :
    (s.held.map (·.2)).Nodup ∧ s.pool.Nodup ∧ (∀ g r, (g, r) ∈ s.held → r ∉ s.pool) ∧
    ∀ g g' r, (g, r) ∈ s.held → (g', r) ∈ s.held → g = g' := by
  have hi := inv_reach h hb
  obtain ⟨h1, h2, h3⟩ := List.nodup_append.1 hi.nodup
  refine ⟨h1, h2, fun g r hr hp => h3 r (List.mem_map.2 ⟨_, hr, rfl⟩) r hp rfl, fun g g' r hr hr' => ?_⟩
  have : ∀ l : List (Gor × Ref), (l.map (·.2)).Nodup → (g, r) ∈ l → (g', r) ∈ l → g = g' := by
    intro l
    induction l with
    | nil => intro _ h; simp at h
    | cons a l ih =>
      intro hn ha hb
      simp only [List.map_cons, List.nodup_cons, List.mem_map, Prod.exists, exists_eq_right, not_exists] at hn
      rcases List.mem_cons.1 ha with rfl | ha'
      · rcases List.mem_cons.1 hb with hb | hb
        · simp at hb; exact hb.symm
        · exact absurd hb (hn.1 _)
      · rcases List.mem_cons.1 hb with rfl | hb
        · exact absurd ha' (hn.1 _)
        · exact ih hn.2 ha' hb
  exact this _ h1 hr hr'

/-- **C38, blank**: whatever document `Get` returns in a reachable state, nobody held it, it has no nodes, and every Node
that anybody ever obtained from it is dead. -/
theorem C38_get_blank (s s' : PState) (g : Gor) (r : Ref) (h : PReach s) (hb : ∀ r, s.count r < 2 ^ 64) (hget : s.Get g r s') :
    (∀ g', (g', r) ∉ s.held) ∧ (s'.heap r).len = 0 ∧ (∀ id, (s'.heap r).get id = none) ∧
    ∀ g' n c, (g', n, c) ∈ s'.issued → n.doc = some r → n.rev ≠ (s'.heap r).rev ∧ Dead s'.heap n := by
  have hi := inv_reach h hb
  have hlen : ∀ d : Doc, d.len = 0 → ∀ id, d.get id = none := by
    intro d hd id; unfold Doc.get; rw [if_neg]; omega
  cases hget with
  | pooled hr =>
    have hno : ∀ g', (g', r) ∉ s.held := fun g' hc => (C38_one_owner s h hb).2.2.1 g' r hc hr
    refine ⟨hno, hi.blank r hr, hlen _ (hi.blank r hr), fun g' n c hm hdoc => ?_⟩
    have hnot : ∀ q, n.doc = some q → (g', q) ∉ s.held := by
      intro q hq; rw [hdoc] at hq; simp at hq; subst hq; exact hno g'
    have hd := issued_dead hi hb hm hnot
    refine ⟨fun hc => ?_, dead_doc hd⟩
    unfold Node.document at hd
    rw [hdoc] at hd
    simp only at hd
    rw [if_pos (show (s.heap r).rev = n.rev from hc.symm)] at hd
    simp at hd
  | new =>
    have e : (s.alloc g).heap s.next = Doc.pooled := by simp [PState.alloc, Heap.set]
    refine ⟨fun g' hc => ?_, by rw [e]; rfl, hlen _ (by rw [e]; rfl), fun g' n c hm hdoc => ?_⟩
    · exact absurd (hi.below _ (List.mem_append_left _ (List.mem_map.2 ⟨_, hc, rfl⟩))) (Nat.lt_irrefl _)
    · exfalso
      obtain ⟨q, h1, h2, _⟩ := hi.issued g' n c hm
      rw [hdoc] at h1; simp at h1; subst h1
      exact absurd h2 (Nat.lt_irrefl _)

/-- **C38, use after Put**: a mutation through a Node by a goroutine that has put the document back changes nothing, even
when somebody else uses the document by then. -/
theorem C38_late_inert (s : PState) (h : PReach s) (hb : ∀ r, s.count r < 2 ^ 64) (g : Gor) (n : Node) (c : Nat)
    (hm : (g, n, c) ∈ s.issued) (hnot : ∀ r, n.doc = some r → (g, r) ∉ s.held) (op : Op) (hop : op.mutates n) (fuel : Nat) :
    op.run fuel s.heap = some (s.heap, .unit) :=
  mutate_dead (issued_dead (inv_reach h hb) hb hm hnot) hop

/-- The condition on the callers is needed: after a second `Put` of the same document the pool hands it to two goroutines. -/
theorem C38_double_put : ∃ s s₁ s₂ : PState, PReach s ∧ (1, 0) ∈ s.held ∧
    ((s.put 1 0).put 1 0).Get 1 0 s₁ ∧ s₁.Get 2 0 s₂ ∧ (1, 0) ∈ s₂.held ∧ (2, 0) ∈ s₂.held := by
  refine ⟨PState.init.alloc 1, _, _, .step .init (.get .new), List.mem_cons_self, .pooled (by simp [PState.put]), .pooled ?_, ?_, ?_⟩
  · simp [PState.take, PState.put]
  · simp [PState.take]
  · simp [PState.take]

-- a reachable state in which a document has been used, put back and taken by another goroutine
example : ∃ s : PState, PReach s ∧ (2, 0) ∈ s.held ∧ (1, ⟨0, 0, some 0⟩, 0) ∈ s.issued ∧ ∀ r, s.count r < 2 ^ 64 := by
  let s1 := PState.init.alloc 1
  let s2 : PState := { s1 with issued := [(1, ⟨0, 0, some 0⟩, 0)] }
  have h1 : PReach s1 := .step .init (.get .new)
  have h2 : PReach s2 := .step h1 (.issue (r := 0) List.mem_cons_self rfl rfl)
  have h3 : PReach (s2.put 1 0) := .step h2 (.put List.mem_cons_self)
  have h4 : PReach ((s2.put 1 0).take 2 0) := .step h3 (.get (.pooled List.mem_cons_self))
  refine ⟨_, h4, List.mem_cons_self, List.mem_cons_self, fun r => ?_⟩
  show (if r = 0 then 0 + 1 else 0) < 2 ^ 64
  split <;> decide

end Verif.Props
