import Verif.Proofs.Strip
import Verif.Props.History

/-!
# Property C33: `Strip`

False as stated: in one object only the first member with the key is removed, and arrays are not descended into.
`C33_strip_exact` gives the tree that `Strip` leaves for every document without sharing, `C33_strip_partial` the
property for the trees on which it holds.
-/

namespace Verif.Props
open Verif Verif.Spec Verif.Njson

theorem noSharing_refs {h : Heap} {r : Ref} (hs : NoSharing (h r)) : (refs (h.abs r).nodes).Nodup := by
  refine parent_nodup fun i j a b x y v w hx hy hv hw he => ?_
  refine hs i j x.cont y.cont a b v w ?_ ?_ hv hw he
  · rw [abs_cont]; unfold A.cont lcont; rw [hx]; rfl
  · rw [abs_cont]; unfold A.cont lcont; rw [hy]; rfl

/-- **C33, exact behaviour**: `Strip` returns (given fuel for the size of the tree, and without index panics) and leaves
the tree `t.stripped k`. -/
theorem C33_strip_exact (h : Heap) (hw : h.Wf) (n : Node) (r : Ref) (hd : n.document h = some r) (hs : NoSharing (h r)) (t : JVal)
    (ht : Tree h n t) (k : Bytes) (fuel : Nat) (hf : t.size ≤ fuel) : ∃ h', n.strip h fuel k = some h' ∧ Tree h' n (t.stripped k) := by
  obtain ⟨q, hq, hr⟩ := ht
  rw [hd] at hq; simp at hq; subst hq
  rw [abs_cont] at hr
  obtain ⟨l', h1, h2⟩ := strip_tree k fuel t (h.abs r).nodes n.id hf hr (noSharing_refs hs)
  have hd' := hd
  rw [abs_document] at hd'
  have ha : A.nstrip h.abs fuel n k = some (AH.set h.abs r { h.abs r with nodes := l' }) := by
    unfold A.nstrip; rw [hd']; simp only; rw [h1]
  obtain ⟨h', e1, e2, _⟩ := commutes_some (abs_nstrip hw fuel n k) ha
  refine ⟨h', e1, ?_⟩
  rw [tree_abs, e2]
  refine ⟨r, ?_, ?_⟩
  · have hdoc := document_doc hd'
    unfold A.document at hd' ⊢
    rw [hdoc] at hd' ⊢
    simpa [AH.set] using hd'
  · unfold A.cont; simpa [AH.set] using h2

/-! ### trees -/

theorem without_noKey_all (k : Bytes) : (∀ t : JVal, NoKey k t → t.without k = t) ∧ (∀ xs, NoKeyElems k xs → withoutElems k xs = xs) ∧
    (∀ ms, NoKeyMembers k ms → withoutMembers k ms = ms) := by
  apply jval_ind
  · intro _; rfl
  · intro b _; rfl
  · intro b _; rfl
  · intro b _; rfl
  · intro xs ih h; simp only [JVal.without]; rw [ih h]
  · intro xs ih h; simp only [JVal.without]; rw [ih h]
  · intro _; rfl
  · intro x xs h1 h2 h; simp only [withoutElems]; rw [h1 h.1, h2 h.2]
  · intro _; rfl
  · intro k' x ms h1 h2 h; simp only [withoutMembers]; rw [if_neg h.1, h1 h.2.1, h2 h.2.2]

theorem noKey_without_all (k : Bytes) : (∀ t : JVal, NoKey k (t.without k)) ∧ (∀ xs, NoKeyElems k (withoutElems k xs)) ∧
    (∀ ms, NoKeyMembers k (withoutMembers k ms)) := by
  apply jval_ind
  · trivial
  · intro b; trivial
  · intro b; trivial
  · intro b; trivial
  · intro xs ih; exact ih
  · intro xs ih; exact ih
  · trivial
  · intro x xs h1 h2; exact ⟨h1, h2⟩
  · trivial
  · intro k' x ms h1 h2
    simp only [withoutMembers]
    split
    · exact h2
    · rename_i h; exact ⟨h, h1, h2⟩

theorem noKeyMembers_iff {k : Bytes} {ms : List (Bytes × JVal)} : NoKeyMembers k ms ↔ ∀ m ∈ ms, m.1 ≠ k ∧ NoKey k m.2 := by
  induction ms with
  | nil => simp [NoKeyMembers]
  | cons m ms ih => obtain ⟨a, b⟩ := m; simp [NoKeyMembers, ih, and_assoc]

/-- the order of members does not matter for the absence of a key -/
theorem noKey_same {k : Bytes} {s t : JVal} (h : SameUpToOrder s t) : NoKey k t → NoKey k s := by
  refine SameUpToOrder.rec (motive_1 := fun s t _ => NoKey k t → NoKey k s) (motive_2 := fun xs ys _ => NoKeyElems k ys → NoKeyElems k xs)
    (motive_3 := fun ms ns _ => NoKeyMembers k ns → NoKeyMembers k ms) ?_ ?_ ?_ ?_ ?_ ?_ ?_ h
  · exact fun _ h => h
  · intro xs ys _ ih h; exact ih h
  · intro ms ms' ns hp _ ih h
    have := noKeyMembers_iff.1 (ih h)
    exact noKeyMembers_iff.2 fun m hm => this m (hp.mem_iff.1 hm)
  · exact fun h => h
  · intro x y xs ys _ _ h1 h2 h; exact ⟨h1 h.1, h2 h.2⟩
  · exact fun h => h
  · intro k' x y ms ns _ _ h1 h2 h; exact ⟨h.1, h1 h.2.1, h2 h.2.2⟩

theorem delSwap_perm {k : Bytes} : ∀ {ms : List (Bytes × JVal)}, (ms.filter fun m => m.1 = k).length ≤ 1 →
    (delSwap k ms).Perm (ms.filter fun m => m.1 ≠ k)
  | [], _ => by simp [delSwap]
  | (k', x) :: ms, h => by
    unfold delSwap
    by_cases hk : k' = k
    · rw [if_pos hk]
      simp [hk] at h
      have hall : ms.filter (fun m => m.1 ≠ k) = ms := by
        rw [List.filter_eq_self]
        intro m hm
        simpa using h m.1 m.2 hm
      simp only [List.filter_cons, hk, ne_eq, not_true_eq_false, decide_false, Bool.false_eq_true, if_false]
      simp only [ne_eq] at hall
      rw [hall]
      cases hl : ms.getLast? with
      | none => simp at hl; subst hl; simp
      | some z =>
        simp only
        have hne : ms ≠ [] := by rintro rfl; simp at hl
        rw [List.getLast?_eq_some_getLast hne] at hl
        simp at hl
        have hp := (List.perm_append_singleton z ms.dropLast).symm
        rw [← hl, List.dropLast_concat_getLast] at hp
        rw [← hl]; exact hp
    · rw [if_neg hk]
      simp only [List.filter_cons, hk, ne_eq, not_false_eq_true, decide_true, if_true]
      refine List.Perm.cons _ (delSwap_perm ?_)
      simpa [List.filter_cons, hk] using h

theorem stripped_same_all (k : Bytes) : (∀ t : JVal, StripOk k t → SameUpToOrder (t.stripped k) (t.without k)) ∧ (∀ _ : List JVal, True) ∧
    (∀ ms, StripOkMembers k ms → SameMembers ((strippedMembers k ms).filter fun m => m.1 ≠ k) (withoutMembers k ms)) := by
  apply jval_ind
  · intro _; exact .refl _
  · intro b _; exact .refl _
  · intro b _; exact .refl _
  · intro b _; exact .refl _
  · intro xs _ h
    simp only [JVal.stripped, JVal.without]
    rw [(without_noKey_all k).2.1 xs h]
    exact .refl _
  · intro ms ih h
    simp only [JVal.stripped, JVal.without]
    refine .obj (delSwap_perm ?_) (ih h.2)
    have : ((strippedMembers k ms).filter fun m => m.1 = k).length = (ms.filter fun m => m.1 = k).length := by
      rw [strippedMembers_eq, List.filter_map, List.length_map]; rfl
    rw [this]; exact h.1
  · trivial
  · intros; trivial
  · intro _; exact .nil
  · intro k' x ms h1 h2 h
    simp only [strippedMembers, withoutMembers]
    by_cases hk : k' = k
    · simp only [hk, List.filter_cons, ne_eq, not_true_eq_false, decide_false, Bool.false_eq_true, if_false, if_true]
      exact h2 h.2
    · simp only [hk, List.filter_cons, ne_eq, not_false_eq_true, decide_true, if_true, if_false]
      exact .cons (h1 (h.1.resolve_left hk)) (h2 h.2)

/-- **C33 (partial)**: on trees in which each object has the key at most once and arrays do not contain it, `Strip` leaves
the tree without the key, up to the order of members; no object of it has the key. Missing: trees outside `StripOk`
(`C33_false`). -/
theorem C33_strip_partial (h : Heap) (hw : h.Wf) (n : Node) (r : Ref) (hd : n.document h = some r) (hs : NoSharing (h r)) (t : JVal)
    (ht : Tree h n t) (k : Bytes) (hok : StripOk k t) (fuel : Nat) (hf : t.size ≤ fuel) :
    ∃ h' t', n.strip h fuel k = some h' ∧ Tree h' n t' ∧ SameUpToOrder t' (t.without k) ∧ NoKey k t' := by
  obtain ⟨h', h1, h2⟩ := C33_strip_exact h hw n r hd hs t ht k fuel hf
  have hsame := (stripped_same_all k).1 t hok
  exact ⟨h', _, h1, h2, hsame, noKey_same hsame ((noKey_without_all k).1 t)⟩

theorem strip_frame_tree {h h' : Heap} (hw : h.Wf) {fuel : Nat} {n : Node} {k : Bytes} (he : n.strip h fuel k = some h') {m : Node} {t : JVal}
    (ht : Tree h m t) (hc : ∀ x : Node, Contains h m x → ¬ Contains h n x) : Tree h' m t := by
  have ha : A.nstrip h.abs fuel n k = some h'.abs := by
    have := (abs_nstrip hw fuel n k).1; rw [he] at this; exact this.symm
  rw [tree_abs] at ht ⊢
  unfold A.nstrip at ha
  split at ha
  · rename_i r hd
    split at ha
    · rename_i d hsd
      simp at ha
      rw [← ha]
      have hsh := shr_strip k fuel _ _ _ hsd
      obtain ⟨q, hq, hr⟩ := ht
      have hdoc : ∀ x : Node, A.document (AH.set h.abs r { h.abs r with nodes := d }) x = A.document h.abs x := by
        intro x
        unfold A.document
        cases x.doc with
        | none => rfl
        | some p =>
          by_cases hp : p = r
          · subst hp; simp [AH.set]
          · simp [AH.set, hp]
      refine ⟨q, by rw [hdoc, hq], ?_⟩
      by_cases hqr : q = r
      · subst hqr
        refine reps_congr hr fun j hj => ?_
        have : ¬ Reach (lcont (h.abs q).nodes) n.id j := by
          intro hnj
          refine hc ⟨j, n.rev, n.doc⟩ ⟨q, hq, hd, ?_⟩ ⟨q, hd, hd, ?_⟩
          · rw [abs_cont]; exact hj
          · rw [abs_cont]; exact hnj
        unfold A.cont lcont
        simp only [AH.set, if_true]
        rw [hsh.frame j this]
      · refine reps_congr hr fun j _ => ?_
        unfold A.cont; simp [AH.set, hqr]
    · simp at ha
  · simp at ha; rw [← ha]; exact ht

/-- **C33, frame**: `Strip` leaves every tree alone that has no node in common with the stripped one, in every document. -/
theorem C33_strip_frame (h h' : Heap) (hw : h.Wf) (fuel : Nat) (n : Node) (k : Bytes) (he : n.strip h fuel k = some h') (m : Node) (t : JVal)
    (ht : Tree h m t) (hc : ∀ x : Node, Contains h m x → ¬ Contains h n x) : Tree h' m t := strip_frame_tree hw he ht hc

/-! ### the property is false in general -/

def stripDup : Heap := fun _ => (Doc.empty.parse b!"{\"a\":1,\"b\":2,\"a\":3}").1
def stripArr : Heap := fun _ => (Doc.empty.parse b!"{\"b\":[{\"a\":1}]}").1

/-- what is left after `Strip("a")`: a second member `a`, and an `a` inside an array -/
theorem C33_leftovers :
    (runOps 20 [.strip ⟨0, 0, some 0⟩ b!"a", .json ⟨0, 0, some 0⟩ []] stripDup).map (·.2) = some [.unit, .json (b!"{\"a\":3,\"b\":2}", false)] ∧
    (runOps 20 [.strip ⟨0, 0, some 0⟩ b!"a", .json ⟨0, 0, some 0⟩ []] stripArr).map (·.2) = some [.unit, .json (b!"{\"b\":[{\"a\":1}]}", false)] := by
  decide +kernel

theorem strip_dup_tree : Tree stripDup ⟨0, 0, some 0⟩ (.obj [(b!"a", .num b!"1"), (b!"b", .num b!"2"), (b!"a", .num b!"3")]) := by
  refine ⟨0, by decide +kernel, [⟨1, b!"a"⟩, ⟨2, b!"b"⟩, ⟨3, b!"a"⟩], by decide +kernel, ?_⟩
  exact ⟨_, _, rfl, by simp only [Reps]; decide +kernel, _, _, rfl, by simp only [Reps]; decide +kernel, _, _, rfl, by simp only [Reps]; decide +kernel, rfl⟩

theorem strip_arr_tree : Tree stripArr ⟨0, 0, some 0⟩ (.obj [(b!"b", .arr [.obj [(b!"a", .num b!"1")]])]) := by
  refine ⟨0, by decide +kernel, [⟨1, b!"b"⟩], by decide +kernel, _, _, rfl, ⟨[⟨2, []⟩], by decide +kernel, _, _, rfl, ?_, rfl⟩, rfl⟩
  exact ⟨[⟨3, b!"a"⟩], by decide +kernel, _, _, rfl, by simp only [Reps]; decide +kernel, rfl⟩

theorem refs_noSharing {h : Heap} {r : Ref} (hn : (refs (h.abs r).nodes).Nodup) : NoSharing (h r) := by
  intro i j ci cj a b v w h1 h2 h3 h4 he
  rw [abs_cont] at h1 h2
  obtain ⟨x, hx, rfl⟩ := acont_some h1
  obtain ⟨y, hy, rfl⟩ := acont_some h2
  exact nodup_parent hn hx hy h3 h4 he

theorem strip_dup_sharing : NoSharing (stripDup 0) := refs_noSharing (by decide +kernel)
theorem strip_arr_sharing : NoSharing (stripArr 0) := refs_noSharing (by decide +kernel)
theorem strip_dup_wf : stripDup.Wf := fun _ => by
  show (Doc.empty.parse b!"{\"a\":1,\"b\":2,\"a\":3}").1.len ≤ (Doc.empty.parse b!"{\"a\":1,\"b\":2,\"a\":3}").1.arr.length; decide +kernel
theorem strip_arr_wf : stripArr.Wf := fun _ => by
  show (Doc.empty.parse b!"{\"b\":[{\"a\":1}]}").1.len ≤ (Doc.empty.parse b!"{\"b\":[{\"a\":1}]}").1.arr.length; decide +kernel

theorem tree_unique {h : Heap} {n : Node} {t t' : JVal} (h1 : Tree h n t) (h2 : Tree h n t') : t = t' := by
  obtain ⟨r, a1, a2⟩ := h1
  obtain ⟨q, b1, b2⟩ := h2
  rw [a1] at b1; simp at b1; subst b1
  exact reps_unique a2 b2

/-- the condition of C33 at one node: whenever `Strip` has returned, the key is gone -/
def StripsEverywhere (h : Heap) (n : Node) (k : Bytes) (t : JVal) : Prop :=
  ∀ fuel h' t', t.size ≤ fuel → n.strip h fuel k = some h' → Tree h' n t' → NoKey k t'

theorem not_strips {h : Heap} (hw : h.Wf) {n : Node} {r : Ref} (hd : n.document h = some r) (hs : NoSharing (h r)) {t : JVal} (ht : Tree h n t)
    {k : Bytes} (hk : ¬ NoKey k (t.stripped k)) : ¬ StripsEverywhere h n k t := by
  intro hall
  obtain ⟨h', e1, e2⟩ := C33_strip_exact h hw n r hd hs t ht k t.size (Nat.le_refl _)
  exact hk (hall _ _ _ (Nat.le_refl _) e1 e2)

/-- **C33 is false**, both for a duplicate key and for an object inside an array. -/
theorem C33_false : ¬ StripsEverywhere stripDup ⟨0, 0, some 0⟩ b!"a" (.obj [(b!"a", .num b!"1"), (b!"b", .num b!"2"), (b!"a", .num b!"3")]) ∧
    ¬ StripsEverywhere stripArr ⟨0, 0, some 0⟩ b!"a" (.obj [(b!"b", .arr [.obj [(b!"a", .num b!"1")]])]) := by
  refine ⟨not_strips strip_dup_wf (by decide +kernel) strip_dup_sharing strip_dup_tree ?_,
    not_strips strip_arr_wf (by decide +kernel) strip_arr_sharing strip_arr_tree ?_⟩
  · intro h; exact h.1 rfl
  · intro h; exact h.2.1.1.1 rfl

/-! ### the partial theorem applies -/

def stripGood : Heap := fun _ => (Doc.empty.parse b!"{\"x\":{\"a\":[1],\"y\":{\"a\":null}},\"a\":1,\"b\":[{\"c\":2}]}").1

example : StripOk b!"a" (.obj [(b!"x", .obj [(b!"a", .arr [.num b!"1"]), (b!"y", .obj [(b!"a", .null)])]), (b!"a", .num b!"1"),
    (b!"b", .arr [.obj [(b!"c", .num b!"2")]])]) := by
  simp [StripOk, StripOkMembers, NoKeyElems, NoKey, NoKeyMembers]

example : NoSharing (stripGood 0) := refs_noSharing (by decide +kernel)

example : (runOps 20 [.strip ⟨0, 0, some 0⟩ b!"a", .json ⟨0, 0, some 0⟩ []] stripGood).map (·.2) =
    some [.unit, .json (b!"{\"x\":{\"y\":{}},\"b\":[{\"c\":2}]}", false)] := by decide +kernel

end Verif.Props
