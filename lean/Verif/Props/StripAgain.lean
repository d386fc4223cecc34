import Verif.Spec.StripAgain
import Verif.Props.Strip

/-!
# Property C153: `Strip` called again

False as stated: a second call of `Strip` with the same key can remove more. `C153_times` gives the tree after any number of
calls, `C153_enough` how many calls are needed, `C153_fixed` when a call changes nothing, `C153_again_partial` the property
for the trees on which it holds.
-/

namespace Verif.Props
open Verif Verif.Spec Verif.Njson

theorem delSwap_cases {α : Type} (k : Bytes) : ∀ l : List (Bytes × α), ((∀ m ∈ l, m.1 ≠ k) ∧ delSwap k l = l) ∨ ∃ x, l.Perm ((k, x) :: delSwap k l)
  | [] => .inl ⟨by simp, rfl⟩
  | (k', x) :: ms => by
    by_cases hk : k' = k
    · right
      subst hk
      refine ⟨x, ?_⟩
      simp only [delSwap, if_true]
      cases hl : ms.getLast? with
      | none => simp at hl; subst hl; exact .refl _
      | some z =>
        have hne : ms ≠ [] := by rintro rfl; simp at hl
        rw [List.getLast?_eq_some_getLast hne] at hl
        simp at hl
        refine .cons _ ?_
        have := List.dropLast_concat_getLast hne
        rw [hl] at this
        rw [← this]
        simp only [List.dropLast_concat]
        exact List.perm_append_comm
    · simp only [delSwap, if_neg hk]
      rcases delSwap_cases k ms with ⟨h1, h2⟩ | ⟨y, hy⟩
      · left
        refine ⟨?_, by rw [h2]⟩
        intro m hm
        rcases List.mem_cons.1 hm with rfl | hm
        · exact hk
        · exact h1 m hm
      · right
        exact ⟨y, (hy.cons _).trans (.swap _ _ _)⟩

theorem delSwap_mem {α : Type} {k : Bytes} {l : List (Bytes × α)} {m : Bytes × α} (h : m ∈ delSwap k l) : m ∈ l := by
  rcases delSwap_cases k l with ⟨_, h2⟩ | ⟨x, hx⟩
  · rwa [h2] at h
  · exact hx.symm.subset (List.mem_cons_of_mem _ h)

theorem delSwap_count {α : Type} (k : Bytes) (l : List (Bytes × α)) :
    ((delSwap k l).filter fun m => m.1 = k).length = (l.filter fun m => m.1 = k).length - 1 := by
  rcases delSwap_cases k l with ⟨h1, h2⟩ | ⟨x, hx⟩
  · rw [h2]
    have : (l.filter fun m => m.1 = k) = [] := by
      rw [List.filter_eq_nil_iff]; intro m hm; simpa using h1 m hm
    rw [this]; rfl
  · have := (hx.filter fun m => m.1 = k).length_eq
    simp at this
    simp [this]

theorem mostMembers_le {k : Bytes} {b : Nat} : ∀ {ms : List (Bytes × JVal)}, mostMembers k ms ≤ b ↔ ∀ m ∈ ms, m.2.most k ≤ b
  | [] => by simp [mostMembers]
  | (k', x) :: ms => by
    simp only [mostMembers, List.forall_mem_cons, ← mostMembers_le (ms := ms)]
    omega

theorem stripped_most (k : Bytes) : (∀ t : JVal, (t.stripped k).most k ≤ t.most k - 1) ∧ (∀ _ : List JVal, True) ∧
    (∀ ms : List (Bytes × JVal), ∀ m ∈ ms, (m.2.stripped k).most k ≤ m.2.most k - 1) := by
  apply jval_ind
  · simp [JVal.stripped, JVal.most]
  · intro b; simp [JVal.stripped, JVal.most]
  · intro b; simp [JVal.stripped, JVal.most]
  · intro b; simp [JVal.stripped, JVal.most]
  · intro b _; simp [JVal.stripped, JVal.most]
  · intro ms ih
    simp only [JVal.stripped, JVal.most]
    have h1 := delSwap_count k (strippedMembers k ms)
    have h2 : ((strippedMembers k ms).filter fun m => m.1 = k).length = (ms.filter fun m => m.1 = k).length := by
      rw [strippedMembers_eq, List.filter_map, List.length_map]; rfl
    have h3 : mostMembers k (delSwap k (strippedMembers k ms)) ≤ mostMembers k ms - 1 := by
      rw [mostMembers_le]
      intro m hm
      have := delSwap_mem hm
      rw [strippedMembers_eq] at this
      obtain ⟨m0, hm0, rfl⟩ := List.mem_map.1 this
      have a := ih m0 hm0
      have b := mostMembers_le.1 (Nat.le_refl (mostMembers k ms)) m0 hm0
      simp only at *
      omega
    omega
  · trivial
  · intros; trivial
  · simp
  · intro k' x ms h1 h2 m hm
    rcases List.mem_cons.1 hm with rfl | hm
    · exact h1
    · exact h2 m hm

theorem most_zero (k : Bytes) : (∀ t : JVal, t.most k = 0 ↔ NoKeyOut k t) ∧ (∀ _ : List JVal, True) ∧
    (∀ ms : List (Bytes × JVal), ((ms.filter fun m => m.1 = k).length = 0 ∧ mostMembers k ms = 0) ↔ NoKeyOutMembers k ms) := by
  apply jval_ind
  · simp [JVal.most, NoKeyOut]
  · intro b; simp [JVal.most, NoKeyOut]
  · intro b; simp [JVal.most, NoKeyOut]
  · intro b; simp [JVal.most, NoKeyOut]
  · intro b _; simp [JVal.most, NoKeyOut]
  · intro ms ih
    simp only [JVal.most, NoKeyOut]
    rw [← ih]
    omega
  · trivial
  · intros; trivial
  · simp [mostMembers, NoKeyOutMembers]
  · intro k' x ms h1 h2
    simp only [mostMembers, NoKeyOutMembers]
    rw [← h1, ← h2]
    by_cases hk : k' = k
    · simp [hk]
    · simp only [List.filter_cons, hk, decide_false, Bool.false_eq_true, if_false, ne_eq, not_false_eq_true, true_and]
      omega

theorem stripped_out (k : Bytes) : (∀ t : JVal, NoKeyOut k t → t.stripped k = t) ∧ (∀ _ : List JVal, True) ∧
    (∀ ms : List (Bytes × JVal), NoKeyOutMembers k ms → strippedMembers k ms = ms ∧ ∀ m ∈ ms, m.1 ≠ k) := by
  apply jval_ind
  · intro _; rfl
  · intro b _; rfl
  · intro b _; rfl
  · intro b _; rfl
  · intro b _ _; rfl
  · intro ms ih h
    obtain ⟨h1, h2⟩ := ih h
    simp only [JVal.stripped]
    rw [h1, delSwap_none h2]
  · trivial
  · intros; trivial
  · intro _; exact ⟨rfl, by simp⟩
  · intro k' x ms h1 h2 h
    obtain ⟨a, b⟩ := h2 h.2.2
    refine ⟨by simp only [strippedMembers]; rw [h1 h.2.1, a], ?_⟩
    intro m hm
    rcases List.mem_cons.1 hm with rfl | hm
    · exact h.1
    · exact b m hm

theorem sizeMembers_eq' (ms : List (Bytes × JVal)) : sizeMembers ms = (ms.map fun m => m.2.size).sum := by
  induction ms with
  | nil => rfl
  | cons m ms ih => obtain ⟨k, x⟩ := m; simp [sizeMembers, ih]

theorem stripped_size (k : Bytes) : (∀ t : JVal, (t.stripped k).size ≤ t.size) ∧ (∀ _ : List JVal, True) ∧
    (∀ ms : List (Bytes × JVal), sizeMembers (strippedMembers k ms) ≤ sizeMembers ms) := by
  apply jval_ind
  · exact Nat.le_refl _
  · intro b; exact Nat.le_refl _
  · intro b; exact Nat.le_refl _
  · intro b; exact Nat.le_refl _
  · intro b _; exact Nat.le_refl _
  · intro ms ih
    simp only [JVal.stripped, JVal.size]
    have : sizeMembers (delSwap k (strippedMembers k ms)) ≤ sizeMembers (strippedMembers k ms) := by
      rcases delSwap_cases k (strippedMembers k ms) with ⟨_, h2⟩ | ⟨x, hx⟩
      · rw [h2]; exact Nat.le_refl _
      · have := (hx.map fun m => m.2.size).sum_nat
        rw [sizeMembers_eq', sizeMembers_eq', this]
        simp
    omega
  · trivial
  · intros; trivial
  · exact Nat.le_refl _
  · intro k' x ms h1 h2
    simp only [strippedMembers, sizeMembers]
    omega

/-- a call of `Strip` leaves what the next one needs -/
theorem strip_next {h : Heap} (hw : h.Wf) {n : Node} {r : Ref} (hd : n.document h = some r) (hs : NoSharing (h r)) {fuel : Nat} {k : Bytes} {h' : Heap}
    (he : n.strip h fuel k = some h') : h'.Wf ∧ n.document h' = some r ∧ NoSharing (h' r) := by
  obtain ⟨ha, hw'⟩ := abs_nstrip hw fuel n k
  rw [he] at ha
  have hw' := hw' _ he
  rw [abs_document] at hd ⊢
  simp only [Option.map_some] at ha
  unfold A.nstrip at ha
  rw [hd] at ha
  simp only at ha
  cases hc : A.strip k fuel (h.abs r).nodes n.id with
  | none => rw [hc] at ha; simp at ha
  | some l' =>
    rw [hc] at ha
    simp only [Option.some.injEq] at ha
    refine ⟨hw', ?_, refs_noSharing ?_⟩
    · have hdoc := document_doc hd
      rw [ha]
      unfold A.document at hd ⊢
      rw [hdoc] at hd ⊢
      simpa [AH.set] using hd
    · rw [ha]
      simpa [AH.set] using (shr_strip k fuel _ _ _ hc).nodup (noSharing_refs hs)

/-- **C153, exact behaviour**: any number of calls of `Strip` with one key all return, and leave the tree that results from
stripping as often. -/
theorem C153_times (n : Node) (r : Ref) (k : Bytes) (fuel : Nat) : ∀ (m : Nat) (h : Heap) (t : JVal), h.Wf → n.document h = some r → NoSharing (h r) →
    Tree h n t → t.size ≤ fuel → ∃ h', stripTimes n fuel k m h = some h' ∧ Tree h' n (t.strippedTimes k m) ∧ h'.Wf ∧ n.document h' = some r ∧ NoSharing (h' r)
  | 0, h, t, hw, hd, hs, ht, _ => ⟨h, rfl, ht, hw, hd, hs⟩
  | m + 1, h, t, hw, hd, hs, ht, hf => by
    obtain ⟨h1, e1, t1⟩ := C33_strip_exact h hw n r hd hs t ht k fuel hf
    obtain ⟨w1, d1, s1⟩ := strip_next hw hd hs e1
    obtain ⟨h2, e2, t2⟩ := C153_times n r k fuel m h1 _ w1 d1 s1 t1 (Nat.le_trans ((stripped_size k).1 t) hf)
    exact ⟨h2, by simp only [stripTimes, e1]; exact e2, t2⟩

theorem strippedTimes_most (k : Bytes) : ∀ (m : Nat) (t : JVal), (t.strippedTimes k m).most k ≤ t.most k - m
  | 0, t => Nat.le_refl _
  | m + 1, t => by
    have h1 := strippedTimes_most k m (t.stripped k)
    have h2 := (stripped_most k).1 t
    simp only [JVal.strippedTimes]
    omega

/-- **C153, when a call changes nothing**: `Strip` leaves the tree of the node as it is exactly if no object of it has the
key, other than inside arrays. -/
theorem C153_fixed (h : Heap) (hw : h.Wf) (n : Node) (r : Ref) (hd : n.document h = some r) (hs : NoSharing (h r)) (t : JVal)
    (ht : Tree h n t) (k : Bytes) (fuel : Nat) (hf : t.size ≤ fuel) : ∃ h', n.strip h fuel k = some h' ∧ (Tree h' n t ↔ NoKeyOut k t) := by
  obtain ⟨h', e, t'⟩ := C33_strip_exact h hw n r hd hs t ht k fuel hf
  refine ⟨h', e, fun h1 => ?_, fun h1 => ?_⟩
  · have he := tree_unique h1 t'
    have := (stripped_most k).1 t
    rw [← he] at this
    exact ((most_zero k).1 t).1 (by omega)
  · rw [(stripped_out k).1 t h1] at t'; exact t'

/-- **C153, how many calls are needed**: as many as one object has members with the key. No object has it then, other than
inside arrays, and one more call changes nothing. -/
theorem C153_enough (h : Heap) (hw : h.Wf) (n : Node) (r : Ref) (hd : n.document h = some r) (hs : NoSharing (h r)) (t : JVal)
    (ht : Tree h n t) (k : Bytes) (fuel : Nat) (hf : t.size ≤ fuel) (m : Nat) (hm : t.most k ≤ m) :
    ∃ h1 h2 t', stripTimes n fuel k m h = some h1 ∧ Tree h1 n t' ∧ NoKeyOut k t' ∧ stripTimes n fuel k (m + 1) h = some h2 ∧ Tree h2 n t' := by
  obtain ⟨h1, e1, t1, _⟩ := C153_times n r k fuel m h t hw hd hs ht hf
  obtain ⟨h2, e2, t2, _⟩ := C153_times n r k fuel (m + 1) h t hw hd hs ht hf
  have hz : NoKeyOut k (t.strippedTimes k m) := ((most_zero k).1 _).1 (by have := strippedTimes_most k m t; omega)
  refine ⟨h1, h2, _, e1, t1, hz, e2, ?_⟩
  have : ∀ (m : Nat) (t : JVal), t.strippedTimes k (m + 1) = (t.strippedTimes k m).stripped k := by
    intro m
    induction m with
    | zero => intro t; rfl
    | succ m ih => intro t; exact ih (t.stripped k)
  rw [this, (stripped_out k).1 _ hz] at t2
  exact t2

/-- **C153 (partial)**: if no object (other than inside arrays) has the key more than once, a second call of `Strip` leaves
the tree that the first has left. Missing: objects with the key twice (`C153_false`). -/
theorem C153_again_partial (h : Heap) (hw : h.Wf) (n : Node) (r : Ref) (hd : n.document h = some r) (hs : NoSharing (h r)) (t : JVal)
    (ht : Tree h n t) (k : Bytes) (fuel : Nat) (hf : t.size ≤ fuel) (hm : t.most k ≤ 1) :
    ∃ h1 h2 t', n.strip h fuel k = some h1 ∧ Tree h1 n t' ∧ n.strip h1 fuel k = some h2 ∧ Tree h2 n t' := by
  obtain ⟨h1, h2, t', a, b, _, c, d⟩ := C153_enough h hw n r hd hs t ht k fuel hf 1 hm
  simp only [stripTimes] at a c
  cases e : n.strip h fuel k with
  | none => rw [e] at a; simp at a
  | some g =>
    rw [e] at a c
    simp at a c
    subst a
    refine ⟨g, h2, t', rfl, b, ?_, d⟩
    cases e' : n.strip g fuel k with
    | none => rw [e'] at c; simp at c
    | some g' => rw [e'] at c; simpa using c

/-- **C153 is false**: of `{"a":1,"b":2,"a":3}` the second call removes the second member with the key. -/
theorem C153_false : ¬ ∀ (h : Heap) (n : Node) (r : Ref) (t : JVal) (k : Bytes) (fuel : Nat) (h1 h2 : Heap) (t' : JVal), h.Wf → n.document h = some r →
    NoSharing (h r) → Tree h n t → t.size ≤ fuel → n.strip h fuel k = some h1 → Tree h1 n t' → n.strip h1 fuel k = some h2 → Tree h2 n t' := by
  intro hall
  have hd : (⟨0, 0, some 0⟩ : Node).document stripDup = some 0 := by decide +kernel
  obtain ⟨h1, e1, t1⟩ := C33_strip_exact stripDup strip_dup_wf _ 0 hd strip_dup_sharing _ strip_dup_tree b!"a" 20 (by decide +kernel)
  obtain ⟨w1, d1, s1⟩ := strip_next strip_dup_wf hd strip_dup_sharing e1
  obtain ⟨h2, e2, hi⟩ := C153_fixed h1 w1 _ 0 d1 s1 _ t1 b!"a" 20 (by decide +kernel)
  have := hi.1 (hall _ _ _ _ _ _ _ _ _ strip_dup_wf hd strip_dup_sharing strip_dup_tree (by decide +kernel) e1 t1 e2)
  exact this.1 rfl

/-! ### the hypotheses can be met -/

example : (JVal.obj [(b!"a", .num b!"1"), (b!"b", .num b!"2"), (b!"a", .num b!"3")]).most b!"a" = 2 := by decide +kernel
example : (JVal.obj [(b!"x", .obj [(b!"a", .arr [.num b!"1"]), (b!"y", .obj [(b!"a", .null)])]), (b!"a", .num b!"1"),
    (b!"b", .arr [.obj [(b!"a", .num b!"2"), (b!"a", .null)]])]).most b!"a" ≤ 1 := by decide +kernel

-- one call and two calls of `Strip`, on the object with the key twice and on one without
example : (runOps 20 [.strip ⟨0, 0, some 0⟩ b!"a", .json ⟨0, 0, some 0⟩ [], .strip ⟨0, 0, some 0⟩ b!"a", .json ⟨0, 0, some 0⟩ [], .strip ⟨0, 0, some 0⟩ b!"a",
    .json ⟨0, 0, some 0⟩ []] stripDup).map (·.2) =
    some [.unit, .json (b!"{\"a\":3,\"b\":2}", false), .unit, .json (b!"{\"b\":2}", false), .unit, .json (b!"{\"b\":2}", false)] := by decide +kernel

end Verif.Props
