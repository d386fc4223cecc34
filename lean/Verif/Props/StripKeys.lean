import Verif.Spec.StripKeys
import Verif.Props.StripAgain

/-!
# Property C154: `Strip` called with several keys

False as stated: of an object that has a key more than once it depends on the order of the calls which of the members is
left. `C154_order_partial` is the property for trees on which each of the calls does what it should (`StripOk`, C33).
-/

namespace Verif.Props
open Verif Verif.Spec Verif.Njson

/-! ### trees that are equal up to the order of members -/

theorem sameMembers_perm {ns ns' : List (Bytes × JVal)} (hp : ns.Perm ns') : ∀ {ms : List (Bytes × JVal)}, SameMembers ms ns →
    ∃ ms', ms.Perm ms' ∧ SameMembers ms' ns' := by
  induction hp with
  | nil => intro ms h; exact ⟨ms, .refl _, h⟩
  | cons x _ ih =>
    intro ms h
    cases h with
    | cons h1 h2 =>
      obtain ⟨ms', a, b⟩ := ih h2
      exact ⟨_, a.cons _, .cons h1 b⟩
  | swap x y l =>
    intro ms h
    cases h with
    | cons h1 h2 =>
      cases h2 with
      | cons h3 h4 => exact ⟨_, .swap _ _ _, .cons h3 (.cons h1 h4)⟩
  | trans _ _ ih1 ih2 =>
    intro ms h
    obtain ⟨m1, a, b⟩ := ih1 h
    obtain ⟨m2, c, d⟩ := ih2 b
    exact ⟨m2, a.trans c, d⟩

theorem sameMembers_trans {ms : List (Bytes × JVal)} : ∀ {ns ps : List (Bytes × JVal)},
    (∀ m ∈ ms, ∀ b c, SameUpToOrder m.2 b → SameUpToOrder b c → SameUpToOrder m.2 c) → SameMembers ms ns → SameMembers ns ps → SameMembers ms ps := by
  induction ms with
  | nil => intro ns ps _ h1 h2; cases h1; exact h2
  | cons m ms ih =>
    intro ns ps hm h1 h2
    cases h1 with
    | cons a b =>
      cases h2 with
      | cons c d => exact .cons (hm _ List.mem_cons_self _ _ a c) (ih (fun m h => hm m (by simp [h])) b d)

theorem same_trans_all : (∀ a b c : JVal, SameUpToOrder a b → SameUpToOrder b c → SameUpToOrder a c) ∧
    (∀ xs ys zs : List JVal, SameElems xs ys → SameElems ys zs → SameElems xs zs) ∧
    (∀ ms : List (Bytes × JVal), ∀ m ∈ ms, ∀ b c, SameUpToOrder m.2 b → SameUpToOrder b c → SameUpToOrder m.2 c) := by
  apply jval_ind
  · intro b c h1 h2; cases h1; exact h2
  · intro _ b c h1 h2; cases h1; exact h2
  · intro _ b c h1 h2; cases h1; exact h2
  · intro _ b c h1 h2; cases h1; exact h2
  · intro xs ih b c h1 h2
    cases h1 with
    | refl => exact h2
    | arr h1 =>
      cases h2 with
      | refl => exact .arr h1
      | arr h2 => exact .arr (ih _ _ h1 h2)
  · intro ms ih b c h1 h2
    cases h1 with
    | refl => exact h2
    | obj p1 s1 =>
      cases h2 with
      | refl => exact .obj p1 s1
      | obj p2 s2 =>
        obtain ⟨m2, q1, q2⟩ := sameMembers_perm p2 s1
        have hp := p1.trans q1
        exact .obj hp (sameMembers_trans (fun m hm => ih m (hp.symm.subset hm)) q2 s2)
  · intro ys zs h1 h2; cases h1; exact h2
  · intro x xs ih1 ih2 ys zs h1 h2
    cases h1 with
    | cons a b =>
      cases h2 with
      | cons c d => exact .cons (ih1 _ _ a c) (ih2 _ _ b d)
  · simp
  · intro k x ms h1 h2 m hm
    rcases List.mem_cons.1 hm with rfl | hm
    · exact h1
    · exact h2 m hm

theorem sameMembers_symm {ms : List (Bytes × JVal)} : ∀ {ns : List (Bytes × JVal)},
    (∀ m ∈ ms, ∀ b, SameUpToOrder m.2 b → SameUpToOrder b m.2) → SameMembers ms ns → SameMembers ns ms := by
  induction ms with
  | nil => intro ns _ h1; cases h1; exact .nil
  | cons m ms ih =>
    intro ns hm h1
    cases h1 with
    | cons a b => exact .cons (hm _ List.mem_cons_self _ a) (ih (fun m h => hm m (by simp [h])) b)

theorem same_symm_all : (∀ a b : JVal, SameUpToOrder a b → SameUpToOrder b a) ∧
    (∀ xs ys : List JVal, SameElems xs ys → SameElems ys xs) ∧
    (∀ ms : List (Bytes × JVal), ∀ m ∈ ms, ∀ b, SameUpToOrder m.2 b → SameUpToOrder b m.2) := by
  apply jval_ind
  · intro b h1; cases h1; exact .refl _
  · intro _ b h1; cases h1; exact .refl _
  · intro _ b h1; cases h1; exact .refl _
  · intro _ b h1; cases h1; exact .refl _
  · intro xs ih b h1
    cases h1 with
    | refl => exact .refl _
    | arr h1 => exact .arr (ih _ h1)
  · intro ms ih b h1
    cases h1 with
    | refl => exact .refl _
    | obj p1 s1 =>
      have := sameMembers_symm (fun m hm => ih m (p1.symm.subset hm)) s1
      obtain ⟨n2, q1, q2⟩ := sameMembers_perm p1.symm this
      exact .obj q1 q2
  · intro ys h1; cases h1; exact .nil
  · intro x xs ih1 ih2 ys h1
    cases h1 with
    | cons a b => exact .cons (ih1 _ a) (ih2 _ b)
  · simp
  · intro k x ms h1 h2 m hm
    rcases List.mem_cons.1 hm with rfl | hm
    · exact h1
    · exact h2 m hm

/-! ### trees without a key -/

theorem withoutMembers_eq (k : Bytes) (ms : List (Bytes × JVal)) :
    withoutMembers k ms = (ms.filter fun m => m.1 ≠ k).map fun m => (m.1, m.2.without k) := by
  induction ms with
  | nil => rfl
  | cons m ms ih =>
    obtain ⟨k', x⟩ := m
    by_cases h : k' = k <;> simp [withoutMembers, h, ih]

theorem sameMembers_without {k : Bytes} {ms : List (Bytes × JVal)} : ∀ {ns : List (Bytes × JVal)},
    (∀ m ∈ ms, ∀ b, SameUpToOrder m.2 b → SameUpToOrder (m.2.without k) (b.without k)) → SameMembers ms ns →
    SameMembers (withoutMembers k ms) (withoutMembers k ns) := by
  induction ms with
  | nil => intro ns _ h1; cases h1; exact .nil
  | cons m ms ih =>
    intro ns hm h1
    cases h1 with
    | @cons k' x y _ _ a b =>
      have := ih (fun m h => hm m (by simp [h])) b
      by_cases h : k' = k
      · simpa [withoutMembers, h] using this
      · simp only [withoutMembers, if_neg h]
        exact .cons (hm (k', x) (by simp) _ a) this

theorem without_cong_all (k : Bytes) : (∀ a b : JVal, SameUpToOrder a b → SameUpToOrder (a.without k) (b.without k)) ∧
    (∀ xs ys : List JVal, SameElems xs ys → SameElems (withoutElems k xs) (withoutElems k ys)) ∧
    (∀ ms : List (Bytes × JVal), ∀ m ∈ ms, ∀ b, SameUpToOrder m.2 b → SameUpToOrder (m.2.without k) (b.without k)) := by
  apply jval_ind
  · intro b h1; cases h1; exact .refl _
  · intro _ b h1; cases h1; exact .refl _
  · intro _ b h1; cases h1; exact .refl _
  · intro _ b h1; cases h1; exact .refl _
  · intro xs ih b h1
    cases h1 with
    | refl => exact .refl _
    | arr h1 => exact .arr (ih _ h1)
  · intro ms ih b h1
    cases h1 with
    | refl => exact .refl _
    | obj p1 s1 =>
      simp only [JVal.without]
      refine .obj ?_ (sameMembers_without (fun m hm => ih m (p1.symm.subset hm)) s1)
      rw [withoutMembers_eq, withoutMembers_eq]
      exact (p1.filter _).map _
  · intro ys h1; cases h1; exact .nil
  · intro x xs ih1 ih2 ys h1
    cases h1 with
    | cons a b => exact .cons (ih1 _ a) (ih2 _ b)
  · simp
  · intro k x ms h1 h2 m hm
    rcases List.mem_cons.1 hm with rfl | hm
    · exact h1
    · exact h2 m hm

theorem without_comm_all (k l : Bytes) : (∀ a : JVal, (a.without k).without l = (a.without l).without k) ∧
    (∀ xs : List JVal, withoutElems l (withoutElems k xs) = withoutElems k (withoutElems l xs)) ∧
    (∀ ms : List (Bytes × JVal), withoutMembers l (withoutMembers k ms) = withoutMembers k (withoutMembers l ms)) := by
  apply jval_ind
  · rfl
  · intro _; rfl
  · intro _; rfl
  · intro _; rfl
  · intro xs ih; simp only [JVal.without]; rw [ih]
  · intro xs ih; simp only [JVal.without]; rw [ih]
  · rfl
  · intro x xs h1 h2; simp only [withoutElems]; rw [h1, h2]
  · rfl
  · intro k' x ms h1 h2
    by_cases a : k' = k <;> by_cases b : k' = l <;> simp [withoutMembers, a, b, h2, h1] <;> (try subst a) <;> (try subst b) <;>
      simp_all [withoutMembers]

theorem withoutAll_perm {ks ls : List Bytes} (hp : ks.Perm ls) : ∀ t : JVal, t.withoutAll ks = t.withoutAll ls := by
  induction hp with
  | nil => intro t; rfl
  | cons x _ ih => intro t; exact ih _
  | swap x y l => intro t; simp only [JVal.withoutAll]; rw [(without_comm_all _ _).1]
  | trans _ _ h1 h2 => intro t; rw [h1, h2]

theorem withoutAll_cong : ∀ (ks : List Bytes) (a b : JVal), SameUpToOrder a b → SameUpToOrder (a.withoutAll ks) (b.withoutAll ks)
  | [], _, _, h => h
  | k :: ks, a, b, h => withoutAll_cong ks _ _ ((without_cong_all k).1 a b h)

theorem stripOkMembers_iff {k : Bytes} : ∀ {ms : List (Bytes × JVal)}, StripOkMembers k ms ↔ ∀ m ∈ ms, m.1 = k ∨ StripOk k m.2
  | [] => by simp [StripOkMembers]
  | (k', x) :: ms => by simp only [StripOkMembers, List.forall_mem_cons, ← stripOkMembers_iff (ms := ms)]

theorem delSwap_filter {α : Type} (k : Bytes) (p : Bytes × α → Bool) (l : List (Bytes × α)) : ((delSwap k l).filter p).length ≤ (l.filter p).length := by
  rcases delSwap_cases k l with ⟨_, h2⟩ | ⟨x, hx⟩
  · rw [h2]; exact Nat.le_refl _
  · rw [(hx.filter p).length_eq, List.filter_cons]
    split
    · simp
    · exact Nat.le_refl _

/-- stripping one key leaves the tree fit for stripping another one -/
theorem stripOk_stripped (k l : Bytes) : (∀ t : JVal, StripOk l t → StripOk l (t.stripped k)) ∧ (∀ _ : List JVal, True) ∧
    (∀ ms : List (Bytes × JVal), ∀ m ∈ ms, StripOk l m.2 → StripOk l (m.2.stripped k)) := by
  apply jval_ind
  · intro h; exact h
  · intro _ h; exact h
  · intro _ h; exact h
  · intro _ h; exact h
  · intro _ _ h; exact h
  · intro ms ih h
    simp only [JVal.stripped]
    obtain ⟨h1, h2⟩ := h
    rw [stripOkMembers_iff] at h2
    refine ⟨?_, stripOkMembers_iff.2 ?_⟩
    · refine Nat.le_trans (delSwap_filter k _ _) ?_
      rw [strippedMembers_eq, List.filter_map, List.length_map]
      exact h1
    · intro m hm
      have := delSwap_mem hm
      rw [strippedMembers_eq] at this
      obtain ⟨m0, hm0, rfl⟩ := List.mem_map.1 this
      exact (h2 m0 hm0).imp id (ih m0 hm0)
  · trivial
  · intros; trivial
  · simp
  · intro k' x ms h1 h2 m hm
    rcases List.mem_cons.1 hm with rfl | hm
    · exact h1
    · exact h2 m hm

theorem stripKeys_tree (n : Node) (r : Ref) (fuel : Nat) : ∀ (ks : List Bytes) (h : Heap) (t : JVal), h.Wf → n.document h = some r → NoSharing (h r) →
    Tree h n t → t.size ≤ fuel → (∀ k ∈ ks, StripOk k t) → ∃ h' t', stripKeys n fuel ks h = some h' ∧ Tree h' n t' ∧ SameUpToOrder t' (t.withoutAll ks)
  | [], h, t, _, _, _, ht, _, _ => ⟨h, t, rfl, ht, .refl _⟩
  | k :: ks, h, t, hw, hd, hs, ht, hf, hok => by
    obtain ⟨h1, e1, t1⟩ := C33_strip_exact h hw n r hd hs t ht k fuel hf
    obtain ⟨w1, d1, s1⟩ := strip_next hw hd hs e1
    obtain ⟨h2, t2, e2, a2, b2⟩ := stripKeys_tree n r fuel ks h1 _ w1 d1 s1 t1 (Nat.le_trans ((stripped_size k).1 t) hf)
      (fun l hl => (stripOk_stripped k l).1 t (hok l (by simp [hl])))
    refine ⟨h2, t2, by simp only [stripKeys, e1]; exact e2, a2, ?_⟩
    exact same_trans_all.1 _ _ _ b2 (withoutAll_cong ks _ _ ((stripped_same_all k).1 t (hok k (by simp))))

/-- **C154, what several calls leave (partial)**: the tree without the keys, up to the order of members. Missing: trees with
an object that has one of the keys more than once, or has it inside an array (`C154_false`). -/
theorem C154_removes_partial (h : Heap) (hw : h.Wf) (n : Node) (r : Ref) (hd : n.document h = some r) (hs : NoSharing (h r)) (t : JVal)
    (ht : Tree h n t) (ks : List Bytes) (hok : ∀ k ∈ ks, StripOk k t) (fuel : Nat) (hf : t.size ≤ fuel) :
    ∃ h' t', stripKeys n fuel ks h = some h' ∧ Tree h' n t' ∧ SameUpToOrder t' (t.withoutAll ks) :=
  stripKeys_tree n r fuel ks h t hw hd hs ht hf hok

/-- **C154 (partial)**: the order of the calls does not matter. Missing: as in `C154_removes_partial`. -/
theorem C154_order_partial (h : Heap) (hw : h.Wf) (n : Node) (r : Ref) (hd : n.document h = some r) (hs : NoSharing (h r)) (t : JVal)
    (ht : Tree h n t) (ks ls : List Bytes) (hp : ks.Perm ls) (hok : ∀ k ∈ ks, StripOk k t) (fuel : Nat) (hf : t.size ≤ fuel) :
    ∃ h1 h2 t1 t2, stripKeys n fuel ks h = some h1 ∧ stripKeys n fuel ls h = some h2 ∧ Tree h1 n t1 ∧ Tree h2 n t2 ∧ SameUpToOrder t1 t2 := by
  obtain ⟨h1, t1, e1, a1, b1⟩ := stripKeys_tree n r fuel ks h t hw hd hs ht hf hok
  obtain ⟨h2, t2, e2, a2, b2⟩ := stripKeys_tree n r fuel ls h t hw hd hs ht hf (fun k hk => hok k (hp.symm.subset hk))
  refine ⟨h1, h2, t1, t2, e1, e2, a1, a2, same_trans_all.1 _ _ _ b1 ?_⟩
  rw [withoutAll_perm hp]
  exact same_symm_all.1 _ _ b2

/-! ### the claim is false of objects with duplicate keys -/

/-- `{"b":0,"a":1,"a":2}` -/
def keysDup : Heap := fun _ => (Doc.empty.parse b!"{\"b\":0,\"a\":1,\"a\":2}").1

theorem keys_dup_tree : Tree keysDup ⟨0, 0, some 0⟩ (.obj [(b!"b", .num b!"0"), (b!"a", .num b!"1"), (b!"a", .num b!"2")]) := by
  refine ⟨0, by decide +kernel, [⟨1, b!"b"⟩, ⟨2, b!"a"⟩, ⟨3, b!"a"⟩], by decide +kernel, ?_⟩
  exact ⟨_, _, rfl, by simp only [Reps]; decide +kernel, _, _, rfl, by simp only [Reps]; decide +kernel, _, _, rfl, by simp only [Reps]; decide +kernel, rfl⟩

theorem keys_dup_wf : keysDup.Wf := fun _ => by
  show (Doc.empty.parse b!"{\"b\":0,\"a\":1,\"a\":2}").1.len ≤ (Doc.empty.parse b!"{\"b\":0,\"a\":1,\"a\":2}").1.arr.length; decide +kernel

theorem keys_dup_sharing : NoSharing (keysDup 0) := refs_noSharing (by decide +kernel)

theorem strip_two {h : Heap} {n : Node} {r : Ref} {t : JVal} {fuel : Nat} (k l : Bytes) (hw : h.Wf) (hd : n.document h = some r) (hs : NoSharing (h r))
    (ht : Tree h n t) (hf : t.size ≤ fuel) : ∃ h', stripKeys n fuel [k, l] h = some h' ∧ Tree h' n ((t.stripped k).stripped l) := by
  obtain ⟨h1, e1, t1⟩ := C33_strip_exact h hw n r hd hs t ht k fuel hf
  obtain ⟨w1, d1, s1⟩ := strip_next hw hd hs e1
  obtain ⟨h2, e2, t2⟩ := C33_strip_exact h1 w1 n r d1 s1 _ t1 l fuel (Nat.le_trans ((stripped_size k).1 t) hf)
  exact ⟨h2, by simp [stripKeys, e1, e2], t2⟩

/-- **C154 is false**: of `{"b":0,"a":1,"a":2}` the calls for `b` and `a` leave `{"a":1}`, those for `a` and `b` leave
`{"a":2}`. -/
theorem C154_false : ¬ ∀ (h : Heap) (n : Node) (r : Ref) (t : JVal) (k l : Bytes) (fuel : Nat) (h1 h2 : Heap) (t1 t2 : JVal), h.Wf →
    n.document h = some r → NoSharing (h r) → Tree h n t → t.size ≤ fuel → stripKeys n fuel [k, l] h = some h1 → stripKeys n fuel [l, k] h = some h2 →
    Tree h1 n t1 → Tree h2 n t2 → SameUpToOrder t1 t2 := by
  intro hall
  have hd : (⟨0, 0, some 0⟩ : Node).document keysDup = some 0 := by decide +kernel
  obtain ⟨h1, e1, a1⟩ := strip_two (fuel := 20) b!"b" b!"a" keys_dup_wf hd keys_dup_sharing keys_dup_tree (by decide +kernel)
  obtain ⟨h2, e2, a2⟩ := strip_two (fuel := 20) b!"a" b!"b" keys_dup_wf hd keys_dup_sharing keys_dup_tree (by decide +kernel)
  have := hall _ _ _ _ _ _ _ _ _ _ _ keys_dup_wf hd keys_dup_sharing keys_dup_tree (by decide +kernel) e1 e2 a1 a2
  have hne : ¬ SameUpToOrder (.obj [(b!"a", .num b!"1")]) (.obj [(b!"a", .num b!"2")]) := by
    intro h
    cases h with
    | obj p s =>
      rw [List.singleton_perm.1 p |> Eq.symm] at s
      cases s with
      | cons h _ => cases h
  exact hne this

/-! ### the hypotheses can be met -/

example : ∀ k ∈ [b!"a", b!"y"], StripOk k (.obj [(b!"x", .obj [(b!"a", .arr [.num b!"1"]), (b!"y", .obj [(b!"a", .null)])]), (b!"a", .num b!"1"),
    (b!"b", .arr [.obj [(b!"c", .num b!"2")]])]) := by
  simp [StripOk, StripOkMembers, NoKeyElems, NoKey, NoKeyMembers]

-- the calls in both orders
example : (runOps 20 [.strip ⟨0, 0, some 0⟩ b!"a", .strip ⟨0, 0, some 0⟩ b!"y", .json ⟨0, 0, some 0⟩ []] stripGood).map (·.2) =
    some [.unit, .unit, .json (b!"{\"x\":{},\"b\":[{\"c\":2}]}", false)] := by decide +kernel
example : (runOps 20 [.strip ⟨0, 0, some 0⟩ b!"y", .strip ⟨0, 0, some 0⟩ b!"a", .json ⟨0, 0, some 0⟩ []] stripGood).map (·.2) =
    some [.unit, .unit, .json (b!"{\"x\":{},\"b\":[{\"c\":2}]}", false)] := by decide +kernel

end Verif.Props
