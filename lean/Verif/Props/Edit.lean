import Verif.Props.Doc

/-!
# Properties C22–C25: edits of objects and arrays

Each theorem gives the tree of the edited node after the call, as an edit of its tree before. `Insertable h n v`
is the part of the statement "values that do not contain the target" that the code needs: inserting a *copy* of a
value that contains the target is fine. Fuel is the recursion budget; every value from the size of the inserted
tree on gives the same result.
-/

namespace Verif.Props
open Verif Verif.Spec Verif.Njson

theorem insertable_abs {h : Heap} {n v : Node} {r r' : Ref} (hd : n.document h = some r) (hdv : v.document h = some r')
    (hi : Insertable h n v) : AInsertable h.abs r n.id r' v.id := by
  rintro ⟨⟨rfl, h1, h2, x, hx, hx'⟩, hr⟩
  apply hi
  refine ⟨?_, r', hdv, hd, by rw [abs_cont]; exact hr⟩
  have hg := abs_getOf h (some r') v.id
  rw [show A.getOf h.abs (some r') v.id = some x from hx] at hg
  cases hg' : getOf h (some r') v.id with
  | none => rw [hg'] at hg; simp at hg
  | some d =>
    rw [hg'] at hg; simp at hg
    refine ⟨r', d, hd, hdv, h1, h2, hg', ?_⟩
    rw [← hg] at hx'; exact hx'

theorem commutes_some {c : Option Heap} {a : Option AH} {x : AH} (hc : Commutes c a) (ha : a = some x) :
    ∃ h', c = some h' ∧ h'.abs = x ∧ h'.Wf := by
  cases c with
  | none => have := hc.1; rw [ha] at this; simp at this
  | some h' =>
    have := hc.1; rw [ha] at this; simp at this
    exact ⟨h', rfl, this, hc.2 h' rfl⟩

theorem abs_len {h : Heap} (hw : h.Wf) (r : Ref) : (h.abs r).nodes.length = (h r).len := view_length (hw r)

/-! ## C22 -/

/-- **C22, Set**: the object's first member with the key gets the value's tree, or a member is added at the end;
nothing else of the object changes. -/
theorem C22_set (h : Heap) (hw : h.Wf) (fuel : Nat) (n v : Node) (ms : List (Bytes × JVal)) (k : Bytes) (t : JVal)
    (hn : Tree h n (.obj ms)) (hv : Tree h v t) (hi : Insertable h n v) (hlen : ∀ r, (h r).len < maxUint) (hf : t.size ≤ fuel) :
    ∃ h', n.set h fuel k v = some h' ∧ Tree h' n (.obj (assocSet ms k t)) := by
  obtain ⟨r, hd, hr⟩ := hn
  obtain ⟨r', hdv, hrv⟩ := hv
  rw [abs_cont] at hr hrv
  obtain ⟨a', a1, id1, f, e1, e2, e3, vs, e4, e5, e6⟩ := nset_tree (a := h.abs) (fuel := fuel) k hd hr hdv hrv (insertable_abs hd hdv hi)
    (by rw [abs_len hw]; exact hlen r) hf
  obtain ⟨h', g1, g2, g3⟩ := commutes_some (abs_nset hw fuel n k v) e1
  refine ⟨h', g1, r, ?_, ?_⟩
  · rw [abs_document, g2, e3, modify_document, e2.document]; exact hd
  · rw [abs_cont, g2]; exact e6

theorem assocGet_set (ms : List (Bytes × JVal)) (k : Bytes) (t : JVal) :
    assocGet (assocSet ms k t) k = some t ∧ (∀ k', k' ≠ k → assocGet (assocSet ms k t) k' = assocGet ms k') ∧
    (assocSet ms k t).length = (if assocGet ms k = none then ms.length + 1 else ms.length) := by
  induction ms with
  | nil => simp [assocSet, assocGet]; intro k' hk he; exact absurd he.symm hk
  | cons m ms ih =>
    obtain ⟨k', x⟩ := m
    obtain ⟨h1, h2, h3⟩ := ih
    by_cases hk : k' = k
    · subst hk
      simp [assocSet, assocGet]
      intro k'' hne
      rw [if_neg (fun e => hne e.symm), if_neg (fun e => hne e.symm)]
    · refine ⟨by simp [assocSet, assocGet, hk, h1], ?_, ?_⟩
      · intro k'' hne
        simp [assocSet, assocGet, hk]
        split
        · rfl
        · exact h2 k'' hne
      · simp [assocSet, assocGet, hk, h3]; split <;> rfl

/-- **C22, Set then Get**: `Get(k)` gives the inserted value's tree, every other key gives what it gave before, and the
number of members grows by one exactly when the key was absent. -/
theorem C22_set_get (h : Heap) (hw : h.Wf) (fuel : Nat) (n v : Node) (ms : List (Bytes × JVal)) (k : Bytes) (t : JVal)
    (hn : Tree h n (.obj ms)) (hv : Tree h v t) (hi : Insertable h n v) (hlen : ∀ r, (h r).len < maxUint) (hf : t.size ≤ fuel) :
    ∃ h', n.set h fuel k v = some h' ∧
      ((∀ r, (h' r).len ≤ maxUint) → Tree h' (n.getKey h' k) t ∧
        ∀ k', k' ≠ k → match assocGet ms k' with | some x => Tree h' (n.getKey h' k') x | none => Dead h' (n.getKey h' k')) ∧
      (n.values h').length = (if assocGet ms k = none then (n.values h).length + 1 else (n.values h).length) := by
  obtain ⟨h', h1, h2⟩ := C22_set h hw fuel n v ms k t hn hv hi hlen hf
  obtain ⟨a1, a2, a3⟩ := assocGet_set ms k t
  refine ⟨h', h1, fun hl => ⟨?_, ?_⟩, ?_⟩
  · have := C19_get h' n _ k h2 hl
    rw [a1] at this; exact this
  · intro k' hk
    have := C19_get h' n _ k' h2 hl
    rw [a2 k' hk] at this; exact this
  · rw [(C19_values_object h' n _ h2).1, (C19_values_object h n _ hn).1, a3]

-- set an absent and a present key of the parsed object, with a value that contains the target (copied, since it is node 0)
example : (runOps 12 [.set ⟨3, 0, some 0⟩ b!"z" ⟨0, 0, some 0⟩, .set ⟨3, 0, some 0⟩ b!"b" ⟨5, 0, some 0⟩, .json ⟨3, 0, some 0⟩ []]
    parsedHeap).map (·.2) =
    some [.unit, .unit, .json (b!"{\"b\":null,\"z\":{\"a\":[1,{\"b\":\"x\"}],\"c\":null,\"a\":true}}", false)] := by decide +kernel
-- `Insertable` holds there: node 0 is never adopted
example : Insertable parsedHeap ⟨3, 0, some 0⟩ ⟨0, 0, some 0⟩ := by rintro ⟨⟨r, d, _, _, _, h, _⟩, _⟩; exact h rfl

/-! ## C23 -/

theorem findIdx_key {g : Nat → Option Cont} (k : Bytes) : ∀ {ms : List (Bytes × JVal)} {vs : List V}, RepsMembers g ms vs →
    vs.findIdx? (fun v => v.key = k) = ms.findIdx? (fun m => m.1 = k)
  | [], vs, h => by simp only [RepsMembers] at h; subst h; rfl
  | (k', x) :: ms, vs, h => by
    obtain ⟨i, vs', rfl, h1, h2⟩ := h
    simp only [List.findIdx?_cons]
    rw [findIdx_key k h2]

theorem assocDel_erase (k : Bytes) : ∀ (ms : List (Bytes × JVal)), assocDel ms k =
    match ms.findIdx? (fun m => m.1 = k) with | some i => ms.eraseIdx i | none => ms
  | [] => rfl
  | (k', x) :: ms => by
    simp only [assocDel, List.findIdx?_cons]
    by_cases hk : k' = k
    · simp [hk]
    · simp only [hk, if_false, decide_false, Bool.false_eq_true]
      rw [assocDel_erase k ms]
      cases ms.findIdx? (fun m => decide (m.1 = k)) <;> simp

/-- **C23, Del**: the members afterwards are, as a multiset, those before without the first one with the key; without
such a member nothing changes. -/
theorem C23_del (h : Heap) (hw : h.Wf) (n : Node) (ms : List (Bytes × JVal)) (k : Bytes) (hn : Tree h n (.obj ms)) :
    ∃ ms', Tree (n.del h k) n (.obj ms') ∧ ms'.Perm (assocDel ms k) ∧ (assocGet ms k = none → ms' = ms) := by
  obtain ⟨r, hd, hr⟩ := hn
  rw [abs_cont] at hr
  have hr0 := hr
  obtain ⟨vs, hc, hms⟩ := hr
  obtain ⟨hlen, _⟩ := repsMembers_iff.1 hms
  have hidx := findIdx_key k hms
  have habs := (abs_del hw n k).2
  have hdoc : n.document (n.del h k) = some r := by
    rw [abs_document, habs]
    rcases local_update h.abs n (A.delF k) with he | ⟨r', _, hl⟩
    · rw [he]; exact hd
    · rw [hl.document]; exact hd
  cases hi : ms.findIdx? (fun m => m.1 = k) with
  | none =>
    refine ⟨ms, ⟨r, hdoc, ?_⟩, ?_, fun _ => rfl⟩
    · rw [abs_cont, habs]
      refine (update_tree (a := h.abs) (vs' := vs) (typ := tObject) hd hr0 hc ?_ ?_).2.2
      · intro x hx
        unfold A.delF
        have hv : x.vals = vs := by have := congrArg Cont.vals hx; exact this
        have ht : x.typ = tObject := by have := congrArg Cont.typ hx; exact this
        rw [if_pos ht, hv, hidx, hi]; exact hx
      · intro g hg hgn
        exact ⟨vs, hgn, repsMembers_congr hms hg⟩
    · rw [assocDel_erase, hi]
  | some i =>
    have hlt : i < ms.length := by
      have := List.findIdx?_eq_some_iff_getElem.1 hi
      exact this.1
    refine ⟨swapRm ms i, ⟨r, hdoc, ?_⟩, ?_, ?_⟩
    · rw [abs_cont, habs]
      refine (update_tree (a := h.abs) (vs' := swapRm vs i) (typ := tObject) hd hr0 hc ?_ ?_).2.2
      · intro x hx
        unfold A.delF
        have hv : x.vals = vs := by have := congrArg Cont.vals hx; exact this
        have ht : x.typ = tObject := by have := congrArg Cont.typ hx; exact this
        have hw : x.raw = [] := by have := congrArg Cont.raw hx; exact this
        rw [if_pos ht, hv, hidx, hi]
        simp only [ANode.cont, swapRemoveV_eq, ht, hw]
      · intro g hg hgn
        exact ⟨_, hgn, repsMembers_swapRm (repsMembers_congr hms hg) i⟩
    · rw [assocDel_erase, hi]; exact swapRm_perm ms hlt
    · intro hnone
      exfalso
      have : ∀ ms : List (Bytes × JVal), assocGet ms k = none → ms.findIdx? (fun m => m.1 = k) = none := by
        intro ms
        induction ms with
        | nil => intro _; rfl
        | cons m ms ih =>
          obtain ⟨k', x⟩ := m
          intro h
          simp only [assocGet] at h
          split at h
          · simp at h
          · rename_i hk
            simp [List.findIdx?_cons, hk]
            intro a b hab; have := ih h
            rw [List.findIdx?_eq_none_iff] at this
            simpa using this (a, b) hab
      rw [this ms hnone] at hi
      simp at hi

theorem assocGet_perm {ms ms' : List (Bytes × JVal)} (hp : ms'.Perm ms) (hd : (ms.map (·.1)).Nodup) (k : Bytes) :
    assocGet ms' k = assocGet ms k := by
  have key : ∀ ms : List (Bytes × JVal), (ms.map (·.1)).Nodup → ∀ x, assocGet ms k = some x ↔ (k, x) ∈ ms := by
    intro ms
    induction ms with
    | nil => simp [assocGet]
    | cons m ms ih =>
      obtain ⟨k', y⟩ := m
      intro hd x
      simp at hd
      by_cases hk : k' = k
      · subst hk
        simp [assocGet]
        constructor
        · rintro rfl; exact Or.inl rfl
        · rintro (rfl | h)
          · rfl
          · exact absurd h (hd.1 x)
      · simp only [assocGet, if_neg hk]
        rw [ih (by simpa using hd.2)]
        simp [Ne.symm hk]
  have hd' : (ms'.map (·.1)).Nodup := (hp.map _).nodup_iff.2 hd
  cases h1 : assocGet ms' k with
  | some x => exact ((key ms hd x).2 (hp.mem_iff.1 ((key ms' hd' x).1 h1))).symm
  | none =>
    cases h2 : assocGet ms k with
    | none => rfl
    | some x => have := (key ms' hd' x).2 (hp.mem_iff.2 ((key ms hd x).1 h2)); rw [h1] at this; simp at this

theorem assocDel_get (k : Bytes) : ∀ (ms : List (Bytes × JVal)), (ms.map (·.1)).Nodup →
    ((assocDel ms k).map (·.1)).Nodup ∧ assocGet (assocDel ms k) k = none ∧
    (∀ k', k' ≠ k → assocGet (assocDel ms k) k' = assocGet ms k') ∧ ∀ k' , k' ∈ (assocDel ms k).map (·.1) → k' ∈ ms.map (·.1)
  | [], _ => by simp [assocDel, assocGet]
  | (k', x) :: ms, hd => by
    simp at hd
    have hd2 : (ms.map (·.1)).Nodup := by simpa using hd.2
    obtain ⟨h1, h2, h3, h4⟩ := assocDel_get k ms hd2
    by_cases hk : k' = k
    · subst hk
      simp only [assocDel, if_true]
      refine ⟨hd2, ?_, ?_, ?_⟩
      · have hno : ∀ x, (k', x) ∉ ms := hd.1
        clear hd h1 h2 h3 h4 hd2
        induction ms with
        | nil => rfl
        | cons m ms ih =>
          obtain ⟨k2, y⟩ := m
          have : k2 ≠ k' := by rintro rfl; exact hno y (by simp)
          simp only [assocGet, if_neg this]
          exact ih fun x hx => hno x (by simp [hx])
      · intro k'' hne; simp only [assocGet, if_neg (Ne.symm hne)]
      · intro k'' hm; simp at hm ⊢; exact Or.inr hm
    · simp only [assocDel, if_neg hk]
      refine ⟨?_, ?_, ?_, ?_⟩
      · simp only [List.map_cons, List.nodup_cons]
        exact ⟨fun hm => by have := h4 k' hm; simp at this; obtain ⟨y, hy⟩ := this; exact hd.1 y hy, h1⟩
      · simp only [assocGet, if_neg hk]; exact h2
      · intro k'' hne
        simp only [assocGet]
        split
        · rfl
        · exact h3 k'' hne
      · intro k'' hm
        simp only [List.map_cons, List.mem_cons] at hm ⊢
        rcases hm with rfl | hm
        · exact Or.inl rfl
        · exact Or.inr (h4 k'' hm)

/-- **C23, Del then Get**: with distinct keys the deleted key is gone and all others are unchanged. -/
theorem C23_del_get (h : Heap) (hw : h.Wf) (n : Node) (ms : List (Bytes × JVal)) (k : Bytes) (hn : Tree h n (.obj ms))
    (hd : (ms.map (·.1)).Nodup) (hlen : ∀ r, (h r).len ≤ maxUint) :
    Dead (n.del h k) (n.getKey (n.del h k) k) ∧
    ∀ k', k' ≠ k → match assocGet ms k' with
      | some x => Tree (n.del h k) (n.getKey (n.del h k) k') x
      | none => Dead (n.del h k) (n.getKey (n.del h k) k') := by
  obtain ⟨ms', h1, h2, _⟩ := C23_del h hw n ms k hn
  obtain ⟨a1, a2, a3, _⟩ := assocDel_get k ms hd
  have hl : ∀ r, ((n.del h k) r).len ≤ maxUint := by
    intro r
    have : ((n.del h k) r).len = (h r).len := by
      unfold Node.del Node.update
      cases n.get h with
      | none => rfl
      | some d =>
        cases n.doc with
        | none => rfl
        | some q =>
          by_cases hr : r = q
          · subst hr; simp [Heap.set, Doc.setNode]
          · simp [Heap.set, hr]
    rw [this]; exact hlen r
  have hg := fun k' => C19_get _ n ms' k' h1 hl
  constructor
  · have := hg k
    rw [assocGet_perm h2 a1 k, a2] at this; exact this
  · intro k' hk
    have := hg k'
    rw [assocGet_perm h2 a1 k', a3 k' hk] at this; exact this

-- deleting a duplicated key removes the first member and moves the last one into its place
example : (runOps 12 [.del ⟨0, 0, some 0⟩ b!"a", .json ⟨0, 0, some 0⟩ []] parsedHeap).map (·.2) =
    some [.unit, .json (b!"{\"a\":true,\"c\":null}", false)] := by decide +kernel

/-! ## C24 -/

/-- **C24, Append**: the array's elements followed by the values' trees as they were before the call. -/
theorem C24_append (h : Heap) (hw : h.Wf) (fuel : Nat) (n : Node) (vs : List Node) (xs ts : List JVal) (hn : Tree h n (.arr xs))
    (hl : vs.length = ts.length)
    (hv : ∀ (i : Nat) (v : Node) (t : JVal), vs[i]? = some v → ts[i]? = some t → Tree h v t ∧ Insertable h n v ∧ t.size ≤ fuel) :
    ∃ h', n.append h fuel vs = some h' ∧ Tree h' n (.arr (xs ++ ts)) := by
  obtain ⟨r, hd, hr⟩ := hn
  rw [abs_cont] at hr
  obtain ⟨a', a1, f, e1, e2, e3, vs0, ws, e4, e5, e6⟩ := append_tree (a := h.abs) (fuel := fuel) (vals := vs) (ts := ts) hd hr hl (by
    intro i v t h1 h2
    obtain ⟨⟨r', hdv, hrv⟩, hi, hf⟩ := hv i v t h1 h2
    rw [abs_cont] at hrv
    exact ⟨hf, r', hdv, hrv, insertable_abs hd hdv hi⟩)
  obtain ⟨h', g1, g2, g3⟩ := commutes_some (abs_append hw fuel n vs) e1
  refine ⟨h', g1, r, ?_, ?_⟩
  · rw [abs_document, g2, e3, modify_document, e2.document]; exact hd
  · rw [abs_cont, g2]; exact e6

/-- **C24, Append then Index**: elements below the old length keep their trees, element `l + j` has the tree of the
j-th appended value, and the length is the sum. -/
theorem C24_append_index (h : Heap) (hw : h.Wf) (fuel : Nat) (n : Node) (vs : List Node) (xs ts : List JVal) (hn : Tree h n (.arr xs))
    (hl : vs.length = ts.length)
    (hv : ∀ (i : Nat) (v : Node) (t : JVal), vs[i]? = some v → ts[i]? = some t → Tree h v t ∧ Insertable h n v ∧ t.size ≤ fuel) :
    ∃ h', n.append h fuel vs = some h' ∧ (n.values h').length = (n.values h).length + vs.length ∧
      ((∀ r, (h' r).len ≤ maxUint) →
        (∀ (i : Nat) (x : JVal), xs[i]? = some x → Tree h' (n.index h' i) x) ∧
        (∀ (j : Nat) (t : JVal), ts[j]? = some t → Tree h' (n.index h' (xs.length + j : Nat)) t)) := by
  obtain ⟨h', h1, h2⟩ := C24_append h hw fuel n vs xs ts hn hl hv
  refine ⟨h', h1, ?_, fun hlen => ⟨?_, ?_⟩⟩
  · rw [(C19_values_array h' n _ h2).1, (C19_values_array h n _ hn).1]; simp [hl]
  · intro i x hx
    refine (C19_index h' n _ i h2 hlen).1 i x rfl ?_
    rw [List.getElem?_append_left (List.getElem?_eq_some_iff.1 hx).1]; exact hx
  · intro j t ht
    refine (C19_index h' n _ _ h2 hlen).1 (xs.length + j) t rfl ?_
    rw [List.getElem?_append_right (by omega)]
    simpa using ht

-- appending a subtree of the same document, a node of another document, and the array's own root
example : (runOps 12 [.append ⟨2, 0, some 0⟩ [⟨5, 0, some 0⟩, ⟨2, 0, some 1⟩, ⟨0, 0, some 0⟩], .json ⟨0, 0, some 0⟩ []] twoHeap).map (·.2) =
    some [.unit, .json (b!"[1,[2,3,\"s\",[2,3],[1,[2,3]]]]", false)] := by decide +kernel
example : Insertable twoHeap ⟨2, 0, some 0⟩ ⟨5, 0, some 0⟩ := by
  rintro ⟨_, r, h1, _, h3⟩
  have : r = 0 := by have h1' : (some 0 : Option Ref) = some r := by rw [← h1]; decide +kernel
                     simpa using h1'.symm
  subst this
  have hc : (twoHeap 0).cont 5 = some ⟨tString, b!"s", []⟩ := by decide +kernel
  generalize hx : (⟨5, 0, some 0⟩ : Node).id = x at h3
  generalize hy : (⟨2, 0, some 0⟩ : Node).id = y at h3
  cases h3 with
  | refl => simp at hx hy; omega
  | step e1 e2 _ => simp at hx; subst hx; rw [hc] at e1; simp at e1; subst e1; simp at e2

/-! ## C25 -/

/-- **C25, Replace**: exactly element `i` gets the value's tree. -/
theorem C25_replace (h : Heap) (hw : h.Wf) (fuel : Nat) (n v : Node) (xs : List JVal) (i : Nat) (t : JVal) (hn : Tree h n (.arr xs))
    (hi : i < xs.length) (hv : Tree h v t) (hins : Insertable h n v) (hlen : ∀ r, (h r).len < maxUint) (hf : t.size ≤ fuel) :
    ∃ h', n.replace h fuel i v = some h' ∧ Tree h' n (.arr (xs.set i t)) := by
  obtain ⟨r, hd, hr⟩ := hn
  obtain ⟨r', hdv, hrv⟩ := hv
  rw [abs_cont] at hr hrv
  obtain ⟨a', a1, id1, f, e1, e2, e3, vs, e4, e5, e6⟩ := replace_tree (a := h.abs) (fuel := fuel) hd hr hi hdv hrv (insertable_abs hd hdv hins)
    (by rw [abs_len hw]; exact hlen r) hf
  obtain ⟨h', g1, g2, g3⟩ := commutes_some (abs_replace hw fuel n i v) e1
  refine ⟨h', g1, r, ?_, ?_⟩
  · rw [abs_document, g2, e3, modify_document, e2.document]; exact hd
  · rw [abs_cont, g2]; exact e6

theorem update_self {h : Heap} {n : Node} {f : NodeD → NodeD} (hf : ∀ d, n.get h = some d → f d = d) : n.update h f = h := by
  unfold Node.update
  cases hg : n.get h with
  | none => rfl
  | some d =>
    obtain ⟨r, hdoc, _, hd⟩ := get_doc hg
    rw [hdoc]
    simp only
    funext q
    by_cases hq : q = r
    · subst hq
      simp only [Heap.set, if_true, Doc.setNode]
      have : (h q).arr.modify n.id f = (h q).arr := by
        apply List.ext_getElem?
        intro j
        by_cases hj : j = n.id
        · subst hj
          rw [modify_eq]
          unfold Doc.get at hd
          split at hd
          · rw [hd]; simp [hf d hg]
          · simp at hd
        · rw [modify_ne _ _ hj]
      rw [this]
    · simp [Heap.set, hq]

theorem arr_node {h : Heap} {n : Node} {xs : List JVal} (hn : Tree h n (.arr xs)) :
    ∀ d, n.get h = some d → d.typ = tArray ∧ d.values.vis.length = xs.length := by
  intro d hd
  obtain ⟨r, d', _, _, hg, hg', vs, hc, hxs⟩ := tree_cont hn
  rw [hd] at hg; simp at hg; subst hg
  obtain ⟨e1, _, e3⟩ := cont_get hc hg'
  exact ⟨e1, by rw [e3]; exact (repsElems_iff.1 hxs).1.symm⟩

/-- **C25, Remove**: element `i` goes, the order of the rest is kept; out of range nothing changes. -/
theorem C25_remove (h : Heap) (hw : h.Wf) (n : Node) (xs : List JVal) (hn : Tree h n (.arr xs)) :
    (∀ i : Nat, i < xs.length → Tree (n.remove h i) n (.arr (xs.eraseIdx i))) ∧
    (∀ i : Int, (i < 0 ∨ (xs.length : Int) ≤ i) → n.remove h i = h) := by
  have hn0 := hn
  obtain ⟨r, hd, hr⟩ := hn
  rw [abs_cont] at hr
  have hr0 := hr
  obtain ⟨vs, hc, hxs⟩ := hr
  obtain ⟨hl, hp⟩ := repsElems_iff.1 hxs
  constructor
  · intro i hi
    have habs := (abs_remove hw n i).2
    refine ⟨r, ?_, ?_⟩
    · rw [abs_document, habs]
      rcases local_update h.abs n (A.removeF i) with he | ⟨r', _, hl⟩
      · rw [he]; exact hd
      · rw [hl.document]; exact hd
    · rw [abs_cont, habs]
      refine (update_tree (a := h.abs) (vs' := vs.eraseIdx i) (typ := tArray) hd hr0 hc ?_ ?_).2.2
      · intro x hx
        have hv : x.vals = vs := congrArg Cont.vals hx
        have ht : x.typ = tArray := congrArg Cont.typ hx
        have hw : x.raw = [] := congrArg Cont.raw hx
        unfold A.removeF
        rw [if_pos ⟨ht, by omega, by rw [hv]; omega⟩]
        simp [ANode.cont, ht, hw, hv]
      · intro g hg hgn
        refine ⟨_, hgn, repsElems_iff.2 ⟨by rw [List.length_eraseIdx_of_lt hi, List.length_eraseIdx_of_lt (hl ▸ hi), hl], ?_⟩⟩
        obtain ⟨_, hp'⟩ := repsElems_iff.1 (repsElems_congr hxs hg)
        intro j x v h1 h2
        rw [List.getElem?_eraseIdx] at h1 h2
        split at h1
        · rename_i hj; rw [if_pos hj] at h2; exact hp' j x v h1 h2
        · rename_i hj; rw [if_neg hj] at h2; exact hp' (j + 1) x v h1 h2
  · intro i hi
    apply update_self
    intro d hg
    obtain ⟨_, e⟩ := arr_node hn0 d hg
    rw [if_neg (by omega)]

/-- **C25, Slice (partial)**: `Slice(i, j)` keeps exactly elements `i..j-1` when `0 ≤ i < j < l`, and changes nothing
when `i < 0`, `j ≤ i` or `j > l`. Missing: `j = l`, where the code also changes nothing (`C25_slice_false`). -/
theorem C25_slice_partial (h : Heap) (hw : h.Wf) (n : Node) (xs : List JVal) (hn : Tree h n (.arr xs)) :
    (∀ i j : Nat, i < j → j < xs.length → Tree (n.slice h i j) n (.arr ((xs.take j).drop i))) ∧
    (∀ i j : Int, (i < 0 ∨ j ≤ i ∨ (xs.length : Int) < j) → n.slice h i j = h) := by
  have hn0 := hn
  obtain ⟨r, hd, hr⟩ := hn
  rw [abs_cont] at hr
  have hr0 := hr
  obtain ⟨vs, hc, hxs⟩ := hr
  obtain ⟨hl, hp⟩ := repsElems_iff.1 hxs
  constructor
  · intro i j hij hj
    have habs := (abs_slice hw n i j).2
    refine ⟨r, ?_, ?_⟩
    · rw [abs_document, habs]
      rcases local_update h.abs n (A.sliceF i j) with he | ⟨r', _, hl⟩
      · rw [he]; exact hd
      · rw [hl.document]; exact hd
    · rw [abs_cont, habs]
      refine (update_tree (a := h.abs) (vs' := (vs.take j).drop i) (typ := tArray) hd hr0 hc ?_ ?_).2.2
      · intro x hx
        have hv : x.vals = vs := congrArg Cont.vals hx
        have ht : x.typ = tArray := congrArg Cont.typ hx
        have hw : x.raw = [] := congrArg Cont.raw hx
        unfold A.sliceF
        rw [if_pos ⟨ht, by omega, by omega, by rw [hv]; omega⟩]
        simp [ANode.cont, ht, hw, hv]
      · intro g hg hgn
        refine ⟨_, hgn, repsElems_iff.2 ⟨by simp [hl], ?_⟩⟩
        obtain ⟨_, hp'⟩ := repsElems_iff.1 (repsElems_congr hxs hg)
        intro p x v h1 h2
        rw [List.getElem?_drop, List.getElem?_take] at h1 h2
        split at h1
        · rename_i hp; rw [if_pos hp] at h2; exact hp' _ x v h1 h2
        · simp at h1
  · intro i j hij
    apply update_self
    intro d hg
    obtain ⟨_, e⟩ := arr_node hn0 d hg
    rw [if_neg (by omega)]

/-- **C25, Replace out of range**: nothing changes. -/
theorem C25_replace_range (h : Heap) (fuel : Nat) (n v : Node) (xs : List JVal) (hn : Tree h n (.arr xs)) (i : Int)
    (hi : i < 0 ∨ (xs.length : Int) ≤ i) : n.replace h fuel i v = some h := by
  unfold Node.replace
  obtain ⟨r, d, _, hdoc, hg, _⟩ := tree_cont hn
  rw [hg, hdoc]
  simp only
  rw [if_neg]
  obtain ⟨_, e⟩ := arr_node hn d hg
  omega

/-- **C25 is false** for `Slice(i, l)`: on `[7,8]`, `Slice(1, 2)` leaves both elements. -/
theorem C25_slice_false : ¬ ∀ (h : Heap) (n : Node) (xs : List JVal) (i j : Nat), h.Wf → Tree h n (.arr xs) → i < j → j ≤ xs.length →
    Tree (n.slice h i j) n (.arr ((xs.take j).drop i)) := by
  intro hall
  have ht := hall arrHeap ⟨0, 0, some 0⟩ _ 1 2 (by intro r; show _ ≤ _; show (Doc.empty.parse b!"[7,8]").1.len ≤ (Doc.empty.parse b!"[7,8]").1.arr.length; decide +kernel)
    arr_tree (by decide) (by decide)
  have h1 := C21_appendJSON _ _ _ [] ht 9 (by decide)
  revert h1
  decide +kernel

example : (runOps 12 [.replace ⟨0, 0, some 0⟩ 1 ⟨2, 0, some 1⟩, .json ⟨0, 0, some 0⟩ [], .remove ⟨0, 0, some 0⟩ 0, .json ⟨0, 0, some 0⟩ [],
      .slice ⟨0, 0, some 1⟩ 0 1, .json ⟨0, 0, some 1⟩ []] twoHeap).map (·.2) =
    some [.unit, .json (b!"[1,[2,3]]", false), .unit, .json (b!"[[2,3]]", false), .unit, .json (b!"[1]", false)] := by decide +kernel

/-! ## C27, the insertions -/

theorem insertable_other {h : Heap} {n v : Node} (hne : v.doc ≠ n.doc) : Insertable h n v := by
  rintro ⟨⟨r, d, h1, h2, _⟩, _⟩
  rw [abs_document] at h1 h2
  exact hne (by rw [document_doc h1, document_doc h2])

theorem tree_after {h1 : Heap} {fuel : Nat} {ops : List Op} {h2 : Heap} {rs : List Res} {n : Node} {t : JVal} (ht : Tree h1 n t)
    (hrun : runOps fuel ops h1 = some (h2, rs)) (hops : ∀ op ∈ ops, op.target ≠ n.doc) : Tree h2 n t := by
  obtain ⟨r, hd, hr⟩ := ht
  have hdoc : n.doc = some r := document_heap hd
  rw [hdoc] at hops
  exact ((C27_documents_independent h1 fuel ops h2 rs hrun r hops).2 n t hdoc).1 ⟨r, hd, hr⟩

/-- **C27 for Set**: with a value of another document, the value keeps its tree, and afterwards no call sequence that
stays away from the target's document changes the target, and none that stays away from the source changes the source. -/
theorem C27_set_copies (h : Heap) (hw : h.Wf) (fuel : Nat) (n v : Node) (ms : List (Bytes × JVal)) (k : Bytes) (t : JVal)
    (hn : Tree h n (.obj ms)) (hv : Tree h v t) (hne : v.doc ≠ n.doc) (hlen : ∀ r, (h r).len < maxUint) (hf : t.size ≤ fuel) :
    ∃ h1, n.set h fuel k v = some h1 ∧ ∀ fuel' ops h2 rs, runOps fuel' ops h1 = some (h2, rs) →
      ((∀ op ∈ ops, op.target ≠ n.doc) → Tree h2 n (.obj (assocSet ms k t))) ∧
      ((∀ op ∈ ops, op.target ≠ v.doc) → Tree h2 v t) := by
  obtain ⟨h1, e1, e2⟩ := C22_set h hw fuel n v ms k t hn hv (insertable_other hne) hlen hf
  refine ⟨h1, e1, fun fuel' ops h2 rs hrun => ⟨tree_after e2 hrun, tree_after (tree_after (ops := [.set n k v]) (rs := [.unit]) (fuel := fuel) hv ?_ ?_) hrun⟩⟩
  · simp [runOps, Op.run, e1]
  · simp [Op.target]; exact hne.symm

/-- **C27 for Append** -/
theorem C27_append_copies (h : Heap) (hw : h.Wf) (fuel : Nat) (n : Node) (vs : List Node) (xs ts : List JVal) (hn : Tree h n (.arr xs))
    (hl : vs.length = ts.length)
    (hv : ∀ (i : Nat) (v : Node) (t : JVal), vs[i]? = some v → ts[i]? = some t → Tree h v t ∧ v.doc ≠ n.doc ∧ t.size ≤ fuel) :
    ∃ h1, n.append h fuel vs = some h1 ∧ ∀ fuel' ops h2 rs, runOps fuel' ops h1 = some (h2, rs) →
      ((∀ op ∈ ops, op.target ≠ n.doc) → Tree h2 n (.arr (xs ++ ts))) ∧
      ∀ (i : Nat) (v : Node) (t : JVal), vs[i]? = some v → ts[i]? = some t → (∀ op ∈ ops, op.target ≠ v.doc) → Tree h2 v t := by
  obtain ⟨h1, e1, e2⟩ := C24_append h hw fuel n vs xs ts hn hl fun i v t a b =>
    have c := hv i v t a b
    ⟨c.1, insertable_other c.2.1, c.2.2⟩
  refine ⟨h1, e1, fun fuel' ops h2 rs hrun => ⟨tree_after e2 hrun, fun i v t a b => ?_⟩⟩
  obtain ⟨c1, c2, _⟩ := hv i v t a b
  refine tree_after (tree_after (ops := [.append n vs]) (rs := [.unit]) (fuel := fuel) c1 ?_ ?_) hrun
  · simp [runOps, Op.run, e1]
  · simp [Op.target]; exact c2.symm

/-- **C27 for Replace** -/
theorem C27_replace_copies (h : Heap) (hw : h.Wf) (fuel : Nat) (n v : Node) (xs : List JVal) (i : Nat) (t : JVal)
    (hn : Tree h n (.arr xs)) (hi : i < xs.length) (hv : Tree h v t) (hne : v.doc ≠ n.doc) (hlen : ∀ r, (h r).len < maxUint)
    (hf : t.size ≤ fuel) :
    ∃ h1, n.replace h fuel i v = some h1 ∧ ∀ fuel' ops h2 rs, runOps fuel' ops h1 = some (h2, rs) →
      ((∀ op ∈ ops, op.target ≠ n.doc) → Tree h2 n (.arr (xs.set i t))) ∧
      ((∀ op ∈ ops, op.target ≠ v.doc) → Tree h2 v t) := by
  obtain ⟨h1, e1, e2⟩ := C25_replace h hw fuel n v xs i t hn hi hv (insertable_other hne) hlen hf
  refine ⟨h1, e1, fun fuel' ops h2 rs hrun => ⟨tree_after e2 hrun, tree_after (tree_after (ops := [.replace n i v]) (rs := [.unit]) (fuel := fuel) hv ?_ ?_) hrun⟩⟩
  · simp [runOps, Op.run, e1]
  · simp [Op.target]; exact hne.symm

end Verif.Props
