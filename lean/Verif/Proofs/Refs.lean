import Verif.Proofs.Target

/-!
Child references of a document as a list of ids: `refs`. Copies and parses only add references to nodes they
created, each once.
-/

namespace Verif.Njson
open Verif Verif.Spec

/-- all child references of a list of nodes -/
def refs (l : List ANode) : List Nat := l.flatMap fun n => n.vals.map V.id

theorem refs_append (l m : List ANode) : refs (l ++ m) = refs l ++ refs m := by simp [refs]
theorem refs_cons (a : ANode) (l : List ANode) : refs (a :: l) = a.vals.map V.id ++ refs l := by simp [refs]
theorem refs_nil : refs [] = [] := rfl

theorem mem_refs {l : List ANode} {x : Nat} : x ∈ refs l ↔ ∃ n ∈ l, ∃ v ∈ n.vals, v.id = x := by
  simp [refs]

theorem modify_split {α : Type} {l : List α} {i : Nat} {x : α} (h : l[i]? = some x) (f : α → α) :
    ∃ l1 l2, l = l1 ++ x :: l2 ∧ l.modify i f = l1 ++ f x :: l2 := by
  induction l generalizing i with
  | nil => simp at h
  | cons y l ih =>
    cases i with
    | zero => simp at h; subst h; exact ⟨[], l, rfl, rfl⟩
    | succ i =>
      simp at h
      obtain ⟨l1, l2, h1, h2⟩ := ih h
      exact ⟨y :: l1, l2, by simp [h1], by rw [List.modify_succ_cons, h2]; rfl⟩

/-- references of a list with one node changed -/
theorem refs_modify {l : List ANode} {i : Nat} {x : ANode} (h : l[i]? = some x) (f : ANode → ANode) :
    ∃ rest, (refs l).Perm (x.vals.map V.id ++ rest) ∧ (refs (l.modify i f)).Perm ((f x).vals.map V.id ++ rest) := by
  obtain ⟨l1, l2, h1, h2⟩ := modify_split h f
  refine ⟨refs l1 ++ refs l2, ?_, ?_⟩
  · conv => lhs; rw [h1]
    rw [refs_append, refs_cons, ← List.append_assoc, ← List.append_assoc]
    exact List.Perm.append_right _ List.perm_append_comm
  · rw [h2, refs_append, refs_cons, ← List.append_assoc, ← List.append_assoc]
    exact List.Perm.append_right _ List.perm_append_comm

theorem modify_none {α : Type} {l : List α} {i : Nat} (h : l[i]? = none) (f : α → α) : l.modify i f = l := by
  apply List.ext_getElem?
  intro j
  by_cases hj : j = i
  · subst hj; rw [modify_eq, h]; rfl
  · rw [modify_ne _ _ hj]

theorem refs_modify_keep {l : List ANode} {i : Nat} {f : ANode → ANode} (hf : ∀ x, (f x).vals = x.vals) : refs (l.modify i f) = refs l := by
  cases h : l[i]? with
  | none => rw [modify_none h]
  | some x =>
    obtain ⟨l1, l2, h1, h2⟩ := modify_split h f
    rw [h2]
    conv => rhs; rw [h1]
    rw [refs_append, refs_append, refs_cons, refs_cons, hf]

/-! ## copies -/

theorem ncopyVals_refs {get : List ANode → Nat → Option ANode} {rec : List ANode → ANode → Option (List ANode × Nat)}
    (hrec : ∀ d n d' id, rec d n = some (d', id) → id = d.length ∧ ∃ ns, d' = d ++ ns ∧ 0 < ns.length ∧ (refs ns).Nodup ∧
      ∀ x ∈ refs ns, d.length < x ∧ x < d.length + ns.length) :
    ∀ (vs : List V) (d : List ANode) (values : List V) (d' : List ANode) (values' : List V),
      A.ncopyVals get rec vs d values = some (d', values') →
      ∃ ns ws, d' = d ++ ns ∧ values' = values ++ ws ∧ (ws.map V.id ++ refs ns).Nodup ∧
        ∀ x ∈ ws.map V.id ++ refs ns, d.length ≤ x ∧ x < d.length + ns.length
  | [], d, values, d', values', h => by
    simp [A.ncopyVals] at h
    obtain ⟨rfl, rfl⟩ := h
    exact ⟨[], [], by simp, by simp, by simp [refs], by simp [refs]⟩
  | v :: vs, d, values, d', values', h => by
    unfold A.ncopyVals at h
    split at h
    · exact ncopyVals_refs hrec vs d values d' values' h
    · split at h
      · simp at h
      · rename_i n _ _ d1 id1 hr
        obtain ⟨rfl, ns1, rfl, hpos, hnd, hrange⟩ := hrec _ _ _ _ hr
        obtain ⟨ns, ws, rfl, rfl, h3, h4⟩ := ncopyVals_refs hrec vs _ _ d' values' h
        refine ⟨ns1 ++ ns, ⟨d.length, v.key⟩ :: ws, by simp, by simp, ?_, ?_⟩
        · have hp : (((⟨d.length, v.key⟩ : V) :: ws).map V.id ++ refs (ns1 ++ ns)).Perm
              ((d.length :: refs ns1) ++ (ws.map V.id ++ refs ns)) := by
            rw [refs_append, List.map_cons, List.cons_append, List.cons_append]
            refine List.Perm.cons _ ?_
            rw [← List.append_assoc, ← List.append_assoc]
            exact List.Perm.append_right _ List.perm_append_comm
          rw [hp.nodup_iff, List.nodup_append]
          refine ⟨?_, h3, ?_⟩
          · rw [List.nodup_cons]
            exact ⟨fun hm => by have := hrange _ hm; omega, hnd⟩
          · intro x hx y hy
            have h5 := h4 y hy
            simp at h5
            rcases List.mem_cons.1 hx with rfl | hx
            · omega
            · have := hrange x hx; omega
        · intro x hx
          rw [refs_append, List.map_cons, List.cons_append] at hx
          simp only [List.length_append]
          rcases List.mem_cons.1 hx with rfl | hx
          · simp only; omega
          · simp only [List.mem_append] at hx
            rcases hx with hx | hx | hx
            · have := h4 x (by simp only [List.mem_append]; exact Or.inl hx); simp at this; omega
            · have := hrange x hx; omega
            · have := h4 x (by simp only [List.mem_append]; exact Or.inr hx); simp at this; omega

theorem ncopy_refs (get : List ANode → Nat → Option ANode) : ∀ (fuel : Nat) (d : List ANode) (n : ANode) (d' : List ANode) (id : Nat),
    A.ncopy get fuel d n = some (d', id) → id = d.length ∧ ∃ ns, d' = d ++ ns ∧ 0 < ns.length ∧ (refs ns).Nodup ∧
      ∀ x ∈ refs ns, d.length < x ∧ x < d.length + ns.length
  | 0, d, n, d', id, h => by simp [A.ncopy] at h
  | fuel + 1, d, n, d', id, h => by
    unfold A.ncopy at h
    split at h
    · simp at h
    · rename_i d1 values hv
      obtain ⟨ns, values', rfl, hvs, h3, h4⟩ := ncopyVals_refs (ncopy_refs get fuel) _ _ _ _ _ hv
      rw [List.nil_append] at hvs
      subst hvs
      simp at h
      obtain ⟨rfl, rfl⟩ := h
      refine ⟨rfl, ⟨n.typ, n.root, n.raw, values⟩ :: ns, ?_, by simp, ?_, ?_⟩
      · simp [modify_append_length]
      · rw [refs_cons]; exact h3
      · intro x hx
        rw [refs_cons] at hx
        have := h4 x hx
        simp at this ⊢
        omega

/-! ## layouts -/

theorem flat_refs_all :
    (∀ t : JVal, ∀ base, (refs (flat base t)).Nodup ∧ ∀ x ∈ refs (flat base t), base < x ∧ x < base + t.size) ∧
    (∀ xs, ∀ base, ((elemRefs base xs).map V.id ++ refs (flatElems base xs)).Nodup ∧
      ∀ x ∈ (elemRefs base xs).map V.id ++ refs (flatElems base xs), base ≤ x ∧ x < base + sizeElems xs) ∧
    (∀ ms, ∀ base, ((memberRefs base ms).map V.id ++ refs (flatMembers base ms)).Nodup ∧
      ∀ x ∈ (memberRefs base ms).map V.id ++ refs (flatMembers base ms), base ≤ x ∧ x < base + sizeMembers ms) := by
  have cons : ∀ (base sz tot : Nat) (k : Bytes) (rs : List V) (f1 f2 : List ANode), 0 < sz →
      ((refs f1).Nodup ∧ ∀ x ∈ refs f1, base < x ∧ x < base + sz) →
      ((rs.map V.id ++ refs f2).Nodup ∧ ∀ x ∈ rs.map V.id ++ refs f2, base + sz ≤ x ∧ x < base + sz + tot) →
      (((⟨base, k⟩ : V) :: rs).map V.id ++ refs (f1 ++ f2)).Nodup ∧
      ∀ x ∈ ((⟨base, k⟩ : V) :: rs).map V.id ++ refs (f1 ++ f2), base ≤ x ∧ x < base + (sz + tot) := by
    rintro base sz tot k rs f1 f2 hsz ⟨h1, h2⟩ ⟨h3, h4⟩
    have hp : (((⟨base, k⟩ : V) :: rs).map V.id ++ refs (f1 ++ f2)).Perm ((base :: refs f1) ++ (rs.map V.id ++ refs f2)) := by
      rw [refs_append, List.map_cons, List.cons_append, List.cons_append]
      refine List.Perm.cons _ ?_
      rw [← List.append_assoc, ← List.append_assoc]
      exact List.Perm.append_right _ List.perm_append_comm
    refine ⟨?_, ?_⟩
    · rw [hp.nodup_iff, List.nodup_append]
      refine ⟨?_, h3, ?_⟩
      · rw [List.nodup_cons]
        exact ⟨fun hm => by have := h2 _ hm; omega, h1⟩
      · intro x hx y hy
        have := h4 y hy
        rcases List.mem_cons.1 hx with rfl | hx
        · omega
        · have := h2 x hx; omega
    · intro x hx
      rw [hp.mem_iff, List.mem_append, List.mem_cons] at hx
      rcases hx with (rfl | hx) | hx
      · omega
      · have := h2 x hx; omega
      · have := h4 x hx; omega
  apply jval_ind
  · intro b; simp [flat, refs]
  · intro b base; cases b <;> simp [flat, refs]
  · intro r b; simp [flat, refs]
  · intro r b; simp [flat, refs]
  · intro xs ih b
    obtain ⟨h1, h2⟩ := ih (b + 1)
    rw [flat, refs_cons]
    refine ⟨h1, fun x hx => ?_⟩
    have := h2 x hx
    simp only [JVal.size]; omega
  · intro xs ih b
    obtain ⟨h1, h2⟩ := ih (b + 1)
    rw [flat, refs_cons]
    refine ⟨h1, fun x hx => ?_⟩
    have := h2 x hx
    simp only [JVal.size]; omega
  · intro b; simp [elemRefs, flatElems, refs]
  · intro x xs h1 h2 b
    rw [elemRefs, flatElems, sizeElems]
    exact cons b x.size (sizeElems xs) [] _ _ _ (size_pos x) (h1 b) (h2 _)
  · intro b; simp [memberRefs, flatMembers, refs]
  · intro k x xs h1 h2 b
    rw [memberRefs, flatMembers, sizeMembers]
    exact cons b x.size (sizeMembers xs) k _ _ _ (size_pos x) (h1 b) (h2 _)

theorem refs_rootHead (l : List ANode) : refs (rootHead l) = refs l := by cases l <;> simp [rootHead, refs]

/-! ## one step of the abstract machine -/

/-- The effect of a call on the abstract heap. -/
def A.run (fuel : Nat) (a : AH) : Op → Option AH
  | .parse r s => some (a.set r (A.parse (a r) s).1)
  | .reset r => some (a.set r (A.reset (a r)))
  | .add r t b => some (a.set r (A.add (a r) t b).1)
  | .set n key value => A.nset a fuel n key value
  | .append n vs => A.append a fuel n vs
  | .replace n i value => A.replace a fuel n i value
  | .slice n i j => some (A.update a n (A.sliceF i j))
  | .remove n i => some (A.update a n (A.removeF i))
  | .strip n key => A.nstrip a fuel n key
  | .del n key => some (A.update a n (A.delF key))
  | .setScalar n t b => some (A.update a n (A.scalarF t b))
  | _ => some a

theorem heap_parse_fst (h : Heap) (r : Ref) (s : Bytes) : (h.parse r s).1 = h.set r ((h r).parse s).1 := by
  unfold Heap.parse
  split
  rename_i d out he
  rw [he]
  split <;> rfl

theorem abs_run {h : Heap} (hw : h.Wf) {fuel : Nat} {op : Op} {h' : Heap} {res : Res} (he : op.run fuel h = some (h', res)) :
    A.run fuel h.abs op = some h'.abs := by
  have part : ∀ {c : Option Heap} {a : Option AH}, Commutes c a → c.map (·, Res.unit) = some (h', res) → a = some h'.abs := by
    intro c a hca he
    cases c with
    | none => simp at he
    | some x => simp at he; have := hca.1; rw [← this, ← he.1]; rfl
  have same : ∀ {c : Option Res}, c.map (fun x => (h, x)) = some (h', res) → some h.abs = some h'.abs := by
    intro c he
    cases c with
    | none => simp at he
    | some x => simp at he; rw [he.1]
  cases op <;> simp only [Op.run] at he <;> simp only [A.run]
  case parse r s =>
    simp at he
    rw [← he.1, heap_parse_fst, Heap.abs_set]
    have := (abs_parse (hw r) s).2
    rw [show A.parse (h.abs r) s = A.parse (h r).abs s from rfl, ← this]
  case reset r =>
    simp at he
    rw [← he.1, Heap.abs_set, (abs_docReset (h r)).2]; rfl
  case add r t b =>
    simp at he
    rw [← he.1, Heap.abs_set]
    have := (abs_add (hw r) t b).2
    rw [show A.add (h.abs r) t b = A.add (h r).abs t b from rfl, ← this]
  case docJSON => cases hx : (h _).appendJSON fuel _ <;> rw [hx] at he <;> simp at he; rw [he.1]
  case set n k v => exact part (abs_nset hw fuel n k v) he
  case append n vs => exact part (abs_append hw fuel n vs) he
  case replace n i v => exact part (abs_replace hw fuel n i v) he
  case slice n i j => simp at he; rw [← he.1, (abs_slice hw n i j).2]
  case remove n i => simp at he; rw [← he.1, (abs_remove hw n i).2]
  case strip n k => exact part (abs_nstrip hw fuel n k) he
  case del n k => simp at he; rw [← he.1, (abs_del hw n k).2]
  case setScalar n t b => simp at he; rw [← he.1, (abs_setScalar hw n t b).2]
  case json n dst => cases hx : Node.appendJSON h fuel n dst <;> rw [hx] at he <;> simp at he; rw [he.1]
  all_goals (simp at he; rw [he.1])

end Verif.Njson
