import Verif.Proofs.Refs
import Verif.Spec.History

/-!
What a call does to the child references of a document (`Eff`), and the invariants it keeps: references stay in
range, chains stay finite, references stay unique.
-/

namespace Verif.Njson
open Verif Verif.Spec

def ids (n : ANode) : List Nat := n.vals.map V.id

/-- new nodes at the end of a document: their children are later new nodes, each referenced once -/
structure Fresh (base : Nat) (ns : List ANode) : Prop where
  nodup : (refs ns).Nodup
  lt : ∀ x ∈ refs ns, x < base + ns.length
  inc : ∀ (j : Nat) (x : ANode), ns[j]? = some x → ∀ v ∈ x.vals, base + j < v.id

theorem Fresh.gt {base : Nat} {ns : List ANode} (h : Fresh base ns) : ∀ x ∈ refs ns, base < x := by
  intro x hx
  obtain ⟨n, hn, v, hv, rfl⟩ := mem_refs.1 hx
  obtain ⟨j, hj⟩ := List.mem_iff_getElem?.1 hn
  have := h.inc j n hj v hv
  omega

/-- `l1` is `l` with new nodes at the end (flags may be cleared); `ws` are new nodes or adopted ones (`Ad`) -/
def Grow (Ad : Nat → Prop) (l l1 : List ANode) (ws : List Nat) : Prop :=
  ∃ l0 ns, l1 = l0 ++ ns ∧ l0.map ANode.cont = l.map ANode.cont ∧
    (∀ (j : Nat) (x' : ANode), l0[j]? = some x' → x'.root = true → ∃ x : ANode, l[j]? = some x ∧ x.root = true) ∧
    Fresh l.length ns ∧
    (∀ w ∈ ws, (l.length ≤ w ∧ w < l1.length) ∨ (Ad w ∧ w < l.length ∧ ∃ x' : ANode, l0[w]? = some x' ∧ x'.root = false)) ∧
    (ws ++ refs ns).Nodup

/-- One document before and after a call. -/
inductive Eff (Ad : Nat → Nat → Prop) : List ANode → List ANode → Prop
  | same (l) : Eff Ad l l
  | clear (l) : Eff Ad l []
  | grow {l l1 ws to} : Grow (Ad to) l l1 ws → Eff Ad l l1
  | insert {l l1 ws to x f ks} : Grow (Ad to) l l1 ws → to < l.length → l1[to]? = some x → (ids (f x)).Perm (ks ++ ws) →
      (∀ k ∈ ks, k ∈ ids x) → ((ids x).Nodup → ks.Nodup) → Eff Ad l (l1.modify to f)
  | shrink {l l' i x f} : l[i]? = some x → (∀ k ∈ ids (f x), k ∈ ids x) → ((ids x).Nodup → (ids (f x)).Nodup) →
      Eff Ad (l.modify i f) l' → Eff Ad l l'

/-! ## fresh nodes -/

theorem ncopyVals_fresh {get : List ANode → Nat → Option ANode} {rec : List ANode → ANode → Option (List ANode × Nat)}
    (hrec : ∀ d n d' id, rec d n = some (d', id) → id = d.length ∧ ∃ ns, d' = d ++ ns ∧ ∀ (j : Nat) (x : ANode), ns[j]? = some x → ∀ v ∈ x.vals, d.length + j < v.id) :
    ∀ (vs : List V) (d : List ANode) (values : List V) (d' : List ANode) (values' : List V),
      A.ncopyVals get rec vs d values = some (d', values') →
      ∃ ns, d' = d ++ ns ∧ ∀ (j : Nat) (x : ANode), ns[j]? = some x → ∀ v ∈ x.vals, d.length + j < v.id
  | [], d, values, d', values', h => by
    simp [A.ncopyVals] at h
    obtain ⟨rfl, rfl⟩ := h
    exact ⟨[], by simp, by simp⟩
  | v :: vs, d, values, d', values', h => by
    unfold A.ncopyVals at h
    split at h
    · exact ncopyVals_fresh hrec vs d values d' values' h
    · split at h
      · simp at h
      · rename_i n _ _ d1 id1 hr
        obtain ⟨rfl, ns1, rfl, hinc⟩ := hrec _ _ _ _ hr
        obtain ⟨ns, rfl, h3⟩ := ncopyVals_fresh hrec vs _ _ d' values' h
        refine ⟨ns1 ++ ns, by simp, ?_⟩
        intro j x hx w hw
        rcases getElem?_append_cases hx with ⟨_, h'⟩ | ⟨k, rfl, h'⟩
        · exact hinc j x h' w hw
        · have := h3 k x h' w hw; simp at this; omega

theorem ncopy_inc (get : List ANode → Nat → Option ANode) : ∀ (fuel : Nat) (d : List ANode) (n : ANode) (d' : List ANode) (id : Nat),
    A.ncopy get fuel d n = some (d', id) → id = d.length ∧ ∃ ns, d' = d ++ ns ∧ ∀ (j : Nat) (x : ANode), ns[j]? = some x → ∀ v ∈ x.vals, d.length + j < v.id
  | 0, d, n, d', id, h => by simp [A.ncopy] at h
  | fuel + 1, d, n, d', id, h => by
    have h0 := h
    unfold A.ncopy at h
    split at h
    · simp at h
    · rename_i d1 values hv
      obtain ⟨ns, rfl, h3⟩ := ncopyVals_fresh (ncopy_inc get fuel) _ _ _ _ _ hv
      obtain ⟨_, ns', e1, _, _, e2⟩ := ncopy_refs get (fuel + 1) d n d' id h0
      simp at h
      obtain ⟨rfl, rfl⟩ := h
      refine ⟨rfl, ⟨n.typ, n.root, n.raw, values⟩ :: ns, by simp [modify_append_length], ?_⟩
      simp [modify_append_length] at e1
      rw [← e1] at e2
      intro j x hx w hw
      cases j with
      | zero =>
        simp at hx
        rw [Nat.add_zero]
        exact (e2 w.id (mem_refs.2 ⟨_, List.mem_cons_self, w, by rw [← hx] at hw; exact hw, rfl⟩)).1
      | succ j =>
        simp at hx
        have := h3 j x hx w hw
        simp at this; omega

theorem ncopy_fresh {get : List ANode → Nat → Option ANode} {fuel : Nat} {d : List ANode} {n : ANode} {d' : List ANode} {id : Nat}
    (h : A.ncopy get fuel d n = some (d', id)) : id = d.length ∧ ∃ ns, d' = d ++ ns ∧ 0 < ns.length ∧ Fresh d.length ns := by
  obtain ⟨h1, ns, rfl, h2, h3, h4⟩ := ncopy_refs get fuel d n _ id h
  obtain ⟨_, ns', e1, e2⟩ := ncopy_inc get fuel d n _ id h
  have := List.append_cancel_left e1
  subst this
  exact ⟨h1, ns, rfl, h2, h3, fun x hx => (h4 x hx).2, e2⟩

theorem rootHead_vals {l : List ANode} {j : Nat} {x : ANode} (h : (rootHead l)[j]? = some x) : ∃ y, l[j]? = some y ∧ y.vals = x.vals := by
  cases l with
  | nil => simp [rootHead] at h
  | cons a l =>
    cases j with
    | zero => simp [rootHead] at h; exact ⟨a, by simp, by rw [← h]⟩
    | succ j => simp [rootHead] at h; exact ⟨x, by simpa using h, rfl⟩

theorem flat_fresh (base : Nat) (t : JVal) : Fresh base (rootHead (flat base t)) where
  nodup := by rw [refs_rootHead]; exact (flat_refs_all.1 t base).1
  lt x hx := by
    rw [refs_rootHead] at hx
    rw [rootHead_length, flat_length]
    exact ((flat_refs_all.1 t base).2 x hx).2
  inc j x hx v hv := by
    obtain ⟨y, h1, h2⟩ := rootHead_vals hx
    rw [← h2] at hv
    exact (flat_range_all.1 t base j y h1 v hv).1

theorem fresh_leaf (base : Nat) (x : ANode) (h : x.vals = []) : Fresh base [x] where
  nodup := by simp [refs, h]
  lt y hy := by simp [refs, h] at hy
  inc j y hy v hv := by
    cases j with
    | zero => simp at hy; subst hy; rw [h] at hv; simp at hv
    | succ j => simp at hy

theorem grow_fresh {Ad : Nat → Prop} {l ns : List ANode} (h : Fresh l.length ns) : Grow Ad l (l ++ ns) [] :=
  ⟨l, ns, rfl, rfl, fun _ x' h1 h2 => ⟨x', h1, h2⟩, h, by simp, by simpa using h.nodup⟩

theorem grow_refl (Ad : Nat → Prop) (l : List ANode) : Grow Ad l l [] :=
  ⟨l, [], by simp, rfl, fun _ x' h1 h2 => ⟨x', h1, h2⟩, ⟨by simp [refs], by simp [refs], by simp⟩, by simp, by simp [refs]⟩

theorem map_cont_length {l0 l : List ANode} (h : l0.map ANode.cont = l.map ANode.cont) : l0.length = l.length := by
  have := congrArg List.length h; simpa using this

theorem map_cont_lcont {l0 l : List ANode} (h : l0.map ANode.cont = l.map ANode.cont) : lcont l0 = lcont l := by
  funext i
  unfold lcont
  rw [← List.getElem?_map, ← List.getElem?_map, h]

theorem map_cont_refs {l0 l : List ANode} (h : l0.map ANode.cont = l.map ANode.cont) : refs l0 = refs l := by
  have : ∀ l : List ANode, refs l = (l.map ANode.cont).flatMap fun c => c.vals.map V.id := by
    intro l; simp [refs, List.flatMap_map, ANode.cont]
  rw [this, this, h]

/-- two successive growths -/
theorem grow_trans {Ad Ad1 : Nat → Prop} {l l1 l2 : List ANode} {ws ws1 : List Nat} (h : Grow Ad l l1 ws) (h1 : Grow Ad1 l1 l2 ws1)
    (had : ∀ w, Ad1 w → w < l1.length → (∃ x : ANode, l1[w]? = some x ∧ x.root = true) ∧ w < l.length ∧ Ad w) : Grow Ad l l2 (ws ++ ws1) := by
  obtain ⟨l0, ns, rfl, e1, e2, e3, e4, e5⟩ := h
  obtain ⟨m0, ms, rfl, f1, f2, f3, f4, f5⟩ := h1
  have hl0 := map_cont_length e1
  have hm0 := map_cont_length f1
  simp at hm0
  -- split the middle document at the old length
  obtain ⟨p, q, rfl, hp⟩ : ∃ p q, m0 = p ++ q ∧ p.length = l0.length :=
    ⟨m0.take l0.length, m0.drop l0.length, by simp, by simp; omega⟩
  rw [List.map_append, List.map_append] at f1
  obtain ⟨f11, f12⟩ := List.append_inj f1 (by simp [hp])
  have hq := map_cont_length f12
  have hrq := map_cont_refs f12
  refine ⟨p, q ++ ms, by simp, by rw [f11, e1], ?_, ?_, ?_, ?_⟩
  · intro j x' h1 h2
    have hj := (List.getElem?_eq_some_iff.1 h1).1
    obtain ⟨x, g1, g2⟩ := f2 j x' (by rw [List.getElem?_append_left hj]; exact h1) h2
    rw [List.getElem?_append_left (by omega)] at g1
    exact e2 j x g1 g2
  · refine ⟨?_, ?_, ?_⟩
    · rw [refs_append, hrq, List.nodup_append]
      refine ⟨e3.nodup, f3.nodup, ?_⟩
      intro a ha b hb
      have := e3.lt a ha
      have := f3.gt b hb
      simp at this; omega
    · intro x hx
      rw [refs_append, List.mem_append, hrq] at hx
      simp only [List.length_append]
      rcases hx with hx | hx
      · have := e3.lt x hx; omega
      · have := f3.lt x hx; simp at this; omega
    · intro j x hx v hv
      rcases getElem?_append_cases hx with ⟨_, h'⟩ | ⟨k, rfl, h'⟩
      · have : (q.map ANode.cont)[j]? = some x.cont := by rw [List.getElem?_map, h']; rfl
        rw [f12, List.getElem?_map] at this
        cases hy : ns[j]? with
        | none => rw [hy] at this; simp at this
        | some y =>
          rw [hy] at this
          simp [ANode.cont] at this
          exact e3.inc j y hy v (by rw [this.2.2]; exact hv)
      · have := f3.inc k x h' v hv; simp at this; omega
  · intro w hw
    rcases List.mem_append.1 hw with hw | hw
    · rcases e4 w hw with ⟨g1, g2⟩ | ⟨g1, g2, x', g3, g4⟩
      · left; simp at g2 ⊢; omega
      · right
        refine ⟨g1, g2, ?_⟩
        have hpw : w < p.length := by omega
        refine ⟨p[w], List.getElem?_eq_getElem hpw, ?_⟩
        cases hr : (p[w]).root with
        | false => rfl
        | true =>
          obtain ⟨y, k1, k2⟩ := f2 w p[w] (by rw [List.getElem?_append_left hpw, List.getElem?_eq_getElem hpw]) hr
          rw [List.getElem?_append_left (by omega), g3] at k1
          simp at k1; subst k1; rw [g4] at k2; simp at k2
    · rcases f4 w hw with ⟨g1, g2⟩ | ⟨g1, g2, x', g3, g4⟩
      · left; simp at g1 g2 ⊢; omega
      · right
        obtain ⟨_, k2, k3⟩ := had w g1 g2
        refine ⟨k3, k2, x', ?_, g4⟩
        rwa [List.getElem?_append_left (by omega)] at g3
  · have hperm : ((ws ++ ws1) ++ refs (q ++ ms)).Perm ((ws ++ refs ns) ++ (ws1 ++ refs ms)) := by
      rw [refs_append, hrq]
      simp only [List.append_assoc]
      refine List.Perm.append_left ws ?_
      rw [← List.append_assoc, ← List.append_assoc]
      exact List.Perm.append_right _ List.perm_append_comm
    rw [hperm.nodup_iff, List.nodup_append]
    refine ⟨e5, f5, ?_⟩
    intro a ha b hb he
    subst he
    -- a comes from the first growth: it is < l1.length
    have ha1 : a < (l0 ++ ns).length := by
      rcases List.mem_append.1 ha with ha | ha
      · rcases e4 a ha with ⟨_, g2⟩ | ⟨_, g2, _⟩
        · exact g2
        · simp; omega
      · have := e3.lt a ha; simp; omega
    rcases List.mem_append.1 hb with hb | hb
    · rcases f4 a hb with ⟨g1, _⟩ | ⟨g1, g2, _⟩
      · omega
      · -- adopted in the second growth: it was flagged in l1, so it cannot be one of the first
        obtain ⟨⟨x, k1, k2⟩, k3, _⟩ := had a g1 g2
        rcases List.mem_append.1 ha with ha | ha
        · rcases e4 a ha with ⟨g1, _⟩ | ⟨_, _, x', g3, g4⟩
          · omega
          · rw [List.getElem?_append_left (by omega), g3] at k1
            simp at k1; subst k1; rw [g4] at k2; simp at k2
        · have := e3.gt a ha; omega
    · have := f3.gt a hb; omega

/-! ## insertions -/

/-- the adoption that one call may perform -/
def AdoptIn (a : AH) (r : Ref) (ps : List (Node × Node)) (to w : Nat) : Prop :=
  ∃ p ∈ ps, A.document a p.1 = some r ∧ p.1.id = to ∧ A.document a p.2 = some r ∧ p.2.id = w ∧ AdoptA a r r w to

theorem copyOrAdopt_grow {a a' : AH} {fuel : Nat} {r : Ref} {o : Option Ref} {id to id' : Nat} {n : ANode}
    (hg : A.getOf a o id = some n) (h : A.copyOrAdopt a fuel r o id to = some (a', id')) :
    Grow (fun w => o = some r ∧ w = id ∧ AdoptA a r r w to) (a r).nodes (a' r).nodes [id'] := by
  unfold A.copyOrAdopt at h
  rw [hg] at h
  simp only at h
  split at h
  · rename_i hc
    obtain ⟨rfl, h1, h2, h3⟩ := hc
    simp at h
    obtain ⟨rfl, rfl⟩ := h
    rw [modify_nodes]
    have hlt : id < (a r).nodes.length := (List.getElem?_eq_some_iff.1 hg).1
    refine ⟨_, [], (List.append_nil _).symm, ?_, ?_, ⟨by simp [refs], by simp [refs], by simp⟩, ?_, by simp [refs]⟩
    · apply List.ext_getElem?
      intro j
      rw [List.getElem?_map, List.getElem?_map]
      by_cases hj : j = id
      · subst hj; rw [modify_eq]; cases (a r).nodes[j]? <;> rfl
      · rw [modify_ne _ _ hj]
    · intro j x' g1 g2
      by_cases hj : j = id
      · subst hj
        rw [modify_eq] at g1
        cases hx : (a r).nodes[j]? with
        | none => rw [hx] at g1; simp at g1
        | some x => rw [hx] at g1; simp at g1; rw [← g1] at g2; simp at g2
      · rw [modify_ne _ _ hj] at g1; exact ⟨x', g1, g2⟩
    · intro w hw
      simp at hw; subst hw
      right
      refine ⟨⟨rfl, rfl, rfl, h1, h3, n, hg, h2⟩, hlt, { n with root := false }, ?_, ?_⟩
      · rw [modify_eq, show (a r).nodes[w]? = some n from hg]; rfl
      · rfl
  · split at h
    · simp at h
    · rename_i d id1 hc
      obtain ⟨rfl, ns, rfl, hpos, hf⟩ := ncopy_fresh hc
      simp at h
      obtain ⟨rfl, rfl⟩ := h
      simp only [AH.set, if_true]
      refine ⟨_, ns, rfl, rfl, fun _ x' h1 h2 => ⟨x', h1, h2⟩, hf, ?_, ?_⟩
      · intro w hw; simp at hw; subst hw; left; simp; omega
      · simp only [List.singleton_append, List.nodup_cons]
        exact ⟨fun hm => by have := hf.gt _ hm; omega, hf.nodup⟩

theorem ext_get {a a' : AH} {r : Ref} (h : Ext a a' r) {v : Node} {x : ANode} (hx : A.get a v = some x) : ∃ x', A.get a' v = some x' := by
  unfold A.get at *
  rw [h.document]
  cases hd : A.document a v with
  | none => rw [hd] at hx; simp [A.getOf] at hx
  | some q =>
    rw [hd] at hx
    simp only [A.getOf] at *
    by_cases hq : q = r
    · subst hq
      have := (List.getElem?_eq_some_iff.1 hx).1
      exact ⟨_, List.getElem?_eq_getElem (Nat.lt_of_lt_of_le this h.len)⟩
    · rw [h.other q hq]; exact ⟨x, hx⟩

theorem appendLoop_grow {fuel : Nat} {r : Ref} {to : Nat} : ∀ {vals : List Node} {a a' : AH} {vv vv' : List V},
    (∀ v ∈ vals, ∃ x, A.get a v = some x) → A.appendLoop fuel r to vals a vv = some (a', vv') →
    ∃ ws, vv' = vv ++ ws.map (fun w => ⟨w, []⟩) ∧
      Grow (fun w => ∃ v ∈ vals, A.document a v = some r ∧ v.id = w ∧ AdoptA a r r w to) (a r).nodes (a' r).nodes ws
  | [], a, a', vv, vv', _, h => by
    simp [A.appendLoop] at h
    obtain ⟨rfl, rfl⟩ := h
    exact ⟨[], by simp, grow_refl _ _⟩
  | v :: vals, a, a', vv, vv', hlive, h => by
    unfold A.appendLoop at h
    split at h
    · simp at h
    · rename_i a1 id1 hc
      have hext := copyOrAdopt_ext hc
      obtain ⟨x, hx⟩ := hlive v (by simp)
      have hg1 := copyOrAdopt_grow (show A.getOf a (A.document a v) v.id = some x from hx) hc
      obtain ⟨ws, rfl, hg2⟩ := appendLoop_grow (fun w hw => by
        obtain ⟨y, hy⟩ := hlive w (by simp [hw])
        exact ext_get hext hy) h
      refine ⟨id1 :: ws, by simp, ?_⟩
      have key : ∀ w u, u ∈ vals → A.document a u = some r → u.id = w → AdoptA a1 r r w to → AdoptA a r r w to := by
        rintro w u hu hdu rfl ⟨_, h1, h2, y, h3, h4⟩
        obtain ⟨z, hz⟩ := hlive u (by simp [hu])
        unfold A.get at hz
        rw [hdu] at hz
        have hlt : u.id < (a r).nodes.length := (List.getElem?_eq_some_iff.1 (show (a r).nodes[u.id]? = some z from hz)).1
        obtain ⟨y', g1, g2⟩ := hext.root u.id y hlt h3 h4
        exact ⟨rfl, h1, h2, y', g1, g2⟩
      have hg1' : Grow (fun w => ∃ u ∈ v :: vals, A.document a u = some r ∧ u.id = w ∧ AdoptA a r r w to) (a r).nodes (a1 r).nodes [id1] := by
        obtain ⟨l0, ns, e1, e2, e3, e4, e5, e6⟩ := hg1
        refine ⟨l0, ns, e1, e2, e3, e4, fun w hw => ?_, e6⟩
        rcases e5 w hw with h | ⟨⟨k1, k2, k3⟩, h2⟩
        · exact Or.inl h
        · exact Or.inr ⟨⟨v, by simp, k1, k2.symm, k3⟩, h2⟩
      have := grow_trans hg1' hg2 (by
        rintro w ⟨u, hu, hdu, hw, had⟩ hlt
        rw [hext.document] at hdu
        have hA := key w u hu hdu hw had
        refine ⟨?_, ?_, u, by simp [hu], hdu, hw, hA⟩
        · obtain ⟨_, _, _, y, h3, h4⟩ := had; exact ⟨y, h3, h4⟩
        · obtain ⟨_, _, _, y, h3, h4⟩ := hA; exact (List.getElem?_eq_some_iff.1 h3).1)
      simpa using this

/-! ## every call -/

theorem setKeyV_ids (vs : List V) (k : Bytes) (id : Nat) : ∃ ks, ((setKeyV vs k id).map V.id).Perm (ks ++ [id]) ∧
    (∀ x ∈ ks, x ∈ vs.map V.id) ∧ ((vs.map V.id).Nodup → ks.Nodup) := by
  induction vs with
  | nil => exact ⟨[], by simp [setKeyV], by simp, by simp⟩
  | cons v vs ih =>
    rw [setKeyV_cons]
    split
    · refine ⟨vs.map V.id, ?_, ?_, ?_⟩
      · simp only [List.map_cons]; exact (List.perm_append_singleton _ _).symm
      · intro x hx; simp only [List.map_cons]; exact List.mem_cons_of_mem _ hx
      · intro h; simp only [List.map_cons, List.nodup_cons] at h; exact h.2
    · obtain ⟨ks, h1, h2, h3⟩ := ih
      refine ⟨v.id :: ks, ?_, ?_, ?_⟩
      · simp only [List.map_cons, List.cons_append]; exact h1.cons _
      · intro x hx
        simp only [List.map_cons, List.mem_cons] at hx ⊢
        rcases hx with h | h
        · exact Or.inl h
        · exact Or.inr (h2 x h)
      · intro h
        simp only [List.map_cons, List.nodup_cons] at h ⊢
        exact ⟨fun hm => h.1 (h2 _ hm), h3 h.2⟩

theorem set_ids (vs : List V) {i : Nat} (hi : i < vs.length) (id : Nat) : ∃ ks, ((vs.set i ⟨id, []⟩).map V.id).Perm (ks ++ [id]) ∧
    (∀ x ∈ ks, x ∈ vs.map V.id) ∧ ((vs.map V.id).Nodup → ks.Nodup) := by
  induction vs generalizing i with
  | nil => simp at hi
  | cons v vs ih =>
    cases i with
    | zero =>
      refine ⟨vs.map V.id, ?_, ?_, ?_⟩
      · simp only [List.set_cons_zero, List.map_cons]; exact (List.perm_append_singleton _ _).symm
      · intro x hx; simp only [List.map_cons]; exact List.mem_cons_of_mem _ hx
      · intro h; simp only [List.map_cons, List.nodup_cons] at h; exact h.2
    | succ i =>
      obtain ⟨ks, h1, h2, h3⟩ := ih (i := i) (by simpa using hi)
      refine ⟨v.id :: ks, ?_, ?_, ?_⟩
      · simp only [List.set_cons_succ, List.map_cons, List.cons_append]; exact h1.cons _
      · intro x hx
        simp only [List.map_cons, List.mem_cons] at hx ⊢
        rcases hx with h | h
        · exact Or.inl h
        · exact Or.inr (h2 x h)
      · intro h
        simp only [List.map_cons, List.nodup_cons] at h ⊢
        exact ⟨fun hm => h.1 (h2 _ hm), h3 h.2⟩

theorem swapRemoveV_ids (vs : List V) {i : Nat} (hi : i < vs.length) :
    (∀ x ∈ (swapRemoveV vs i).map V.id, x ∈ vs.map V.id) ∧ ((vs.map V.id).Nodup → ((swapRemoveV vs i).map V.id).Nodup) := by
  rw [swapRemoveV_eq]
  have hp := (swapRm_perm vs hi).map V.id
  have hs : ((vs.eraseIdx i).map V.id).Sublist (vs.map V.id) := (List.eraseIdx_sublist vs i).map _
  exact ⟨fun x hx => hs.subset (hp.mem_iff.1 hx), fun h => hp.nodup_iff.2 (h.sublist hs)⟩

/-- an update of one node that keeps a selection of its children -/
def Keeps (f : ANode → ANode) : Prop := ∀ x, (∀ k ∈ ids (f x), k ∈ ids x) ∧ ((ids x).Nodup → (ids (f x)).Nodup)

theorem keeps_of_sub {f : ANode → ANode} (h : ∀ x, (f x).vals.Sublist x.vals) : Keeps f := fun x =>
  ⟨fun _ hk => ((h x).map V.id).subset hk, fun hn => hn.sublist ((h x).map V.id)⟩

theorem keeps_slice (i j : Int) : Keeps (A.sliceF i j) := keeps_of_sub fun x => by
  unfold A.sliceF
  split
  · exact (List.drop_sublist _ _).trans (List.take_sublist _ _)
  · exact List.Sublist.refl _

theorem keeps_remove (i : Int) : Keeps (A.removeF i) := keeps_of_sub fun x => by
  unfold A.removeF
  split
  · exact List.eraseIdx_sublist _ _
  · exact List.Sublist.refl _

theorem keeps_scalar (t : Typ) (b : Bytes) : Keeps (A.scalarF t b) := keeps_of_sub fun _ => List.nil_sublist _

theorem keeps_del (k : Bytes) : Keeps (A.delF k) := by
  intro x
  unfold A.delF
  split
  · cases hf : x.vals.findIdx? (fun v => decide (v.key = k)) with
    | none => exact ⟨fun _ h => h, fun h => h⟩
    | some i => exact swapRemoveV_ids x.vals (List.findIdx?_eq_some_iff_findIdx_eq.1 hf).1
  · exact ⟨fun _ h => h, fun h => h⟩

theorem eff_update {Ad : Nat → Nat → Prop} {a : AH} {n : Node} {f : ANode → ANode} (hf : Keeps f) (r : Ref) :
    Eff Ad (a r).nodes (A.update a n f r).nodes := by
  unfold A.update
  cases hg : A.get a n with
  | none => exact .same _
  | some x =>
    obtain ⟨q, h1, h2⟩ := aget_doc hg
    rw [h2]
    simp only
    by_cases hq : r = q
    · subst hq
      rw [modify_nodes]
      have hx : (a r).nodes[n.id]? = some x := by unfold A.get at hg; rw [h1] at hg; exact hg
      exact .shrink hx (hf x).1 (hf x).2 (.same _)
    · simp only [A.modify, AH.set, if_neg hq]; exact .same _

theorem eff_stripFrom {Ad : Nat → Nat → Prop} {rec : List ANode → Nat → Option (List ANode)}
    (hr : ∀ d id d' e, rec d id = some d' → Eff Ad d' e → Eff Ad d e) (id : Nat) : ∀ {k j : Nat} {d d' e : List ANode},
    A.stripFrom rec id k j d = some d' → Eff Ad d' e → Eff Ad d e
  | 0, j, d, d', e, h, he => by simp [A.stripFrom] at h; rw [h]; exact he
  | k + 1, j, d, d', e, h, he => by
    unfold A.stripFrom at h
    split at h
    · simp at h
    · split at h
      · simp at h; rw [h]; exact he
      · split at h
        · simp at h
        · rename_i d1 hd1
          exact hr _ _ _ _ hd1 (eff_stripFrom hr id h he)

theorem eff_stripLoop {Ad : Nat → Nat → Prop} {rec : List ANode → Nat → Option (List ANode)}
    (hr : ∀ d id d' e, rec d id = some d' → Eff Ad d' e → Eff Ad d e) (id : Nat) (key : Bytes) : ∀ {k i : Nat} {d d' e : List ANode},
    A.stripLoop rec id key k i d = some d' → Eff Ad d' e → Eff Ad d e
  | 0, i, d, d', e, h, he => by simp [A.stripLoop] at h; rw [h]; exact he
  | k + 1, i, d, d', e, h, he => by
    unfold A.stripLoop at h
    split at h
    · simp at h
    · rename_i nn hnn
      split at h
      · simp at h
      · rename_i v hv
        split at h
        · have hi := (List.getElem?_eq_some_iff.1 hv).1
          have hk := swapRemoveV_ids nn.vals hi
          refine .shrink (i := id) (f := fun n => { n with vals := swapRemoveV nn.vals i }) hnn ?_ ?_ (eff_stripFrom hr id h he)
          · exact hk.1
          · exact hk.2
        · split at h
          · simp at h
          · rename_i d1 hd1
            exact hr _ _ _ _ hd1 (eff_stripLoop hr id key h he)

theorem eff_strip {Ad : Nat → Nat → Prop} (key : Bytes) : ∀ (fuel : Nat) (d : List ANode) (id : Nat) (d' e : List ANode),
    A.strip key fuel d id = some d' → Eff Ad d' e → Eff Ad d e
  | 0, d, id, d', e, h, _ => by simp [A.strip] at h
  | fuel + 1, d, id, d', e, h, he => by
    unfold A.strip at h
    split at h
    · simp at h; rw [h]; exact he
    · split at h
      · exact eff_stripLoop (eff_strip key fuel) id key h he
      · simp at h; rw [h]; exact he

/-- `Append` is only given live nodes, on the abstract machine -/
def ALive (a : AH) (op : Op) : Prop := ∀ n vs, op = .append n vs → ∀ v ∈ vs, ∃ x, A.get a v = some x

/-- the effect of `copyOrAdopt` followed by storing the id -/
theorem eff_store {a a1 : AH} {fuel : Nat} {r : Ref} {n v : Node} {id1 : Nat} {x : ANode} {f : ANode → ANode}
    (hd : A.document a n = some r) (hx : A.get a n = some x)
    (hc : A.copyOrAdopt a fuel r (A.document a v) v.id n.id = some (a1, id1)) (hlt : id1 < maxUint)
    (hf : ∀ y : ANode, y.cont = x.cont → ∃ ks, (ids (f y)).Perm (ks ++ [id1]) ∧ (∀ k ∈ ks, k ∈ ids y) ∧ ((ids y).Nodup → ks.Nodup)) (q : Ref) :
    Eff (AdoptIn a q [(n, v)]) (a q).nodes (A.modify a1 r n.id f q).nodes := by
  have hext := copyOrAdopt_ext hc
  by_cases hq : q = r
  · subst hq
    rw [modify_nodes]
    have hx' : (a q).nodes[n.id]? = some x := by unfold A.get at hx; rw [hd] at hx; exact hx
    have hnlt := (List.getElem?_eq_some_iff.1 hx').1
    cases hv : A.getOf a (A.document a v) v.id with
    | none =>
      unfold A.copyOrAdopt at hc
      rw [hv] at hc
      simp at hc
      omega
    | some y =>
      have hg := copyOrAdopt_grow hv hc
      have hc1 := hext.old n.id hnlt
      have hg' : Grow (AdoptIn a q [(n, v)] n.id) (a q).nodes (a1 q).nodes [id1] := by
        obtain ⟨l0, ns, e1, e2, e3, e4, e5, e6⟩ := hg
        refine ⟨l0, ns, e1, e2, e3, e4, fun w hw => ?_, e6⟩
        rcases e5 w hw with h | ⟨⟨k1, k2, k3⟩, h2⟩
        · exact Or.inl h
        · exact Or.inr ⟨⟨(n, v), by simp, hd, rfl, k1, k2.symm, k3⟩, h2⟩
      have hc2 : A.cont a1 q n.id = some x.cont := by rw [hc1]; unfold A.cont lcont; rw [hx']; rfl
      obtain ⟨x1, hx1, hxc⟩ := acont_some hc2
      obtain ⟨ks, k1, k2, k3⟩ := hf x1 hxc
      exact .insert hg' hnlt hx1 k1 k2 k3
  · simp only [A.modify, AH.set, if_neg hq]
    rw [hext.other q hq]; exact .same _

theorem run_eff {fuel : Nat} {a a' : AH} {op : Op} (h : A.run fuel a op = some a') (hlive : ALive a op) (q : Ref) :
    Eff (AdoptIn a q op.inserted) (a q).nodes (a' q).nodes := by
  have keep : ∀ {Ad : Nat → Nat → Prop}, some a = some a' → Eff Ad (a q).nodes (a' q).nodes := by
    intro Ad h; simp at h; rw [h]; exact .same _
  have upd : ∀ {Ad : Nat → Nat → Prop} {n f}, Keeps f → some (A.update a n f) = some a' → Eff Ad (a q).nodes (a' q).nodes := by
    intro Ad n f hf h; simp at h; rw [← h]; exact eff_update hf q
  have app : ∀ {Ad : Nat → Nat → Prop} {r : Ref} {d : AD}, (q = r → Eff Ad (a q).nodes d.nodes) → some (a.set r d) = some a' →
      Eff Ad (a q).nodes (a' q).nodes := by
    intro Ad r d hd h
    simp at h; rw [← h]
    unfold AH.set
    split
    · rename_i hq; exact hd hq
    · exact .same _
  cases op <;> simp only [A.run] at h
  case parse r s =>
    refine app ?_ h
    rintro rfl
    unfold A.parse
    split
    · exact .grow (to := 0) (grow_fresh (flat_fresh _ _))
    all_goals exact .same _
  case reset r => exact app (fun _ => .clear _) h
  case add r t b =>
    refine app ?_ h
    rintro rfl
    exact .grow (to := 0) (grow_fresh (fresh_leaf _ _ rfl))
  case set n k v =>
    unfold A.nset at h
    cases hg : A.get a n with
    | none => rw [hg] at h; exact keep h
    | some x =>
      obtain ⟨r, h1, h2⟩ := aget_doc hg
      rw [hg, h2] at h
      simp only at h
      split at h
      · split at h
        · simp at h
        · rename_i a1 id1 hc
          split at h
          · rename_i hlt
            simp at h; rw [← h]
            refine eff_store h1 hg hc hlt (fun y hy => ?_) q
            obtain ⟨ks, k1, k2, k3⟩ := setKeyV_ids y.vals k id1
            exact ⟨ks, k1, k2, k3⟩
          · simp at h; rw [← h]
            by_cases hq : q = r
            · subst hq
              cases hv : A.getOf a (A.document a v) v.id with
              | none =>
                unfold A.copyOrAdopt at hc
                rw [hv] at hc
                simp at hc
                rw [hc.1]; exact .same _
              | some y =>
                obtain ⟨l0, ns, e1, e2, e3, e4, e5, e6⟩ := copyOrAdopt_grow hv hc
                exact .grow (to := n.id) (ws := []) ⟨l0, ns, e1, e2, e3, e4, by simp, by simpa using e4.nodup⟩
            · rw [(copyOrAdopt_ext hc).other q hq]; exact .same _
      · exact keep h
  case replace n i v =>
    unfold A.replace at h
    cases hg : A.get a n with
    | none => rw [hg] at h; exact keep h
    | some x =>
      obtain ⟨r, h1, h2⟩ := aget_doc hg
      rw [hg, h2] at h
      simp only at h
      split at h
      · rename_i hcond
        split at h
        · simp at h
        · rename_i a1 id1 hc
          split at h
          · rename_i hlt
            simp at h; rw [← h]
            refine eff_store h1 hg hc hlt (fun y hy => ?_) q
            have hyv : y.vals = x.vals := by simp [ANode.cont] at hy; exact hy.2.2
            obtain ⟨ks, k1, k2, k3⟩ := set_ids y.vals (i := i.toNat) (by rw [hyv]; omega) id1
            exact ⟨ks, k1, k2, k3⟩
          · simp at h; rw [← h]
            by_cases hq : q = r
            · subst hq
              cases hv : A.getOf a (A.document a v) v.id with
              | none =>
                unfold A.copyOrAdopt at hc
                rw [hv] at hc
                simp at hc
                rw [hc.1]; exact .same _
              | some y =>
                obtain ⟨l0, ns, e1, e2, e3, e4, e5, e6⟩ := copyOrAdopt_grow hv hc
                exact .grow (to := n.id) (ws := []) ⟨l0, ns, e1, e2, e3, e4, by simp, by simpa using e4.nodup⟩
            · rw [(copyOrAdopt_ext hc).other q hq]; exact .same _
      · exact keep h
  case append n vs =>
    unfold A.append at h
    split at h
    · exact keep h
    · cases hg : A.get a n with
      | none => rw [hg] at h; exact keep h
      | some x =>
        obtain ⟨r, h1, h2⟩ := aget_doc hg
        rw [hg, h2] at h
        simp only at h
        split at h
        · split at h
          · simp at h
          · rename_i a1 vv hc
            simp at h
            rw [← h]
            have hext := appendLoop_ext hc
            by_cases hq : q = r
            · subst hq
              rw [modify_nodes]
              have hx' : (a q).nodes[n.id]? = some x := by unfold A.get at hg; rw [h1] at hg; exact hg
              have hnlt := (List.getElem?_eq_some_iff.1 hx').1
              obtain ⟨ws, rfl, l0, ns, e1, e2, e3, e4, e5, e6⟩ := appendLoop_grow (hlive n vs rfl) hc
              have hg' : Grow (AdoptIn a q (Op.append n vs).inserted n.id) (a q).nodes (a1 q).nodes ws := by
                refine ⟨l0, ns, e1, e2, e3, e4, fun w hw => ?_, e6⟩
                rcases e5 w hw with h | ⟨⟨v, k0, k1, k2, k3⟩, h2⟩
                · exact Or.inl h
                · exact Or.inr ⟨⟨(n, v), by simp [Op.inserted, k0], h1, rfl, k1, k2, k3⟩, h2⟩
              have hc2 : A.cont a1 q n.id = some x.cont := by rw [hext.old n.id hnlt]; unfold A.cont lcont; rw [hx']; rfl
              obtain ⟨x1, hx1, hxc⟩ := acont_some hc2
              have hxv : x1.vals = x.vals := by simp [ANode.cont] at hxc; exact hxc.2.2
              refine .insert (ks := ids x1) hg' hnlt hx1 ?_ (fun _ h => h) (fun h => h)
              simp only [ids, hxv, List.map_append, List.map_map]
              refine List.Perm.append_left _ ?_
              rw [show (V.id ∘ fun w => (⟨w, []⟩ : V)) = id from rfl, List.map_id]
            · simp only [A.modify, AH.set, if_neg hq]
              rw [hext.other q hq]; exact .same _
        · exact keep h
  case slice n i j => exact upd (keeps_slice i j) h
  case remove n i => exact upd (keeps_remove i) h
  case strip n k =>
    unfold A.nstrip at h
    split at h
    · rename_i r hr
      split at h
      · rename_i d hd
        refine app ?_ h
        rintro rfl
        exact eff_strip k fuel _ _ _ _ hd (.same _)
      · simp at h
    · exact keep h
  case del n k => exact upd (keeps_del k) h
  case setScalar n t b => exact upd (keeps_scalar t b) h
  all_goals exact keep h

/-! ## invariants of one document -/

def Closed (l : List ANode) : Prop := ∀ x ∈ refs l, x < l.length
def AllFinite (l : List ANode) : Prop := ∀ i, FiniteAt (lcont l) i

theorem lcont_some {l : List ANode} {i : Nat} {c : Cont} (h : lcont l i = some c) : ∃ x, l[i]? = some x ∧ x.cont = c := by
  unfold lcont at h
  cases hx : l[i]? with
  | none => rw [hx] at h; simp at h
  | some x => rw [hx] at h; simp at h; exact ⟨x, rfl, h⟩

theorem lcont_refs {l : List ANode} {i : Nat} {c : Cont} (h : lcont l i = some c) {v : V} (hv : v ∈ c.vals) : v.id ∈ refs l := by
  obtain ⟨x, hx, rfl⟩ := lcont_some h
  exact mem_refs.2 ⟨x, List.mem_of_getElem? hx, v, hv, rfl⟩

theorem grow_length {Ad : Nat → Prop} {l l1 : List ANode} {ws : List Nat} (h : Grow Ad l l1 ws) : l.length ≤ l1.length := by
  obtain ⟨l0, ns, rfl, e1, _⟩ := h
  have := map_cont_length e1
  simp; omega

theorem grow_refs {Ad : Nat → Prop} {l l1 : List ANode} {ws : List Nat} (h : Grow Ad l l1 ws) :
    ∃ rs, refs l1 = refs l ++ rs ∧ rs.Nodup ∧ (∀ x ∈ rs, l.length < x ∧ x < l1.length) ∧ (ws ++ rs).Nodup := by
  obtain ⟨l0, ns, rfl, e1, _, e3, _, e5⟩ := h
  have hl := map_cont_length e1
  refine ⟨refs ns, by rw [refs_append, map_cont_refs e1], e3.nodup, fun x hx => ⟨e3.gt x hx, ?_⟩, e5⟩
  have := e3.lt x hx; simp; omega

theorem grow_ws {Ad : Nat → Prop} {l l1 : List ANode} {ws : List Nat} (h : Grow Ad l l1 ws) :
    ∀ w ∈ ws, (l.length ≤ w ∧ w < l1.length) ∨ (Ad w ∧ w < l.length) := by
  obtain ⟨l0, ns, rfl, _, _, _, e4, _⟩ := h
  intro w hw
  rcases e4 w hw with h | ⟨h1, h2, _⟩
  · exact Or.inl h
  · exact Or.inr ⟨h1, h2⟩

theorem grow_closed {Ad : Nat → Prop} {l l1 : List ANode} {ws : List Nat} (h : Grow Ad l l1 ws) (hc : Closed l) : Closed l1 := by
  obtain ⟨rs, e1, e2, e3, _⟩ := grow_refs h
  have := grow_length h
  intro x hx
  rw [e1] at hx
  rcases List.mem_append.1 hx with hx | hx
  · have := hc x hx; omega
  · exact (e3 x hx).2

theorem eff_closed {Ad : Nat → Nat → Prop} {l l' : List ANode} (h : Eff Ad l l') (hc : Closed l) : Closed l' := by
  induction h with
  | same => exact hc
  | clear => intro x hx; simp [refs] at hx
  | grow hg => exact grow_closed hg hc
  | @insert l l1 ws to x f ks hg hto hx hp hk _ =>
    have hc1 := grow_closed hg hc
    obtain ⟨rest, p1, p2⟩ := refs_modify hx f
    intro y hy
    simp only [List.length_modify]
    have hlen := grow_length hg
    rcases List.mem_append.1 (p2.mem_iff.1 hy) with hy | hy
    · rcases List.mem_append.1 (hp.mem_iff.1 hy) with hy | hy
      · exact hc1 y (p1.mem_iff.2 (List.mem_append_left _ (hk y hy)))
      · rcases grow_ws hg y hy with ⟨_, h⟩ | ⟨_, h⟩
        · exact h
        · omega
    · exact hc1 y (p1.mem_iff.2 (List.mem_append_right _ hy))
  | @shrink l l' i x f hx hk _ _ ih =>
    apply ih
    obtain ⟨rest, p1, p2⟩ := refs_modify hx f
    intro y hy
    simp only [List.length_modify]
    rcases List.mem_append.1 (p2.mem_iff.1 hy) with hy | hy
    · exact hc y (p1.mem_iff.2 (List.mem_append_left _ (hk y hy)))
    · exact hc y (p1.mem_iff.2 (List.mem_append_right _ hy))

theorem eff_nodup {Ad : Nat → Nat → Prop} {l l' : List ANode} (h : Eff Ad l l') (hc : Closed l) (hn : (refs l).Nodup)
    (had : ∀ to w, Ad to w → w ∉ refs l) : (refs l').Nodup := by
  induction h with
  | same => exact hn
  | clear => simp [refs]
  | @grow l l1 ws to hg =>
    obtain ⟨rs, e1, e2, e3, _⟩ := grow_refs hg
    rw [e1, List.nodup_append]
    refine ⟨hn, e2, fun a ha b hb => ?_⟩
    have := hc a ha; have := e3 b hb; omega
  | @insert l l1 ws to x f ks hg hto hx hp hk hkn =>
    obtain ⟨rs, e1, e2, e3, e4⟩ := grow_refs hg
    have hn1 : (refs l1).Nodup := by
      rw [e1, List.nodup_append]
      refine ⟨hn, e2, fun a ha b hb => ?_⟩
      have := hc a ha; have := e3 b hb; omega
    obtain ⟨rest, p1, p2⟩ := refs_modify hx f
    have hperm : (refs (l1.modify to f)).Perm (ws ++ (ks ++ rest)) := by
      refine p2.trans ?_
      rw [← List.append_assoc]
      exact List.Perm.append_right _ (hp.trans List.perm_append_comm)
    rw [hperm.nodup_iff]
    have hn2 := p1.nodup_iff.1 hn1
    rw [List.nodup_append] at hn2
    rw [List.nodup_append] at e4
    rw [List.nodup_append, List.nodup_append]
    refine ⟨e4.1, ⟨hkn hn2.1, hn2.2.1, fun a ha b hb => hn2.2.2 a (hk a ha) b hb⟩, ?_⟩
    intro a ha b hb he
    subst he
    have hmem : a ∈ refs l1 := by
      apply p1.mem_iff.2
      rcases List.mem_append.1 hb with hb | hb
      · exact List.mem_append_left _ (hk a hb)
      · exact List.mem_append_right _ hb
    rw [e1] at hmem
    rcases grow_ws hg a ha with ⟨g1, g2⟩ | ⟨g1, g2⟩
    · rcases List.mem_append.1 hmem with hm | hm
      · have := hc a hm; omega
      · exact e4.2.2 a ha a hm rfl
    · rcases List.mem_append.1 hmem with hm | hm
      · exact had _ _ g1 hm
      · have := e3 a hm; omega
  | @shrink l l' i x f hx hk hkn _ ih =>
    obtain ⟨rest, p1, p2⟩ := refs_modify hx f
    have hsub : ∀ y ∈ refs (l.modify i f), y ∈ refs l := by
      intro y hy
      rcases List.mem_append.1 (p2.mem_iff.1 hy) with hy | hy
      · exact p1.mem_iff.2 (List.mem_append_left _ (hk y hy))
      · exact p1.mem_iff.2 (List.mem_append_right _ hy)
    apply ih
    · intro y hy; simp only [List.length_modify]; exact hc y (hsub y hy)
    · rw [p2.nodup_iff]
      have hn2 := p1.nodup_iff.1 hn
      rw [List.nodup_append] at hn2 ⊢
      exact ⟨hkn hn2.1, hn2.2.1, fun a ha b hb => hn2.2.2 a (hk a ha) b hb⟩
    · intro to w h hm; exact had to w h (hsub w hm)

/-! ### finiteness -/

theorem finite_no_loop {g : Nat → Option Cont} {i : Nat} (h : FiniteAt g i) : ∀ c, g i = some c → ∀ v ∈ c.vals, ¬ Reach g v.id i := by
  induction h with
  | mk i hyp ih =>
    intro c hc v hv hr
    cases hr with
    | refl => exact ih c hc v hv c hc v hv (.refl _)
    | step h1 h2 h3 => exact ih c hc v hv _ h1 _ h2 (h3.trans (.step hc hv (.refl _)))

theorem finite_sub {g g' : Nat → Option Cont} {i : Nat} (h : FiniteAt g i)
    (hsub : ∀ j c' v, g' j = some c' → v ∈ c'.vals → ∃ c w, g j = some c ∧ w ∈ c.vals ∧ w.id = v.id) : FiniteAt g' i := by
  induction h with
  | mk i hyp ih =>
    refine ⟨i, fun c' hc' v hv => ?_⟩
    obtain ⟨c, w, h1, h2, h3⟩ := hsub i c' v hc' hv
    rw [← h3]; exact ih c h1 w h2

theorem finite_insert {g g' : Nat → Option Cont} {to : Nat} {ws : List Nat} (hall : ∀ i, FiniteAt g i)
    (hne : ∀ j, j ≠ to → g' j = g j)
    (hto : ∀ c' v, g' to = some c' → v ∈ c'.vals → (∃ c w, g to = some c ∧ w ∈ c.vals ∧ w.id = v.id) ∨ v.id ∈ ws)
    (hws : ∀ w ∈ ws, ¬ Reach g w to) (i : Nat) : FiniteAt g' i := by
  have h1 : ∀ i, FiniteAt g i → ¬ Reach g i to → FiniteAt g' i := by
    intro i hi
    induction hi with
    | mk i hyp ih =>
      intro hr
      refine ⟨i, fun c hc v hv => ?_⟩
      have hit : i ≠ to := fun e => hr (by rw [e]; exact .refl _)
      rw [hne i hit] at hc
      exact ih c hc v hv fun hr' => hr (.step hc hv hr')
  have h2 : FiniteAt g' to := by
    refine ⟨to, fun c' hc' v hv => ?_⟩
    rcases hto c' v hc' hv with ⟨c, w, e1, e2, e3⟩ | hw
    · rw [← e3]; exact h1 _ (hall _) (finite_no_loop (hall to) c e1 w e2)
    · exact h1 _ (hall _) (hws _ hw)
  have hi := hall i
  induction hi with
  | mk i hyp ih =>
    by_cases hit : i = to
    · subst hit; exact h2
    · refine ⟨i, fun c hc v hv => ?_⟩
      rw [hne i hit] at hc
      exact ih c hc v hv

theorem grow_old {Ad : Nat → Prop} {l l1 : List ANode} {ws : List Nat} (h : Grow Ad l l1 ws) {j : Nat} (hj : j < l.length) :
    lcont l1 j = lcont l j := by
  obtain ⟨l0, ns, rfl, e1, _⟩ := h
  have hl := map_cont_length e1
  rw [lcont_append (by omega), map_cont_lcont e1]

theorem grow_new {Ad : Nat → Prop} {l l1 : List ANode} {ws : List Nat} (h : Grow Ad l l1 ws) {j : Nat} {c : Cont} (hj : l.length ≤ j)
    (hc : lcont l1 j = some c) : ∀ v ∈ c.vals, j < v.id := by
  obtain ⟨l0, ns, rfl, e1, _, e3, _⟩ := h
  have hl := map_cont_length e1
  obtain ⟨x, hx, rfl⟩ := lcont_some hc
  rcases getElem?_append_cases hx with ⟨h, _⟩ | ⟨k, rfl, h⟩
  · omega
  · intro v hv; have := e3.inc k x h v hv; omega

theorem grow_new_reach {Ad : Nat → Prop} {l l1 : List ANode} {ws : List Nat} (h : Grow Ad l l1 ws) {i j : Nat} (hr : Reach (lcont l1) i j)
    (hi : l.length ≤ i) : l.length ≤ j := by
  induction hr with
  | refl => exact hi
  | step h1 h2 _ ih => exact ih (by have := grow_new h hi h1 _ h2; omega)

theorem grow_old_reach {Ad : Nat → Prop} {l l1 : List ANode} {ws : List Nat} (h : Grow Ad l l1 ws) (hc : Closed l) {i j : Nat}
    (hr : Reach (lcont l1) i j) (hi : i < l.length) : Reach (lcont l) i j := by
  induction hr with
  | refl => exact .refl _
  | step h1 h2 _ ih =>
    rw [grow_old h hi] at h1
    exact .step h1 h2 (ih (hc _ (lcont_refs h1 h2)))

theorem grow_finite {Ad : Nat → Prop} {l l1 : List ANode} {ws : List Nat} (h : Grow Ad l l1 ws) (_hc : Closed l) (hf : AllFinite l) :
    AllFinite l1 := by
  have hnew : ∀ k i, l1.length - i ≤ k → l.length ≤ i → FiniteAt (lcont l1) i := by
    intro k
    induction k with
    | zero =>
      intro i hk hi
      refine ⟨i, fun c hc v hv => ?_⟩
      have := lcont_lt hc; omega
    | succ k ih =>
      intro i hk hi
      refine ⟨i, fun c hc v hv => ?_⟩
      have := lcont_lt hc
      have := grow_new h hi hc v hv
      exact ih _ (by omega) (by omega)
  intro i
  have hi := hf i
  induction hi with
  | mk i hyp ih =>
    by_cases hlt : i < l.length
    · refine ⟨i, fun c hc' v hv => ?_⟩
      rw [grow_old h hlt] at hc'
      exact ih c hc' v hv
    · exact hnew _ i (Nat.le_refl _) (by omega)

theorem lcont_modify_ne {l : List ANode} {i j : Nat} {f : ANode → ANode} (h : j ≠ i) : lcont (l.modify i f) j = lcont l j := by
  unfold lcont; rw [modify_ne _ _ h]

theorem lcont_modify_eq {l : List ANode} {i : Nat} {x : ANode} {f : ANode → ANode} (h : l[i]? = some x) :
    lcont (l.modify i f) i = some (f x).cont := by
  unfold lcont; rw [modify_eq, h]; rfl

theorem eff_finite {Ad : Nat → Nat → Prop} {l l' : List ANode} (h : Eff Ad l l') (hc : Closed l) (hf : AllFinite l)
    (had : ∀ to w, Ad to w → ¬ Reach (lcont l) w to) : AllFinite l' := by
  induction h with
  | same => exact hf
  | clear => intro i; exact ⟨i, fun c hc => by simp [lcont] at hc⟩
  | grow hg => exact grow_finite hg hc hf
  | @insert l l1 ws to x f ks hg hto hx hp hk _ =>
    have hf1 := grow_finite hg hc hf
    intro i
    refine finite_insert (to := to) (ws := ws) hf1 (fun j hj => lcont_modify_ne hj) ?_ ?_ i
    · intro c' v hc' hv
      rw [lcont_modify_eq hx] at hc'
      simp at hc'
      subst hc'
      have hm : v.id ∈ ids (f x) := List.mem_map.2 ⟨v, hv, rfl⟩
      rcases List.mem_append.1 (hp.mem_iff.1 hm) with hm | hm
      · left
        obtain ⟨w, hw, he⟩ := List.mem_map.1 (hk _ hm)
        exact ⟨x.cont, w, by unfold lcont; rw [hx]; rfl, hw, he⟩
      · exact Or.inr hm
    · intro w hw hr
      rcases grow_ws hg w hw with ⟨g1, _⟩ | ⟨g1, g2⟩
      · have := grow_new_reach hg hr g1; omega
      · exact had _ _ g1 (grow_old_reach hg hc hr g2)
  | @shrink l l' i x f hx hk _ _ ih =>
    have hsub : ∀ j c' v, lcont (l.modify i f) j = some c' → v ∈ c'.vals → ∃ c w, lcont l j = some c ∧ w ∈ c.vals ∧ w.id = v.id := by
      intro j c' v hc' hv
      by_cases hj : j = i
      · subst hj
        rw [lcont_modify_eq hx] at hc'
        simp at hc'; subst hc'
        obtain ⟨w, hw, he⟩ := List.mem_map.1 (hk v.id (List.mem_map.2 ⟨v, hv, rfl⟩))
        exact ⟨x.cont, w, by unfold lcont; rw [hx]; rfl, hw, he⟩
      · rw [lcont_modify_ne hj] at hc'
        exact ⟨c', v, hc', hv, rfl⟩
    apply ih
    · intro y hy
      obtain ⟨n, hn, v, hv, rfl⟩ := mem_refs.1 hy
      obtain ⟨j, hj⟩ := List.mem_iff_getElem?.1 hn
      obtain ⟨c, w, h1, h2, h3⟩ := hsub j n.cont v (by unfold lcont; rw [hj]; rfl) hv
      simp only [List.length_modify]
      rw [← h3]; exact hc _ (lcont_refs h1 h2)
    · intro j; exact finite_sub (hf j) hsub
    · intro to w h hr
      refine had to w h ?_
      clear had h ih
      induction hr with
      | refl => exact .refl _
      | step h1 h2 _ ih' =>
        obtain ⟨c, u, e1, e2, e3⟩ := hsub _ _ _ h1 h2
        exact .step e1 e2 (by rw [e3]; exact ih')

end Verif.Njson
