import Verif.Spec.Strip
import Verif.Proofs.Invar

/-! `Strip`: which nodes it touches, and the tree it leaves. -/

namespace Verif.Njson
open Verif Verif.Spec

/-! ## what is touched -/

structure Shr (l l' : List ANode) (id : Nat) : Prop where
  len : l'.length = l.length
  sub : ∀ i c', lcont l' i = some c' → ∃ c, lcont l i = some c ∧ ∀ v ∈ c'.vals, v ∈ c.vals
  frame : ∀ j, ¬ Reach (lcont l) id j → l'[j]? = l[j]?
  nodup : (refs l).Nodup → (refs l').Nodup

theorem shr_refl (l : List ANode) (id : Nat) : Shr l l id := ⟨rfl, fun _ c h => ⟨c, h, fun _ hv => hv⟩, fun _ _ => rfl, id_nodup⟩
where id_nodup {l : List ANode} : (refs l).Nodup → (refs l).Nodup := fun h => h

theorem shr_reach {l l' : List ANode} {id a b : Nat} (h : Shr l l' id) (hr : Reach (lcont l') a b) : Reach (lcont l) a b := by
  induction hr with
  | refl => exact .refl _
  | step h1 h2 _ ih =>
    obtain ⟨c, hc, hv⟩ := h.sub _ _ h1
    exact .step hc (hv _ h2) ih

theorem shr_trans {l l1 l2 : List ANode} {id id1 id2 : Nat} (h1 : Shr l l1 id1) (h2 : Shr l1 l2 id2) (r1 : Reach (lcont l) id id1)
    (r2 : Reach (lcont l) id id2) : Shr l l2 id where
  len := by rw [h2.len, h1.len]
  sub i c' hc' := by
    obtain ⟨c1, e1, e2⟩ := h2.sub i c' hc'
    obtain ⟨c, e3, e4⟩ := h1.sub i c1 e1
    exact ⟨c, e3, fun v hv => e4 v (e2 v hv)⟩
  frame j hj := by
    rw [h2.frame j, h1.frame j]
    · exact fun h => hj (r1.trans h)
    · exact fun h => hj (r2.trans (shr_reach h1 h))
  nodup h := h2.nodup (h1.nodup h)

theorem shr_remove {l : List ANode} {id i : Nat} {nn : ANode} (hn : l[id]? = some nn) (hi : i < nn.vals.length) :
    Shr l (l.modify id fun n => { n with vals := swapRemoveV nn.vals i }) id where
  len := by simp
  sub j c' hc' := by
    by_cases hj : j = id
    · subst hj
      unfold lcont at hc'
      rw [modify_eq, hn] at hc'
      simp at hc'
      subst hc'
      refine ⟨nn.cont, by unfold lcont; rw [hn]; rfl, ?_⟩
      intro v hv
      have := swapRm_perm nn.vals hi
      rw [← swapRemoveV_eq] at this
      exact List.mem_of_mem_eraseIdx (this.mem_iff.1 hv)
    · unfold lcont at hc' ⊢
      rw [modify_ne _ _ hj] at hc'
      exact ⟨c', hc', fun _ hv => hv⟩
  frame j hj := by
    refine modify_ne _ _ ?_
    rintro rfl
    exact hj (.refl _)
  nodup h := by
    obtain ⟨rest, p1, p2⟩ := refs_modify hn fun n => { n with vals := swapRemoveV nn.vals i }
    have hk := swapRemoveV_ids nn.vals hi
    rw [p2.nodup_iff, List.nodup_append]
    rw [p1.nodup_iff, List.nodup_append] at h
    exact ⟨hk.2 h.1, h.2.1, fun a ha b hb => h.2.2 a (hk.1 a ha) b hb⟩

theorem shr_stripFrom {rec : List ANode → Nat → Option (List ANode)} (hr : ∀ d id d', rec d id = some d' → Shr d d' id) (id : Nat) :
    ∀ {k j : Nat} {d d' : List ANode}, A.stripFrom rec id k j d = some d' → Shr d d' id
  | 0, j, d, d', h => by simp [A.stripFrom] at h; rw [h]; exact shr_refl _ _
  | k + 1, j, d, d', h => by
    unfold A.stripFrom at h
    split at h
    · simp at h
    · rename_i nn hnn
      split at h
      · simp at h; rw [h]; exact shr_refl _ _
      · rename_i v hv
        split at h
        · simp at h
        · rename_i d1 hd1
          exact shr_trans (hr _ _ _ hd1) (shr_stripFrom hr id h)
            (.step (c := nn.cont) (by unfold lcont; rw [hnn]; rfl) (List.mem_of_getElem? hv) (.refl _)) (.refl _)

theorem shr_stripLoop {rec : List ANode → Nat → Option (List ANode)} (hr : ∀ d id d', rec d id = some d' → Shr d d' id) (id : Nat) (key : Bytes) :
    ∀ {k i : Nat} {d d' : List ANode}, A.stripLoop rec id key k i d = some d' → Shr d d' id
  | 0, i, d, d', h => by simp [A.stripLoop] at h; rw [h]; exact shr_refl _ _
  | k + 1, i, d, d', h => by
    unfold A.stripLoop at h
    split at h
    · simp at h
    · rename_i nn hnn
      split at h
      · simp at h
      · rename_i v hv
        split at h
        · have hi := (List.getElem?_eq_some_iff.1 hv).1
          exact shr_trans (shr_remove hnn hi) (shr_stripFrom hr id h) (.refl _) (.refl _)
        · split at h
          · simp at h
          · rename_i d1 hd1
            exact shr_trans (hr _ _ _ hd1) (shr_stripLoop hr id key h)
              (.step (c := nn.cont) (by unfold lcont; rw [hnn]; rfl) (List.mem_of_getElem? hv) (.refl _)) (.refl _)

theorem shr_strip (key : Bytes) : ∀ (fuel : Nat) (d : List ANode) (id : Nat) (d' : List ANode), A.strip key fuel d id = some d' → Shr d d' id
  | 0, d, id, d', h => by simp [A.strip] at h
  | fuel + 1, d, id, d', h => by
    unfold A.strip at h
    split at h
    · simp at h; rw [h]; exact shr_refl _ _
    · split at h
      · exact shr_stripLoop (shr_strip key fuel) id key h
      · simp at h; rw [h]; exact shr_refl _ _

/-! ## unique parents -/

theorem nodup_parent {l : List ANode} (hn : (refs l).Nodup) : ∀ {i j a b : Nat} {x y : ANode} {v w : V}, l[i]? = some x → l[j]? = some y →
    x.vals[a]? = some v → y.vals[b]? = some w → v.id = w.id → i = j ∧ a = b := by
  induction l with
  | nil => intro i j a b x y v w hx; simp at hx
  | cons z l ih =>
    intro i j a b x y v w hx hy hv hw he
    rw [refs_cons, List.nodup_append] at hn
    obtain ⟨h1, h2, h3⟩ := hn
    have hin : ∀ {k : Nat} {y : ANode} {b : Nat} {w : V}, l[k]? = some y → y.vals[b]? = some w → w.id ∈ refs l := fun hy hw =>
      mem_refs.2 ⟨_, List.mem_of_getElem? hy, _, List.mem_of_getElem? hw, rfl⟩
    have hz : ∀ {b : Nat} {w : V}, z.vals[b]? = some w → w.id ∈ z.vals.map V.id := fun hw => List.mem_map.2 ⟨_, List.mem_of_getElem? hw, rfl⟩
    cases i with
    | zero =>
      simp at hx; subst hx
      cases j with
      | zero =>
        simp at hy; subst hy
        refine ⟨rfl, ?_⟩
        have ha := (List.getElem?_eq_some_iff.1 hv).1
        have hb := (List.getElem?_eq_some_iff.1 hw).1
        refine (List.getElem_inj (xs := z.vals.map V.id) (i := a) (j := b) (h₀ := by simpa using ha) (h₁ := by simpa using hb) h1).1 ?_
        rw [List.getElem_map, List.getElem_map]
        rw [List.getElem?_eq_getElem ha] at hv
        rw [List.getElem?_eq_getElem hb] at hw
        simp at hv hw
        rw [hv, hw, he]
      | succ j =>
        simp at hy
        exact absurd he (h3 _ (hz hv) _ (hin hy hw))
    | succ i =>
      simp at hx
      cases j with
      | zero =>
        simp at hy; subst hy
        exact absurd he.symm (h3 _ (hz hw) _ (hin hx hv))
      | succ j =>
        simp at hy
        obtain ⟨e1, e2⟩ := ih h2 hx hy hv hw he
        exact ⟨by omega, e2⟩

theorem parent_nodup : ∀ {l : List ANode}, (∀ (i j a b : Nat) (x y : ANode) (v w : V), l[i]? = some x → l[j]? = some y →
    x.vals[a]? = some v → y.vals[b]? = some w → v.id = w.id → i = j ∧ a = b) → (refs l).Nodup
  | [], _ => by simp [refs]
  | z :: l, h => by
    rw [refs_cons, List.nodup_append]
    refine ⟨?_, parent_nodup fun i j a b x y v w hx hy hv hw he => ?_, ?_⟩
    · rw [List.Nodup, List.pairwise_iff_getElem]
      intro a b ha hb hab he
      simp at ha hb
      rw [List.getElem_map, List.getElem_map] at he
      have := (h 0 0 a b z z z.vals[a] z.vals[b] (by simp) (by simp) (List.getElem?_eq_getElem ha) (List.getElem?_eq_getElem hb) he).2
      omega
    · have := h (i + 1) (j + 1) a b x y v w (by simpa using hx) (by simpa using hy) hv hw he
      exact ⟨by omega, this.2⟩
    · intro p hp q hq he
      obtain ⟨v, hv, rfl⟩ := List.mem_map.1 hp
      obtain ⟨x, hx, w, hw, rfl⟩ := mem_refs.1 hq
      obtain ⟨a, ha⟩ := List.mem_iff_getElem?.1 hv
      obtain ⟨b, hb⟩ := List.mem_iff_getElem?.1 hw
      obtain ⟨j, hj⟩ := List.mem_iff_getElem?.1 hx
      have := (h 0 (j + 1) a b z x v w (by simp) (by simpa using hj) ha hb he).1
      omega

/-- the subtrees of two children of a node do not overlap -/
theorem siblings_disjoint {l : List ANode} (hn : (refs l).Nodup) {id : Nat} {t : JVal} (ht : Reps (lcont l) t id) {nn : ANode}
    (hx : l[id]? = some nn) {a b : Nat} {v w : V} (hv : nn.vals[a]? = some v) (hw : nn.vals[b]? = some w) (hab : a ≠ b) {j : Nat}
    (r1 : Reach (lcont l) v.id j) (r2 : Reach (lcont l) w.id j) : False := by
  have hcont : lcont l id = some nn.cont := by unfold lcont; rw [hx]; rfl
  have hlast : ∀ {x y : Nat}, Reach (lcont l) x y → x = y ∨ ∃ (z : Nat) (k : ANode) (s : Nat) (v : V), Reach (lcont l) x z ∧ l[z]? = some k ∧ k.vals[s]? = some v ∧ v.id = y := by
    intro x y h
    induction h with
    | refl => exact Or.inl rfl
    | @step x y k v h1 h2 h3 ih =>
      obtain ⟨n, hn, rfl⟩ := lcont_some h1
      obtain ⟨s, hs⟩ := List.mem_iff_getElem?.1 h2
      rcases ih with he | ⟨z, k', s', v', e1, e2, e3, e4⟩
      · exact Or.inr ⟨x, n, s, v, .refl _, hn, hs, he⟩
      · exact Or.inr ⟨z, k', s', v', .step h1 h2 e1, e2, e3, e4⟩
  -- a path between two siblings goes through the parent
  have nosib : ∀ {a b : Nat} {v w : V}, nn.vals[a]? = some v → nn.vals[b]? = some w → a ≠ b → ¬ Reach (lcont l) v.id w.id := by
    intro a b v w hv hw hab hr
    rcases hlast hr with he | ⟨z, k, s, u, e1, e2, e3, e4⟩
    · exact hab (nodup_parent hn hx hx hv hw he).2
    · obtain ⟨rfl, _⟩ := nodup_parent hn e2 hx e3 hw e4
      exact reps_child_no_loop ht hcont (List.mem_of_getElem? hv) e1
  have nested : ∀ {p c : Nat}, Reach (lcont l) p c → ∀ {q : Nat}, Reach (lcont l) q c → Reach (lcont l) p q ∨ Reach (lcont l) q p := by
    intro p c h
    induction h with
    | refl a => intro q h2; exact Or.inr h2
    | @step a c k v e1 e2 e3 ih =>
      intro q h2
      rcases ih h2 with h | h
      · exact Or.inl (.step e1 e2 h)
      · obtain ⟨n, hn', rfl⟩ := lcont_some e1
        obtain ⟨s, hs⟩ := List.mem_iff_getElem?.1 e2
        rcases hlast h with he | ⟨z, k', s', v', f1, f2, f3, f4⟩
        · left; rw [he]; exact .step e1 e2 (.refl _)
        · obtain ⟨hz, _⟩ := nodup_parent hn f2 hn' f3 hs f4
          right; rw [← hz]; exact f1
  rcases nested r1 r2 with h | h
  · exact nosib hv hw hab h
  · exact nosib hw hv (Ne.symm hab) h

/-! ## the tree afterwards -/

theorem strippedMembers_eq (k : Bytes) (ms : List (Bytes × JVal)) : strippedMembers k ms = ms.map fun m => (m.1, m.2.stripped k) := by
  induction ms with
  | nil => rfl
  | cons m ms ih => simp [strippedMembers, ih]

theorem strippedMembers_append (k : Bytes) (p q : List (Bytes × JVal)) : strippedMembers k (p ++ q) = strippedMembers k p ++ strippedMembers k q := by
  simp [strippedMembers_eq]

/-- `id` is an object with members `ms` -/
def ObjAt (l : List ANode) (id : Nat) (ms : List (Bytes × JVal)) : Prop := Reps (lcont l) (.obj ms) id

theorem objAt_node {l : List ANode} {id : Nat} {ms : List (Bytes × JVal)} (h : ObjAt l id ms) :
    ∃ nn, l[id]? = some nn ∧ nn.typ = tObject ∧ nn.raw = [] ∧ RepsMembers (lcont l) ms nn.vals := by
  obtain ⟨vs, h1, h2⟩ := h
  obtain ⟨nn, hn, hc⟩ := lcont_some h1
  have : nn.typ = tObject ∧ nn.raw = [] ∧ nn.vals = vs := by
    simp [ANode.cont] at hc; exact hc
  exact ⟨nn, hn, this.1, this.2.1, this.2.2 ▸ h2⟩

/-- replacing the tree of one child by processing it -/
theorem objAt_child {l l1 : List ANode} {id : Nat} {pre : List (Bytes × JVal)} {k : Bytes} {x x' : JVal} {post : List (Bytes × JVal)}
    (h : ObjAt l id (pre ++ (k, x) :: post)) (hn : (refs l).Nodup) {nn : ANode} (hnn : l[id]? = some nn) {v : V}
    (hv : nn.vals[pre.length]? = some v) (hs : Shr l l1 v.id) (hx' : Reps (lcont l1) x' v.id) :
    ObjAt l1 id (pre ++ (k, x') :: post) := by
  obtain ⟨nn', hnn', ht, hraw, hms⟩ := objAt_node h
  rw [hnn] at hnn'; simp at hnn'; subst hnn'
  have hcont : lcont l id = some nn.cont := by unfold lcont; rw [hnn]; rfl
  have hid : l1[id]? = some nn := by
    rw [hs.frame id, hnn]
    exact reps_child_no_loop h hcont (List.mem_of_getElem? hv)
  refine ⟨nn.vals, by unfold lcont; rw [hid]; simp [ANode.cont, ht, hraw], ?_⟩
  rw [repsMembers_iff] at hms ⊢
  obtain ⟨hl, hp⟩ := hms
  refine ⟨by simpa using hl, ?_⟩
  intro i m u hy hu
  by_cases hi : i = pre.length
  · subst hi
    simp at hy
    subst hy
    obtain ⟨hu1, hu2⟩ := hp pre.length (k, x) u (by simp) hu
    rw [hv] at hu; simp at hu; subst hu
    exact ⟨hu1, hx'⟩
  · have hy0 : (pre ++ (k, x) :: post)[i]? = some m := by
      rw [← hy]
      by_cases hlt : i < pre.length
      · rw [List.getElem?_append_left hlt, List.getElem?_append_left hlt]
      · rw [List.getElem?_append_right (by omega), List.getElem?_append_right (by omega)]
        obtain ⟨m, hm⟩ : ∃ m, i - pre.length = m + 1 := ⟨i - pre.length - 1, by omega⟩
        rw [hm]; simp
    obtain ⟨hu1, hu2⟩ := hp i m u hy0 hu
    refine ⟨hu1, reps_congr hu2 ?_⟩
    intro j hj
    have : ¬ Reach (lcont l) v.id j := fun hr => siblings_disjoint hn h hnn hu hv hi hj hr
    unfold lcont; rw [hs.frame j this]

/-- `rec` does the right thing on the trees of `ms` -/
def StripsTo (key : Bytes) (rec : List ANode → Nat → Option (List ANode)) (ms : List (Bytes × JVal)) : Prop :=
  ∀ m ∈ ms, ∀ l id, Reps (lcont l) m.2 id → (refs l).Nodup → ∃ l', rec l id = some l' ∧ Reps (lcont l') (m.2.stripped key) id

theorem member_at {l : List ANode} {pre : List (Bytes × JVal)} {k : Bytes} {x : JVal} {post : List (Bytes × JVal)} {nn : ANode}
    (hms : RepsMembers (lcont l) (pre ++ (k, x) :: post) nn.vals) : ∃ v, nn.vals[pre.length]? = some v ∧ v.key = k ∧ Reps (lcont l) x v.id := by
  obtain ⟨hl, hp⟩ := repsMembers_iff.1 hms
  have hlt : pre.length < nn.vals.length := by rw [← hl]; simp
  obtain ⟨h1, h2⟩ := hp pre.length (k, x) nn.vals[pre.length] (by simp) (List.getElem?_eq_getElem hlt)
  exact ⟨_, List.getElem?_eq_getElem hlt, h1, h2⟩

theorem stripFrom_tree {key : Bytes} {rec : List ANode → Nat → Option (List ANode)} (hsh : ∀ d id d', rec d id = some d' → Shr d d' id) {id : Nat} :
    ∀ (post pre : List (Bytes × JVal)) (k : Nat) (l : List ANode), StripsTo key rec post → ObjAt l id (strippedMembers key pre ++ post) →
      (refs l).Nodup → post.length ≤ k →
      ∃ l', A.stripFrom rec id k pre.length l = some l' ∧ ObjAt l' id (strippedMembers key (pre ++ post)) := by
  intro post
  induction post with
  | nil =>
    intro pre k l _ ho hn hk
    refine ⟨l, ?_, by simpa using ho⟩
    cases k with
    | zero => rfl
    | succ k =>
      unfold A.stripFrom
      obtain ⟨nn, hnn, _, _, hms⟩ := objAt_node ho
      have hl := (repsMembers_iff.1 hms).1
      simp [strippedMembers_eq] at hl
      rw [hnn]
      simp only
      rw [List.getElem?_eq_none (by omega)]
  | cons m post ih =>
    intro pre k l hrec ho hn hk
    obtain ⟨k', x⟩ := m
    simp at hk
    obtain ⟨k, rfl⟩ : ∃ k1, k = k1 + 1 := ⟨k - 1, by omega⟩
    obtain ⟨nn, hnn, _, _, hms⟩ := objAt_node ho
    obtain ⟨v, hv, hvk, hvx⟩ := member_at hms
    have hlen : (strippedMembers key pre).length = pre.length := by simp [strippedMembers_eq]
    obtain ⟨l1, h1, h2⟩ := hrec (k', x) (by simp) l v.id hvx hn
    have ho1 := objAt_child ho hn hnn hv (hsh _ _ _ h1) h2
    have ho2 : ObjAt l1 id (strippedMembers key (pre ++ [(k', x)]) ++ post) := by
      rw [strippedMembers_append]; simpa [strippedMembers] using ho1
    obtain ⟨l', h3, h4⟩ := ih (pre ++ [(k', x)]) k l1 (fun m hm => hrec m (by simp [hm])) ho2 ((hsh _ _ _ h1).nodup hn) (by omega)
    refine ⟨l', ?_, by simpa using h4⟩
    unfold A.stripFrom
    rw [hnn]
    simp only
    rw [← hlen, hv]
    simp only
    rw [h1]
    simp only
    rw [hlen]
    simpa using h3

theorem delSwap_none {α : Type} {k : Bytes} : ∀ {ms : List (Bytes × α)}, (∀ m ∈ ms, m.1 ≠ k) → delSwap k ms = ms
  | [], _ => rfl
  | (k', x) :: ms, h => by
    unfold delSwap
    rw [if_neg (h (k', x) (by simp)), delSwap_none fun m hm => h m (by simp [hm])]

theorem delSwap_found {α : Type} {k : Bytes} {x : α} {post : List (Bytes × α)} : ∀ {pre : List (Bytes × α)}, (∀ m ∈ pre, m.1 ≠ k) →
    delSwap k (pre ++ (k, x) :: post) = swapRm (pre ++ (k, x) :: post) pre.length
  | [], _ => by
    simp only [List.nil_append]
    unfold delSwap swapRm
    rw [if_pos rfl]
    cases h : post.getLast? with
    | none => simp at h; subst h; simp
    | some z =>
      have hne : post ≠ [] := by rintro rfl; simp at h
      obtain ⟨m, rfl⟩ : ∃ m, post = m ++ [z] := by
        refine ⟨post.dropLast, ?_⟩
        rw [List.getLast?_eq_some_getLast hne] at h
        simp at h
        rw [← h, List.dropLast_concat_getLast]
      simp [List.getLast?_cons]
  | (k', y) :: pre, h => by
    have hne : pre ++ (k, x) :: post ≠ [] := by simp
    simp only [List.cons_append]
    unfold delSwap
    rw [if_neg (h (k', y) (by simp)), delSwap_found fun m hm => h m (by simp [hm])]
    unfold swapRm
    rw [List.getLast?_cons, List.getLast?_eq_some_getLast hne]
    simp
    rw [show pre.length + (post.length + 1) = pre.length + post.length + 1 by omega, List.take_succ_cons]

theorem swapRm_map {α β : Type} (f : α → β) (l : List α) (i : Nat) : swapRm (l.map f) i = (swapRm l i).map f := by
  unfold swapRm
  rw [List.getLast?_map]
  cases l.getLast? with
  | none => simp
  | some z => simp [List.map_take, List.map_set]

/-- the first entries are not moved -/
theorem swapRm_split {α : Type} (pre : List α) (x : α) (post : List α) : swapRm (pre ++ x :: post) pre.length = pre ++ swapRm (x :: post) 0 := by
  unfold swapRm
  have : ∃ z, (x :: post).getLast? = some z := by
    cases h : (x :: post).getLast? with
    | none => simp at h
    | some z => exact ⟨z, rfl⟩
  obtain ⟨z, hz⟩ := this
  rw [List.getLast?_append, hz]
  simp only [Option.some_or]
  rw [List.set_append_right _ _ (Nat.le_refl _), Nat.sub_self, List.take_append]
  simp
  rw [List.take_of_length_le (by omega)]
  all_goals (congr 1)
  all_goals (congr 1)
  all_goals omega

theorem stripLoop_tree {key : Bytes} {rec : List ANode → Nat → Option (List ANode)} (hsh : ∀ d id d', rec d id = some d' → Shr d d' id) {id : Nat} :
    ∀ (post pre : List (Bytes × JVal)) (l : List ANode), StripsTo key rec post → ObjAt l id (strippedMembers key pre ++ post) →
      (refs l).Nodup → (∀ m ∈ pre, m.1 ≠ key) →
      ∃ l', A.stripLoop rec id key post.length pre.length l = some l' ∧ ObjAt l' id (delSwap key (strippedMembers key (pre ++ post))) := by
  intro post
  induction post with
  | nil =>
    intro pre l _ ho hn hpre
    refine ⟨l, rfl, ?_⟩
    rw [delSwap_none]
    · simpa using ho
    · intro m hm
      simp [strippedMembers_eq] at hm
      obtain ⟨a, b, h1, rfl⟩ := hm
      exact hpre (a, b) h1
  | cons m post ih =>
    intro pre l hrec ho hn hpre
    obtain ⟨k', x⟩ := m
    obtain ⟨nn, hnn, htyp, hraw, hms⟩ := objAt_node ho
    obtain ⟨v, hv, hvk, hvx⟩ := member_at hms
    have hlen : (strippedMembers key pre).length = pre.length := by simp [strippedMembers_eq]
    simp only [List.length_cons]
    unfold A.stripLoop
    rw [hnn]
    simp only
    rw [← hlen, hv]
    simp only
    by_cases hk : v.key = key
    · rw [if_pos hk]
      have hkk : k' = key := by rw [← hvk, hk]
      subst hkk
      have hi := (List.getElem?_eq_some_iff.1 hv).1
      have hshr := shr_remove hnn hi
      -- the object after the removal
      have hcont : lcont l id = some nn.cont := by unfold lcont; rw [hnn]; rfl
      have ho1 : ObjAt (l.modify id fun n => { n with vals := swapRemoveV nn.vals (strippedMembers k' pre).length }) id
          (strippedMembers k' pre ++ swapRm ((k', x) :: post) 0) := by
        refine ⟨swapRemoveV nn.vals (strippedMembers k' pre).length, ?_, ?_⟩
        · unfold lcont; rw [modify_eq, hnn]; simp [ANode.cont, htyp, hraw]
        · rw [← swapRm_split, swapRemoveV_eq]
          refine repsMembers_congr (repsMembers_swapRm hms _) ?_
          intro w hw j hj
          unfold lcont
          rw [modify_ne _ _ ?_]
          rintro rfl
          have hw' : w ∈ nn.vals := List.mem_of_mem_eraseIdx ((swapRm_perm nn.vals hi).mem_iff.1 hw)
          exact reps_child_no_loop ho hcont hw' hj
      have hmem : ∀ m ∈ swapRm ((k', x) :: post) 0, m ∈ (k', x) :: post := fun m hm =>
        List.mem_of_mem_eraseIdx ((swapRm_perm ((k', x) :: post) (by simp)).mem_iff.1 hm)
      obtain ⟨l', h1, h2⟩ := stripFrom_tree hsh (swapRm ((k', x) :: post) 0) pre nn.vals.length _ (fun m hm => hrec m (hmem m hm)) ho1 (hshr.nodup hn) (by
        have h3 := (swapRm_perm ((k', x) :: post) (i := 0) (by simp)).length_eq
        have h4 := (repsMembers_iff.1 hms).1
        simp at h3 h4
        omega)
      refine ⟨l', by rw [hlen] at h1 ⊢; exact h1, ?_⟩
      have e : delSwap k' (strippedMembers k' (pre ++ (k', x) :: post)) = strippedMembers k' (pre ++ swapRm ((k', x) :: post) 0) := by
        rw [strippedMembers_append]
        simp only [strippedMembers]
        rw [delSwap_found]
        · rw [strippedMembers_append, hlen, strippedMembers_eq k' (swapRm _ 0), ← swapRm_map, ← hlen]
          rw [swapRm_split]
          simp [strippedMembers_eq]
        · intro m hm
          simp [strippedMembers_eq] at hm
          obtain ⟨a, b, h1, rfl⟩ := hm
          exact hpre (a, b) h1
      rw [e]; exact h2
    · rw [if_neg hk]
      obtain ⟨l1, h1, h2⟩ := hrec (k', x) (by simp) l v.id hvx hn
      rw [h1]
      simp only
      have ho1 := objAt_child ho hn hnn hv (hsh _ _ _ h1) h2
      have ho2 : ObjAt l1 id (strippedMembers key (pre ++ [(k', x)]) ++ post) := by
        rw [strippedMembers_append]; simpa [strippedMembers] using ho1
      obtain ⟨l', h3, h4⟩ := ih (pre ++ [(k', x)]) l1 (fun m hm => hrec m (by simp [hm])) ho2 ((hsh _ _ _ h1).nodup hn) (by
        intro m hm
        rcases List.mem_append.1 hm with hm | hm
        · exact hpre m hm
        · simp at hm; subst hm; rw [← hvk]; exact hk)
      refine ⟨l', by rw [hlen]; simpa using h3, by simpa using h4⟩

theorem strip_tree (key : Bytes) : ∀ (fuel : Nat) (t : JVal) (l : List ANode) (id : Nat), t.size ≤ fuel → Reps (lcont l) t id → (refs l).Nodup →
    ∃ l', A.strip key fuel l id = some l' ∧ Reps (lcont l') (t.stripped key) id := by
  intro fuel
  induction fuel with
  | zero => intro t l id hs; have := size_pos t; omega
  | succ fuel ih =>
    intro t l id hs ht hn
    have scalar : ∀ {typ : Typ} {raw : Bytes} {vs : List V}, lcont l id = some ⟨typ, raw, vs⟩ → typ ≠ tObject → t.stripped key = t →
        ∃ l', A.strip key (fuel + 1) l id = some l' ∧ Reps (lcont l') (t.stripped key) id := by
      intro typ raw vs h1 h2 h3
      obtain ⟨nn, hnn, hc⟩ := lcont_some h1
      refine ⟨l, ?_, by rw [h3]; exact ht⟩
      unfold A.strip
      rw [hnn]
      simp only
      rw [if_neg]
      intro h; apply h2; rw [← h]; simp [ANode.cont] at hc; exact hc.1.symm
    cases t with
    | null => exact scalar ht (by decide) rfl
    | bool b => cases b <;> exact scalar ht (by decide) rfl
    | num r => exact scalar ht (by decide) rfl
    | str r => exact scalar ht (by decide) rfl
    | arr xs => obtain ⟨vs, h1, _⟩ := ht; exact scalar h1 (by decide) rfl
    | obj ms =>
      have ho : ObjAt l id (strippedMembers key [] ++ ms) := ht
      obtain ⟨nn, hnn, htyp, _, hms⟩ := objAt_node ho
      have hsz : ∀ m ∈ ms, m.2.size ≤ fuel := by
        have : ∀ ms : List (Bytes × JVal), ∀ m ∈ ms, m.2.size ≤ sizeMembers ms := by
          intro ms
          induction ms with
          | nil => simp
          | cons a ms ihm =>
            intro m hm
            rcases List.mem_cons.1 hm with rfl | hm
            · simp [sizeMembers]
            · have := ihm m hm; simp [sizeMembers]; omega
        intro m hm
        have := this ms m hm
        simp [JVal.size] at hs
        omega
      obtain ⟨l', h1, h2⟩ := stripLoop_tree (shr_strip key fuel) ms [] l (fun m hm l' id' h1 h2 => ih m.2 l' id' (hsz m hm) h1 h2) ho hn (by simp)
      refine ⟨l', ?_, by simp only [JVal.stripped]; exact h2⟩
      unfold A.strip
      rw [hnn]
      simp only
      rw [if_pos htyp]
      have hl := (repsMembers_iff.1 hms).1
      simp [strippedMembers] at hl
      rw [← hl]
      exact h1

end Verif.Njson
