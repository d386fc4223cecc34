import Verif.Spec.Live
import Verif.Proofs.Abs

/-! # Iterations during which the node is edited (C85, C86) -/

namespace Verif.Props
open Verif Verif.Spec Verif.Njson

/-! ## The edits are those of the model of node.go -/

theorem appendCap_zero {s : Slice} (v : V) : s.appendCap v 0 = s.append v := by
  unfold Slice.appendCap Slice.append; simp

/-- The capacity is not observable through the node. -/
theorem appendCap_vis {s : Slice} (h : s.len ≤ s.arr.length) (v : V) (cap : Nat) : (s.appendCap v cap).vis = s.vis ++ [v] := by
  unfold Slice.appendCap Slice.vis
  by_cases h1 : s.len < s.arr.length
  · rw [if_pos h1]
    simp only
    rw [List.take_add_one, List.take_set_of_le (Nat.le_refl _)]
    simp [h1]
  · rw [if_neg h1]
    have : s.len = s.arr.length := by omega
    simp only
    rw [List.append_assoc, List.take_append]
    rw [this, List.take_length, List.take_of_length_le (by omega)]
    simp

theorem update_get {h : Heap} {n : Node} {d : NodeD} (hg : n.get h = some d) (f : NodeD → NodeD) : n.get (h := n.update h f) = some (f d) := by
  unfold Node.update
  rw [hg]
  unfold Node.get Node.document at hg ⊢
  cases hd : n.doc with
  | none => rw [hd] at hg; cases hg
  | some r =>
    rw [hd] at hg
    dsimp only at hg ⊢
    by_cases hr : (h r).rev = n.rev
    · rw [if_pos hr] at hg
      have hr' : (Heap.set h r ((h r).setNode n.id f) r).rev = n.rev := by simp [Heap.set, Doc.setNode, hr]
      rw [if_pos hr']
      simp only [Heap.set, if_true, Doc.get, Doc.setNode] at hg ⊢
      split at hg
      · rename_i hl
        rw [if_pos hl]
        simp [hg]
      · cases hg
    · rw [if_neg hr] at hg; cases hg

theorem live_del {h : Heap} {n : Node} {l : Live} (hg : n.get h = some l.node) (key : Bytes) : n.get (h := n.del h key) = some (l.del key).node :=
  update_get hg _

theorem live_remove {h : Heap} {n : Node} {l : Live} (hg : n.get h = some l.node) (i : Int) : n.get (h := n.remove h i) = some (l.remove i).node :=
  update_get hg _

theorem live_setScalar {h : Heap} {n : Node} {l : Live} (hg : n.get h = some l.node) (typ : Typ) (raw : Bytes) :
    n.get (h := n.setScalar h typ raw) = some (l.setScalar typ raw).node := update_get hg _

theorem live_slice {h : Heap} {n : Node} {l : Live} (hg : n.get h = some l.node) (i j : Int) : n.get (h := n.slice h i j) = some (l.slice i j).node := by
  unfold Node.slice
  rw [update_get hg]
  unfold Live.slice
  split <;> rfl

theorem live_set {l : Live} (hw : l.node.typ = tObject) (key : Bytes) (id : Nat) :
    (l.set key id 0).node = { l.node with values := setKey l.node.values key id } := by
  unfold Live.set setKey
  rw [if_pos hw]
  split
  · rename_i i h; rw [h]; rfl
  · rename_i h; rw [h]; simp [Live.append, appendCap_zero]

theorem live_push {l : Live} (hw : l.node.typ = tArray) (id : Nat) :
    (l.push id 0).node = { l.node with values := l.node.values.append ⟨id, []⟩ } := by
  unfold Live.push
  rw [if_pos hw]
  simp [Live.append, appendCap_zero]

/-! ## C85 -/

/-- Lengths and positions after some calls. -/
theorem live_index (n : NodeD) (cs : List LiveCall) : ((Live.start n).run cs).len = n.values.vis.length ∧
    ((Live.start n).run cs).index = if nextsOf cs ≤ n.values.vis.length then (nextsOf cs : Int) else -1 := by
  have key : ∀ (cs : List LiveCall) (l : Live) (k : Nat), l.len = n.values.vis.length →
      (l.index = if k ≤ n.values.vis.length then (k : Int) else -1) →
      (l.run cs).len = n.values.vis.length ∧ (l.run cs).index = if k + nextsOf cs ≤ n.values.vis.length then ((k + nextsOf cs : Nat) : Int) else -1 := by
    intro cs
    induction cs with
    | nil => intro l k h1 h2; exact ⟨h1, h2⟩
    | cons c cs ih =>
      intro l k h1 h2
      have e : l.run (c :: cs) = (LiveCall.run l c).run cs := rfl
      rw [e]
      by_cases hc : c = .next
      · subst hc
        have : nextsOf (.next :: cs) = nextsOf cs + 1 := by simp [nextsOf]
        rw [this, show k + (nextsOf cs + 1) = (k + 1) + nextsOf cs by omega]
        apply ih
        · show l.next.2.len = _
          unfold Live.next; split <;> exact h1
        · show l.next.2.index = _
          unfold Live.next
          rw [h1]
          by_cases hk : k < n.values.vis.length
          · rw [if_pos (by omega)] at h2
            rw [if_pos (by omega), if_pos (by omega)]
            simp [h2]
          · rw [if_neg (c := k + 1 ≤ _) (by omega), if_neg]
            split at h2 <;> omega
      · have : nextsOf (c :: cs) = nextsOf cs := by simp [nextsOf, hc]
        rw [this]
        have hl : (LiveCall.run l c).len = l.len ∧ (LiveCall.run l c).index = l.index := by
          cases c with
          | next => exact absurd rfl hc
          | set key id cap => simp only [LiveCall.run, Live.set, Live.append, Live.edit]; split <;> (try split) <;> exact ⟨rfl, rfl⟩
          | push id cap => simp only [LiveCall.run, Live.push, Live.append]; split <;> exact ⟨rfl, rfl⟩
          | replace i id => simp only [LiveCall.run, Live.replace, Live.edit]; split <;> exact ⟨rfl, rfl⟩
          | slice i j => simp only [LiveCall.run, Live.slice]; split <;> exact ⟨rfl, rfl⟩
          | remove i => exact ⟨rfl, rfl⟩
          | del key => exact ⟨rfl, rfl⟩
          | setScalar t r => exact ⟨rfl, rfl⟩
        exact ih _ k (hl.1.trans h1) (hl.2.trans h2)
  have := key cs (Live.start n) 0 rfl (by simp [Live.start])
  simpa using this

/-- **C85, length**: whatever calls were made on the node and the iterator since `Values()`, `Next` returns true exactly if it was called fewer
times than the node had children at the time of `Values()`. -/
theorem C85_count (n : NodeD) (cs : List LiveCall) : ((Live.start n).run cs).next.1 = true ↔ nextsOf cs < n.values.vis.length := by
  obtain ⟨h1, h2⟩ := live_index n cs
  unfold Live.next
  rw [h1, h2]
  by_cases h : nextsOf cs < n.values.vis.length
  · rw [if_pos (c := nextsOf cs ≤ _) (by omega), if_pos (by omega)]; simp [h]
  · by_cases h' : nextsOf cs ≤ n.values.vis.length
    · rw [if_pos h', if_neg (by omega)]; simp [h]
    · rw [if_neg h', if_neg (by omega)]; simp [h]

/-- The part of the array that the iterator reads, for calls that keep the start of the slice. -/
structure SeesFrom (n : NodeD) (R : V → V → Prop) (l : Live) : Prop where
  pre : l.pre = []
  wf : l.node.values.len ≤ l.node.values.arr.length
  more : n.values.len ≤ l.node.values.len
  node : ∀ i, i < n.values.len → R (n.values.arr.getD i V.zero) (l.node.values.arr.getD i V.zero)
  sees : ∀ i, i < n.values.len → R (n.values.arr.getD i V.zero) (l.array.getD i V.zero)

theorem SeesFrom.append {n : NodeD} {R : V → V → Prop} {l : Live} (h : SeesFrom n R l) (v : V) (cap : Nat) : SeesFrom n R (l.append v cap) := by
  have hg : ∀ i, i < n.values.len → (l.node.values.appendCap v cap).arr.getD i V.zero = l.node.values.arr.getD i V.zero := by
    intro i hi
    have := h.more
    have := h.wf
    unfold Slice.appendCap
    split
    · simp only [List.getD_eq_getElem?_getD]
      rw [List.getElem?_set_ne (by omega)]
    · simp only [Slice.vis, List.getD_eq_getElem?_getD]
      rw [List.getElem?_append_left (by simp; omega), List.getElem?_append_left (by simp; omega), List.getElem?_take_of_lt (by omega)]
  refine ⟨h.pre, ?_, ?_, ?_, ?_⟩
  · have := h.wf
    show (l.node.values.appendCap v cap).len ≤ _
    unfold Live.append Slice.appendCap Slice.vis
    dsimp only
    split <;> simp <;> omega
  · have := h.more
    show _ ≤ (l.node.values.appendCap v cap).len
    unfold Slice.appendCap
    split <;> simp only <;> omega
  · intro i hi
    show R _ ((l.node.values.appendCap v cap).arr.getD i V.zero)
    rw [hg i hi]; exact h.node i hi
  · intro i hi
    by_cases hr : l.node.values.len < l.node.values.arr.length
    · have e : (l.append v cap).old = l.old := by simp [Live.append, hr]
      unfold Live.array
      rw [e]
      cases ho : l.old with
      | none =>
        have e1 : (l.append v cap).pre = [] := h.pre
        simp only
        rw [e1, List.nil_append]
        show R _ ((l.node.values.appendCap v cap).arr.getD i V.zero)
        rw [hg i hi]; exact h.node i hi
      | some a =>
        have := h.sees i hi
        unfold Live.array at this
        rw [ho] at this
        exact this
    · have e : (l.append v cap).old = some l.array := by simp [Live.append, hr]
      unfold Live.array
      rw [e]
      exact h.sees i hi

theorem SeesFrom.edit {n : NodeD} {R : V → V → Prop} {l : Live} (h : SeesFrom n R l) (f : NodeD → NodeD) (hlen : (f l.node).values.len = l.node.values.len)
    (harr : (f l.node).values.arr.length = l.node.values.arr.length)
    (hR : ∀ i, i < n.values.len → R (n.values.arr.getD i V.zero) (l.node.values.arr.getD i V.zero) →
      R (n.values.arr.getD i V.zero) ((f l.node).values.arr.getD i V.zero)) : SeesFrom n R (l.edit f) := by
  refine ⟨h.pre, ?_, ?_, fun i hi => hR i hi (h.node i hi), fun i hi => ?_⟩
  · show (f l.node).values.len ≤ _
    rw [hlen]
    have := h.wf
    show _ ≤ (f l.node).values.arr.length
    omega
  · show _ ≤ (f l.node).values.len
    rw [hlen]; exact h.more
  · unfold Live.array
    show R _ ((match l.old with | some a => a | none => l.pre ++ (f l.node).values.arr).getD i V.zero)
    cases ho : l.old with
    | none =>
      simp only
      rw [h.pre, List.nil_append]
      exact hR i hi (h.node i hi)
    | some a =>
      have := h.sees i hi
      unfold Live.array at this
      rw [ho] at this
      exact this

theorem sees_start (n : NodeD) (R : V → V → Prop) (hr : ∀ v, R v v) (hw : n.values.len ≤ n.values.arr.length) : SeesFrom n R (Live.start n) :=
  ⟨rfl, hw, Nat.le_refl _, fun _ _ => hr _, fun _ _ => by simp [Live.start, Live.array, hr]⟩

theorem SeesFrom.next {n : NodeD} {R : V → V → Prop} {l : Live} (h : SeesFrom n R l) : SeesFrom n R l.next.2 := by
  unfold Live.next
  split <;> exact ⟨h.pre, h.wf, h.more, h.node, h.sees⟩

theorem run_snoc (l : Live) (cs : List LiveCall) (c : LiveCall) : l.run (cs ++ [c]) = c.run (l.run cs) := by
  simp [Live.run]

theorem nextsOf_snoc (cs : List LiveCall) (c : LiveCall) : nextsOf (cs ++ [c]) = nextsOf cs + if c = .next then 1 else 0 := by
  unfold nextsOf; by_cases h : c = .next <;> simp [h]

/-- The entry that `Next` gives. -/
theorem sees_entry {n : NodeD} {R : V → V → Prop} {cs : List LiveCall} (h : SeesFrom n R ((Live.start n).run cs))
    (hw : n.values.len ≤ n.values.arr.length) (hk : nextsOf cs < n.values.vis.length) :
    R (n.values.vis.getD (nextsOf cs) V.zero) ((Live.start n).run cs).next.2.v := by
  obtain ⟨h1, h2⟩ := live_index n cs
  have hl : n.values.vis.length = n.values.len := by simp [Slice.vis, hw]
  rw [if_pos (by omega)] at h2
  have := h.sees (nextsOf cs) (by omega)
  unfold Live.next
  rw [if_pos (by omega)]
  simp only
  rw [h2]
  have e : n.values.vis.getD (nextsOf cs) V.zero = n.values.arr.getD (nextsOf cs) V.zero := by
    simp only [Slice.vis, List.getD_eq_getElem?_getD]
    rw [List.getElem?_take_of_lt (by omega)]
  rw [e]
  simpa using this

/-- **C85**: if since `Values()` members with new keys and elements were added to the node (and `Next` was called), however `append` chooses
capacities, then the next entry is the child of the node at the time of `Values()` whose turn it is. -/
theorem C85_adds (n : NodeD) (hw : n.values.len ≤ n.values.arr.length) (cs : List LiveCall) (hc : ∀ c ∈ cs, Adds n c)
    (hk : nextsOf cs < n.values.vis.length) :
    n.values.vis[nextsOf cs]? = some ((Live.start n).run cs).next.2.v := by
  have key : SeesFrom n Eq ((Live.start n).run cs) := by
    have step : ∀ (l : Live) (c : LiveCall), SeesFrom n Eq l → Adds n c → SeesFrom n Eq (c.run l) := by
        intro l c h hc
        cases c with
        | next => exact h.next
        | push id cap => simp only [LiveCall.run, Live.push]; split; exact h.append _ _; exact h
        | set key id cap =>
          simp only [LiveCall.run, Live.set]
          split
          · split
            · rename_i i hi
              -- the key was added after the start
              have hlen : n.values.len ≤ i := by
                refine Nat.le_of_not_lt fun hlt => ?_
                obtain ⟨hi1, hi2, _⟩ := List.findIdx?_eq_some_iff_getElem.1 hi
                have := h.node i (by omega)
                apply hc
                simp only [List.mem_map]
                refine ⟨n.values.arr.getD i V.zero, ?_, ?_⟩
                · rw [List.getD_eq_getElem?_getD, List.getElem?_eq_getElem (by omega)]
                  simp only [Option.getD_some, Slice.vis]
                  rw [List.mem_take_iff_getElem]
                  exact ⟨i, by omega, rfl⟩
                · rw [this]
                  simp only [Slice.vis, List.getElem_take, decide_eq_true_eq] at hi2
                  rw [List.getD_eq_getElem?_getD, List.getElem?_eq_getElem]
                  · exact hi2
              refine h.edit _ rfl (by simp) fun j hj hR => ?_
              rw [hR]
              simp only [List.getD_eq_getElem?_getD, List.getElem?_modify, if_neg (show i ≠ j by omega)]
              simp
            · exact h.append _ _
          · exact h
        | replace i id => cases hc
        | slice i j => cases hc
        | remove i => cases hc
        | del key => cases hc
        | setScalar t r => cases hc
    have : ∀ (rs : List LiveCall) (l : Live), SeesFrom n Eq l → (∀ c ∈ rs, Adds n c) → SeesFrom n Eq (l.run rs) := by
      intro rs
      induction rs with
      | nil => exact fun l h _ => h
      | cons c rs ih => exact fun l h hc => ih _ (step l c h (hc c (by simp))) fun x hx => hc x (by simp [hx])
    exact this cs _ (sees_start n Eq (fun _ => rfl) hw) hc
  have := sees_entry key hw hk
  rw [← this, List.getD_eq_getElem?_getD, List.getElem?_eq_getElem hk]
  rfl

/-- **C85, assignments**: if members were added or assigned and elements were added or replaced, then the next entry still has the key of the
child whose turn it is. -/
theorem C85_assigns (n : NodeD) (hw : n.values.len ≤ n.values.arr.length) (hk : n.typ = tArray → ∀ v ∈ n.values.vis, v.key = [])
    (cs : List LiveCall) (hc : ∀ c ∈ cs, Assigns c) (hn : nextsOf cs < n.values.vis.length) :
    (n.values.vis[nextsOf cs]?).map (·.key) = some ((Live.start n).run cs).next.2.v.key := by
  have step : ∀ (l : Live) (c : LiveCall), (SeesFrom n (fun a b => a.key = b.key) l ∧ l.node.typ = n.typ) → Assigns c →
      SeesFrom n (fun a b => a.key = b.key) (c.run l) ∧ (c.run l).node.typ = n.typ := by
      rintro l c ⟨h, ht⟩ hc
      cases c with
      | next =>
        refine ⟨h.next, ?_⟩
        show l.next.2.node.typ = _
        unfold Live.next
        split <;> exact ht
      | push id cap => simp only [LiveCall.run, Live.push]; split; exact ⟨h.append _ _, ht⟩; exact ⟨h, ht⟩
      | set key id cap =>
        simp only [LiveCall.run, Live.set]
        split
        · split
          · rename_i i hi
            refine ⟨h.edit _ rfl (by simp) fun j hj hR => ?_, ht⟩
            rw [hR]
            simp only [List.getD_eq_getElem?_getD, List.getElem?_modify]
            cases l.node.values.arr[j]? with
            | none => rfl
            | some v => by_cases hij : i = j <;> simp [hij]
          · exact ⟨h.append _ _, ht⟩
        · exact ⟨h, ht⟩
      | replace i id =>
        simp only [LiveCall.run, Live.replace]
        split
        · rename_i hcond
          refine ⟨h.edit _ rfl (by simp) fun j hj hR => ?_, ht⟩
          simp only [List.getD_eq_getElem?_getD, List.getElem?_set] at hR ⊢
          by_cases hij : i.toNat = j
          · have hw' := h.wf
            have hm := h.more
            rw [if_pos hij, if_pos (by omega)]
            have : (n.values.arr[j]?.getD V.zero).key = [] := by
              refine hk (ht ▸ hcond.1) _ ?_
              rw [List.getElem?_eq_getElem (by omega)]
              simp only [Option.getD_some, Slice.vis]
              rw [List.mem_take_iff_getElem]
              exact ⟨j, by omega, rfl⟩
            rw [this]; rfl
          · rw [if_neg hij]; exact hR
        · exact ⟨h, ht⟩
      | slice i j => cases hc
      | remove i => cases hc
      | del key => cases hc
      | setScalar t r => cases hc
  have key : ∀ (rs : List LiveCall) (l : Live), (SeesFrom n (fun a b => a.key = b.key) l ∧ l.node.typ = n.typ) → (∀ c ∈ rs, Assigns c) →
      SeesFrom n (fun a b => a.key = b.key) (l.run rs) ∧ (l.run rs).node.typ = n.typ := by
    intro rs
    induction rs with
    | nil => exact fun l h _ => h
    | cons c rs ih => exact fun l h hc => ih _ (step l c h (hc c (by simp))) fun x hx => hc x (by simp [hx])
  have := sees_entry (key cs _ ⟨sees_start n _ (fun _ => rfl) hw, rfl⟩ hc).1 hw hn
  rw [← this, List.getD_eq_getElem?_getD, List.getElem?_eq_getElem hn]
  rfl

/-- **C85, slicing**: if the node was only sliced since `Values()`, the iteration goes on over the children that were there. -/
theorem C85_slices (n : NodeD) (hw : n.values.len ≤ n.values.arr.length) (cs : List LiveCall) (hc : ∀ c ∈ cs, c = .next ∨ ∃ i j, c = .slice i j)
    (hk : nextsOf cs < n.values.vis.length) :
    n.values.vis[nextsOf cs]? = some ((Live.start n).run cs).next.2.v := by
  have key : ∀ (rs : List LiveCall) (l : Live), l.array = n.values.arr → (∀ c ∈ rs, c = .next ∨ ∃ i j, c = .slice i j) →
      (l.run rs).array = n.values.arr := by
    intro rs
    induction rs with
    | nil => exact fun l h _ => h
    | cons c rs ih =>
      intro l h hc
      refine ih _ ?_ fun x hx => hc x (by simp [hx])
      rcases hc c (by simp) with rfl | ⟨i, j, rfl⟩
      · rw [← h]
        simp only [LiveCall.run, Live.next]
        split <;> rfl
      · rw [← h]
        simp only [LiveCall.run, Live.slice]
        split
        · unfold Live.array
          simp only
          cases l.old with
          | some a => rfl
          | none => simp only; rw [List.append_assoc, List.take_append_drop]
        · rfl
  have ha := key cs (Live.start n) (by simp [Live.start, Live.array]) hc
  obtain ⟨h1, h2⟩ := live_index n cs
  have hl : n.values.vis.length = n.values.len := by simp [Slice.vis, hw]
  rw [if_pos (by omega)] at h2
  unfold Live.next
  rw [if_pos (by omega)]
  simp only
  rw [h2, ha]
  simp only [Slice.vis, List.getD_eq_getElem?_getD, Int.toNat_natCast]
  rw [List.getElem?_take_of_lt (by omega), List.getElem?_eq_getElem (by omega)]
  rfl

/-- An array of two elements, without spare capacity. -/
def liveArr : NodeD := ⟨tArray, true, [], ⟨[⟨3, []⟩, ⟨4, []⟩], 2⟩⟩

/-- An object with the members a, b, c and d. -/
def liveObj : NodeD := ⟨tObject, true, [], ⟨[⟨1, b!"a"⟩, ⟨2, b!"b"⟩, ⟨3, b!"c"⟩, ⟨4, b!"d"⟩], 4⟩⟩

-- a loop that appends an element in each round ends, and sees the two elements
example : (∀ c ∈ [LiveCall.next, .push 5 1, .next, .push 6 1], Adds liveArr c) ∧
    ((Live.start liveArr).run [.next, .push 5 1, .next, .push 6 1]).next.1 = false ∧
    ((Live.start liveArr).run [.next, .push 5 1]).next.2.v.id = 4 ∧
    ((Live.start liveArr).run [.next, .push 5 1, .next, .push 6 1]).node.values.vis.map (·.id) = [3, 4, 5, 6] := by
  refine ⟨?_, by decide +kernel, by decide +kernel, by decide +kernel⟩
  intro c hc
  simp only [List.mem_cons, List.not_mem_nil, or_false] at hc
  rcases hc with rfl | rfl | rfl | rfl <;> trivial

/-- A caveat of the code: whether an assignment to a member is seen by the iterator depends on whether the array was replaced before. Here the
member b is assigned the node 9; an iterator sees it, but not if another member was added before and there was no room for it. -/
theorem C85_stale :
    ((Live.start liveObj).run [.next, .set b!"b" 9 0]).next.2.v = ⟨9, b!"b"⟩ ∧
    ((Live.start liveObj).run [.next, .set b!"e" 8 0, .set b!"b" 9 0]).next.2.v = ⟨2, b!"b"⟩ ∧
    ((Live.start liveObj).run [.next, .set b!"e" 8 0, .set b!"b" 9 0]).node.values.vis =
      [⟨1, b!"a"⟩, ⟨9, b!"b"⟩, ⟨3, b!"c"⟩, ⟨4, b!"d"⟩, ⟨8, b!"e"⟩] := by
  decide +kernel

/-- Another caveat of the code: an element added after `Slice` goes where the array has room, over an element that the iterator has not yet
visited. Here the array is [1, 2, 3, 4], cut to [2] after the first round; then 9 is added, and the iterator sees 1, 2, 9, 4. -/
theorem C85_slice_add :
    ((Live.start ⟨tArray, true, [], ⟨[⟨1, []⟩, ⟨2, []⟩, ⟨3, []⟩, ⟨4, []⟩], 4⟩⟩).run [.next, .slice 1 2, .push 9 0]).visits 9 =
      [⟨2, []⟩, ⟨9, []⟩, ⟨4, []⟩] := by
  decide +kernel

/-! ## C86 -/

theorem visits_eq : ∀ (fuel : Nat) (l : Live) (k : Nat), l.index = k → l.len ≤ l.array.length → l.len - k ≤ fuel →
    l.visits fuel = (l.array.take l.len).drop k
  | 0, l, k, h1, h2, h3 => by
    rw [List.drop_of_length_le (by simp; omega)]; rfl
  | fuel + 1, l, k, h1, h2, h3 => by
    unfold Live.visits
    by_cases hk : k < l.len
    · have hn : l.next = (true, { l with v := l.array.getD k V.zero, index := (k + 1 : Nat) }) := by
        unfold Live.next
        rw [if_pos (by omega), h1]
        simp
      rw [hn]
      simp only
      rw [visits_eq fuel _ (k + 1) rfl (by exact h2) (by simp only; omega), List.drop_eq_getElem_cons (i := k) (by simp; omega)]
      simp only [List.getElem_take]
      rw [List.getD_eq_getElem?_getD, List.getElem?_eq_getElem (by omega)]
      rfl
    · have hn : l.next.1 = false := by
        unfold Live.next
        rw [if_neg (by omega)]
      rw [List.drop_of_length_le (by simp; omega)]
      revert hn
      rcases l.next with ⟨b, l'⟩
      rintro rfl
      rfl

theorem start_nexts (n : NodeD) (k : Nat) (hk : k ≤ n.values.vis.length) :
    ((Live.start n).run (List.replicate k .next)).index = k ∧ ((Live.start n).run (List.replicate k .next)).len = n.values.vis.length ∧
    ((Live.start n).run (List.replicate k .next)).node = n ∧ ((Live.start n).run (List.replicate k .next)).old = none ∧
    ((Live.start n).run (List.replicate k .next)).pre = [] := by
  have h0 : nextsOf (List.replicate k .next) = k := by simp [nextsOf]
  obtain ⟨h1, h2⟩ := live_index n (List.replicate k .next)
  rw [h0, if_pos hk] at h2
  refine ⟨h2, h1, ?_⟩
  have : ∀ k (l : Live), l.node = n ∧ l.old = none ∧ l.pre = [] →
      (l.run (List.replicate k .next)).node = n ∧ (l.run (List.replicate k .next)).old = none ∧ (l.run (List.replicate k .next)).pre = [] := by
    intro k
    induction k with
    | zero => exact fun l h => h
    | succ k ih =>
      intro l h
      refine ih _ ?_
      show l.next.2.node = n ∧ l.next.2.old = none ∧ l.next.2.pre = []
      unfold Live.next
      split <;> exact h
  exact this k _ ⟨rfl, rfl, rfl⟩

theorem take_set_set {α : Type} (l : List α) (n i j : Nat) (x y : α) : ((l.set i x).set j y).take n = ((l.take n).set i x).set j y := by
  rw [List.take_set, List.take_set]

/-- **C86, what is seen**: the member at position `p` of an object is deleted after `k` calls of `Next`. The loop goes on with the positions `k` to
the last, where now the former last member is at position `p` and the zero entry (the empty key, node 0 of the document) is at the last position. -/
theorem C86_del (n : NodeD) (hw : n.values.len ≤ n.values.arr.length) (ho : n.typ = tObject) (k : Nat) (hk : k ≤ n.values.vis.length)
    (key : Bytes) (p : Nat) (hp : n.values.vis.findIdx? (fun v => v.key = key) = some p) (fuel : Nat) (hf : n.values.vis.length - k ≤ fuel) :
    (((Live.start n).run (List.replicate k .next)).del key).visits fuel =
      ((n.values.vis.set p (n.values.vis.getD (n.values.vis.length - 1) V.zero)).set (n.values.vis.length - 1) V.zero).drop k := by
  obtain ⟨h1, h2, h3, h4, h5⟩ := start_nexts n k hk
  have hl : n.values.vis.length = n.values.len := by simp [Slice.vis, hw]
  obtain ⟨hp1, -, -⟩ := List.findIdx?_eq_some_iff_getElem.1 hp
  generalize hq : (Live.start n).run (List.replicate k .next) = l at h1 h2 h3 h4 h5
  have harr : (l.del key).array = (n.values.arr.set p (n.values.arr.getD (n.values.vis.length - 1) V.zero)).set (n.values.vis.length - 1) V.zero := by
    unfold Live.array
    show (match l.old with | some a => a | none => l.pre ++ (l.del key).node.values.arr) = _
    rw [h4]
    simp only
    rw [h5, List.nil_append]
    unfold Live.del Live.edit
    simp only
    rw [h3, if_pos ho, hp]
    rfl
  have hlen : (l.del key).len = n.values.vis.length := h2
  rw [visits_eq fuel (l.del key) k h1 (by rw [harr, hlen]; simp; omega) (by rw [hlen]; exact hf), harr, hlen, take_set_set, hl]
  congr 3
  simp only [Slice.vis, List.getD_eq_getElem?_getD]
  rw [List.getElem?_take_of_lt (by omega)]

/-- **C86, what is seen**: the element `i` of an array is removed after `k` calls of `Next`. -/
theorem C86_remove (n : NodeD) (hw : n.values.len ≤ n.values.arr.length) (ha : n.typ = tArray) (k : Nat) (hk : k ≤ n.values.vis.length)
    (i : Nat) (hi : i < n.values.vis.length) (fuel : Nat) (hf : n.values.vis.length - k ≤ fuel) :
    (((Live.start n).run (List.replicate k .next)).remove i).visits fuel = (n.values.vis.eraseIdx i ++ [V.zero]).drop k := by
  obtain ⟨h1, h2, h3, h4, h5⟩ := start_nexts n k hk
  have hl : n.values.vis.length = n.values.len := by simp [Slice.vis, hw]
  generalize hq : (Live.start n).run (List.replicate k .next) = l at h1 h2 h3 h4 h5
  have harr : (l.remove i).array = n.values.vis.eraseIdx i ++ [V.zero] ++ n.values.arr.drop n.values.vis.length := by
    unfold Live.array
    show (match l.old with | some a => a | none => l.pre ++ (l.remove i).node.values.arr) = _
    rw [h4]
    simp only
    rw [h5, List.nil_append]
    unfold Live.remove Live.edit
    simp only
    rw [h3, if_pos ⟨ha, by omega, by omega⟩]
    simp [Slice.remove]
  have he : (n.values.vis.eraseIdx i).length = n.values.vis.length - 1 := by rw [List.length_eraseIdx, if_pos hi]
  have hlen : (l.remove i).len = n.values.vis.length := h2
  rw [visits_eq fuel (l.remove i) k h1 (by rw [harr, hlen]; simp [he]; omega) (by rw [hlen]; exact hf), harr, hlen]
  congr 1
  rw [List.take_append_of_le_length (by simp [he]; omega), List.take_of_length_le (by simp [he]; omega)]

/-- **C86 (partial)**: when a member that was not yet visited is deleted, all the other members that were not yet visited are visited later, and
the deleted one is not. Missing from the full claim: the deletion of a visited member, in particular of the one the iterator is at, after which
the last member is not visited (`C86_skips`), and the zero entry at the end. -/
theorem C86_ahead_partial (n : NodeD) (hw : n.values.len ≤ n.values.arr.length) (ho : n.typ = tObject)
    (hd : (n.values.vis.map (·.key)).Nodup) (hz : [] ∉ n.values.vis.map (·.key)) (k : Nat)
    (key : Bytes) (p : Nat) (hp : n.values.vis.findIdx? (fun v => v.key = key) = some p) (hkp : k ≤ p) (fuel : Nat) (hf : n.values.vis.length - k ≤ fuel)
    (v : V) :
    (v ∈ (((Live.start n).run (List.replicate k .next)).del key).visits fuel ∧ v ≠ V.zero) ↔ v ∈ n.values.vis.drop k ∧ v.key ≠ key := by
  obtain ⟨hp1, hp2, hp3⟩ := List.findIdx?_eq_some_iff_getElem.1 hp
  rw [C86_del n hw ho k (by omega) key p hp fuel hf]
  generalize n.values.vis = vs at *
  have hp2 : vs[p].key = key := by simpa using hp2
  have hinj : ∀ i j (hi : i < vs.length) (hj : j < vs.length), vs[i].key = vs[j].key → i = j := by
    intro i j hi hj h
    have := List.pairwise_iff_getElem.1 hd
    rcases Nat.lt_trichotomy i j with hlt | heq | hgt
    · exact absurd (by rw [List.getElem_map, List.getElem_map]; exact h) (this i j (by simpa using hi) (by simpa using hj) hlt)
    · exact heq
    · exact absurd (by rw [List.getElem_map, List.getElem_map]; exact h.symm) (this j i (by simpa using hj) (by simpa using hi) hgt)
  have hnz : ∀ i (hi : i < vs.length), vs[i] ≠ V.zero := by
    intro i hi h
    apply hz
    rw [List.mem_map]
    exact ⟨vs[i], List.getElem_mem _, by rw [h]; rfl⟩
  constructor
  · rintro ⟨hv, hv0⟩
    obtain ⟨i, hi, rfl⟩ := List.mem_iff_getElem.1 hv
    simp only [List.length_drop, List.length_set] at hi
    simp only [List.getElem_drop, List.getElem_set] at hv0 ⊢
    by_cases e1 : vs.length - 1 = k + i
    · rw [if_pos e1] at hv0; exact absurd rfl hv0
    · simp only [if_neg e1] at hv0 ⊢
      by_cases e2 : p = k + i
      · simp only [if_pos e2]
        rw [List.getD_eq_getElem?_getD, List.getElem?_eq_getElem (by omega), Option.getD_some]
        refine ⟨?_, fun h => ?_⟩
        · rw [List.mem_drop_iff_getElem]
          exact ⟨vs.length - 1 - k, by omega, by congr 1; omega⟩
        · have := hinj _ _ (by omega) hp1 (h.trans hp2.symm)
          omega
      · simp only [if_neg e2]
        refine ⟨?_, fun h => ?_⟩
        · rw [List.mem_drop_iff_getElem]
          exact ⟨i, by omega, rfl⟩
        · exact e2 (hinj _ _ (by omega) hp1 (h.trans hp2.symm)).symm
  · rintro ⟨hv, hvk⟩
    obtain ⟨i, hi, rfl⟩ := List.mem_drop_iff_getElem.1 hv
    refine ⟨?_, hnz _ _⟩
    have hne : k + i ≠ p := by
      rintro e
      apply hvk
      rw [← hp2]
      congr 2
    rw [List.mem_drop_iff_getElem]
    by_cases e1 : k + i = vs.length - 1
    · refine ⟨p - k, by simp; omega, ?_⟩
      rw [List.getElem_set, if_neg (by omega), List.getElem_set, if_pos (by omega)]
      rw [List.getD_eq_getElem?_getD, List.getElem?_eq_getElem (by omega), Option.getD_some]
      congr 1
      omega
    · refine ⟨i, by simp; omega, ?_⟩
      rw [List.getElem_set, if_neg (by omega), List.getElem_set, if_neg (by omega)]

example : liveObj.values.len ≤ liveObj.values.arr.length ∧ liveObj.typ = tObject ∧ (liveObj.values.vis.map (·.key)).Nodup ∧
    [] ∉ liveObj.values.vis.map (·.key) ∧ liveObj.values.vis.findIdx? (fun v => v.key = b!"b") = some 1 := by
  decide +kernel

/-- **C86 is false** of the code, for every object with distinct keys: if the member the iterator is at is deleted, and it is not the last one, then
the last member is not visited; instead there is an entry with the empty key whose value is node 0 of the document. -/
theorem C86_skips (n : NodeD) (hw : n.values.len ≤ n.values.arr.length) (ho : n.typ = tObject)
    (hd : (n.values.vis.map (·.key)).Nodup) (k : Nat) (hk : k + 1 < n.values.vis.length) (v : V) (hv : n.values.vis[k]? = some v)
    (fuel : Nat) (hf : n.values.vis.length - (k + 1) ≤ fuel) :
    let seen := (((Live.start n).run (List.replicate (k + 1) .next)).del v.key).visits fuel
    V.zero ∈ seen ∧ (∀ w, n.values.vis.getLast? = some w → w ≠ V.zero → w ∉ seen) := by
  obtain ⟨hk1, rfl⟩ := List.getElem?_eq_some_iff.1 hv
  have hinj : ∀ i j (hi : i < n.values.vis.length) (hj : j < n.values.vis.length), n.values.vis[i].key = n.values.vis[j].key → i = j := by
    intro i j hi hj h
    have := List.pairwise_iff_getElem.1 hd
    rcases Nat.lt_trichotomy i j with hlt | heq | hgt
    · exact absurd (by rw [List.getElem_map, List.getElem_map]; exact h) (this i j (by simpa using hi) (by simpa using hj) hlt)
    · exact heq
    · exact absurd (by rw [List.getElem_map, List.getElem_map]; exact h.symm) (this j i (by simpa using hj) (by simpa using hi) hgt)
  have hp : n.values.vis.findIdx? (fun w => w.key = n.values.vis[k].key) = some k := by
    rw [List.findIdx?_eq_some_iff_getElem]
    refine ⟨hk1, by simp, ?_⟩
    intro j hj
    simp only [decide_eq_true_eq]
    intro h
    have := hinj _ _ (by omega) hk1 h
    omega
  intro seen
  have hs : seen = _ := C86_del n hw ho (k + 1) (by omega) _ k hp fuel hf
  rw [hs]
  clear hs hp hv hw ho hf seen
  generalize n.values.vis = vs at *
  constructor
  · rw [List.mem_drop_iff_getElem]
    exact ⟨vs.length - 1 - (k + 1), by simp; omega, by rw [List.getElem_set, if_pos (by omega)]⟩
  · intro w hw' hwz hmem
    rw [List.getLast?_eq_getElem?, List.getElem?_eq_getElem (by omega)] at hw'
    cases hw'
    obtain ⟨i, hi, he⟩ := List.mem_drop_iff_getElem.1 hmem
    simp only [List.length_set] at hi
    rw [List.getElem_set] at he
    by_cases e1 : vs.length - 1 = k + 1 + i
    · rw [if_pos e1] at he; exact hwz he.symm
    · rw [if_neg e1, List.getElem_set, if_neg (by omega)] at he
      have := hinj _ _ (by omega) (by omega) (congrArg V.key he)
      omega

/-- **C86 is false** of the code: a loop that deletes every member it visits leaves two of the four members a, b, c, d; it sees a, b and twice
the empty key. -/
theorem C86_false :
    ((Live.start liveObj).filterLoop (fun _ => true) 10).1 = [b!"a", b!"b", [], []] ∧
    ((Live.start liveObj).filterLoop (fun _ => true) 10).2.node.values.vis = [⟨4, b!"d"⟩, ⟨3, b!"c"⟩] := by
  decide +kernel

end Verif.Props
