import Verif.Proofs.Bound
import Verif.Proofs.Flat

/-! # Bounds on the arrays of children that the parser allocates -/

namespace Verif.Njson
open Verif Verif.Spec

/-- The children of node `i`, with the capacity. -/
def P.sl (p : P) (i : Nat) : Slice := (p.nodes.getD i NodeD.zero).values

/-- What happens to the children of node `i`, which is new when `p.n ≤ i < p'.n`. -/
structure At (p p' : P) (i : Nat) : Prop where
  old : i < p.n → p'.sl i = p.sl i
  new : p'.n ≤ i → (p'.sl i).arr.length = (p.sl i).arr.length
  cap : (p'.sl i).arr.length ≤ max (p.sl i).arr.length (2 * (p'.sl i).vis.length - 1)

theorem At.same {p p' : P} {i : Nat} (h : p'.sl i = p.sl i) : At p p' i :=
  ⟨fun _ => h, fun _ => by rw [h], by rw [h]; omega⟩

theorem At.trans {p q r : P} {i : Nat} (h1 : At p q i) (h2 : At q r i) (hn : p.n ≤ q.n) (hm : q.n ≤ r.n) : At p r i := by
  refine ⟨fun h => ?_, fun h => ?_, ?_⟩
  · rw [h2.old (by omega), h1.old h]
  · rw [h2.new h, h1.new (by omega)]
  · by_cases h : i < q.n
    · rw [h2.old h]; exact h1.cap
    · rw [← h1.new (by omega)]; exact h2.cap

theorem node_sl {p p' : P} {i : Nat} (h : p.node = (p', some i)) : i = p.n ∧ p'.n = p.n + 1 ∧ ∀ j, p'.sl j = p.sl j := by
  unfold P.node at h
  split at h
  · cases h; exact ⟨rfl, rfl, fun _ => rfl⟩
  · dsimp only at h
    split at h
    · cases h
      refine ⟨rfl, rfl, fun j => ?_⟩
      unfold P.sl
      simp only [List.getD_eq_getElem?_getD, List.getElem?_append]
      split
      · rfl
      · rename_i hj
        rw [List.getElem?_replicate, List.getElem?_eq_none (by omega)]
        split <;> rfl
    · cases h

theorem setNode_sl_ne {p : P} {i j : Nat} (f : NodeD → NodeD) (h : j ≠ i) : (p.setNode i f).sl j = p.sl j := by
  unfold P.sl P.setNode
  simp [List.getD_eq_getElem?_getD, Ne.symm h]

theorem setNode_sl {p : P} {i : Nat} (f : NodeD → NodeD) (h : i < p.nodes.length) : (p.setNode i f).sl i = (f (p.nodes.getD i NodeD.zero)).values := by
  unfold P.sl P.setNode
  simp [List.getD_eq_getElem?_getD, h]

theorem zeroVis_length (s : Slice) : s.zeroVis.length = s.arr.length := by
  simp [Slice.zeroVis]; omega

/-- Every result of `parseValue`. -/
def PRes.Slots (p : P) : PRes → Prop
  | .ok p' _ _ => ∀ i, At p p' i
  | .err p' _ => ∀ i, At p p' i
  | .crash => True

/-- Every result of the loops over the children of node `id`. -/
def PRes.LoopSlots (p : P) (id : Nat) (nv : Slice) : PRes → Prop
  | .ok p' _ _ => (∀ i, i ≠ id → At p p' i) ∧ (p'.sl id).arr.length ≤ max nv.arr.length (2 * (p'.sl id).vis.length - 1)
  | .err p' _ => ∀ i, At p p' i
  | .crash => True

theorem slots_err {p : P} {e : PErr} : PRes.Slots p (.err p e) := fun _ => At.same rfl

theorem scalar_slots {p : P} (hp : p.n ≤ p.nodes.length) {typ : Typ} {raw : Bytes} {pos : Nat} {rest : Bytes} : PRes.Slots p (p.scalar typ raw pos rest) := by
  unfold P.scalar
  generalize hn : p.node = q
  obtain ⟨p', o⟩ := q
  cases o with
  | none => trivial
  | some i =>
    obtain ⟨h1, h2, h3⟩ := node_sl hn
    obtain ⟨_, _, h4⟩ := node_grown hp hn
    intro j
    by_cases hj : j = i
    · subst hj
      have e := setNode_sl (p := p') (i := j) (fun n => { typ := typ, root := false, raw := raw, values := ⟨n.values.zeroVis, 0⟩ }) (by omega)
      have e2 : ((p'.setNode j (fun n => { typ := typ, root := false, raw := raw, values := ⟨n.values.zeroVis, 0⟩ })).sl j).arr.length = (p.sl j).arr.length := by
        rw [e, ← h3 j]; exact zeroVis_length _
      refine ⟨fun h => absurd h (by omega), fun h => ?_, ?_⟩
      · exact e2
      · rw [e2]; omega
    · exact At.same (by rw [setNode_sl_ne _ hj, h3])

theorem literal_slots {p : P} (hp : p.n ≤ p.nodes.length) {typ : Typ} {lit : Bytes} {pos : Nat} {s : Bytes} :
    PRes.Slots p (p.literal typ lit pos s) := by
  unfold P.literal
  split
  · split
    · exact scalar_slots hp
    · exact slots_err
  · exact slots_err

theorem appendV_length (vs : List V) (k : Bytes) (id i : Nat) (h : i ≤ vs.length) :
    (appendV vs k id i).length = if i < vs.length then vs.length else 2 * i + 1 := by
  unfold appendV
  split
  · simp
  · simp; omega

/-- The children of a container that has been read. -/
theorem finish_length {nv : Slice} {vs : List V} {k : Nat} (h : k ≤ vs.length) :
    (finishValues nv vs k).arr.length = vs.length ∧ (finishValues nv vs k).vis.length = k := by
  unfold finishValues
  split
  · constructor
    · simp; omega
    · simp [Slice.vis]; omega
  · split
    · exact ⟨rfl, by simp [Slice.vis]; omega⟩
    · exact ⟨rfl, by simp [Slice.vis]; omega⟩

/-- After the container's node has been made. -/
theorem container_slots {p p' : P} {id : Nat} (hn : p.node = (p', some id)) (hp : p.n ≤ p.nodes.length) (typ : Typ) :
    (∀ i, (p'.setNode id (setContainer typ)).sl i = p.sl i) ∧ (p'.setNode id (setContainer typ)).n = p.n + 1 ∧
    id = p.n ∧ p.n + 1 ≤ (p'.setNode id (setContainer typ)).nodes.length ∧ (p'.nodes.getD id NodeD.zero).values = p.sl id := by
  obtain ⟨h1, h2, h3⟩ := node_sl hn
  obtain ⟨_, _, h4⟩ := node_grown hp hn
  refine ⟨fun i => ?_, h2, h1, by simp [P.setNode]; omega, h3 id⟩
  by_cases hi : i = id
  · subst hi
    rw [setNode_sl _ (by omega), ← h3 i]; rfl
  · rw [setNode_sl_ne _ hi, h3]

theorem of_loop {p q : P} {id : Nat} {nv : Slice} {r : PRes} (hs : ∀ i, q.sl i = p.sl i) (hq : q.n = p.n + 1) (hid : id = p.n) (hnv : nv = p.sl id)
    (h : PRes.LoopSlots q id nv r) (hn : ∀ p', (∃ pos rest, r = .ok p' pos rest) ∨ (∃ e, r = .err p' e) → q.n ≤ p'.n) : PRes.Slots p r := by
  have same : ∀ {p' : P} {i : Nat}, q.n ≤ p'.n → At q p' i → At p p' i := fun hle h => (At.same (hs _)).trans h (by omega) hle
  cases r with
  | crash => trivial
  | err p' e => exact fun i => same (hn p' (.inr ⟨e, rfl⟩)) (h i)
  | ok p' pos rest =>
    have hle := hn p' (.inl ⟨pos, rest, rfl⟩)
    intro i
    by_cases hi : i = id
    · refine ⟨fun h => absurd h (by omega), fun h => absurd h (by omega), ?_⟩
      subst hi
      rw [← hnv]
      exact h.2
    · exact same hle (h.1 i hi)

theorem grown_n {p : P} {rest : Bytes} {r : PRes} (h : PRes.Bounded p rest r) (p' : P) (hr : (∃ pos rest, r = .ok p' pos rest) ∨ (∃ e, r = .err p' e)) :
    p.n ≤ p'.n := by
  rcases hr with ⟨_, _, rfl⟩ | ⟨_, rfl⟩
  · exact h.2.1.1
  · exact h.2.1.1

/-- the loops, after one child -/
theorem loop_trans {p q : P} {id : Nat} {nv : Slice} {r : PRes} (h1 : ∀ i, At p q i) (hn : p.n ≤ q.n) (h2 : PRes.LoopSlots q id nv r)
    (hr : ∀ p', (∃ pos rest, r = .ok p' pos rest) ∨ (∃ e, r = .err p' e) → q.n ≤ p'.n) : PRes.LoopSlots p id nv r := by
  cases r with
  | crash => trivial
  | err p' e => exact fun i => (h1 i).trans (h2 i) hn (hr p' (.inr ⟨e, rfl⟩))
  | ok p' pos rest => exact ⟨fun i hi => (h1 i).trans (h2.1 i hi) hn (hr p' (.inl ⟨pos, rest, rfl⟩)), h2.2⟩

theorem loop_end {p q : P} {id : Nat} {nv : Slice} {vs : List V} {k pos : Nat} {rest : Bytes} (h1 : ∀ i, At p q i) (hq : q.n ≤ q.nodes.length) (hn : p.n ≤ q.n) (hid : id < p.n)
    (hk : k ≤ vs.length) (hv : vs.length ≤ max nv.arr.length (2 * k - 1)) :
    PRes.LoopSlots p id nv (.ok (q.setNode id (setValues (finishValues nv vs k))) pos rest) := by
  obtain ⟨f1, f2⟩ := finish_length (nv := nv) hk
  refine ⟨fun i hi => (h1 i).trans (At.same (setNode_sl_ne _ hi)) hn (by simp [P.setNode]), ?_⟩
  rw [setNode_sl _ (by omega)]
  simp only [setValues]
  rw [f1, f2]
  exact hv

theorem slots_all : ∀ fuel : Nat,
    (∀ (p : P) (pos : Nat) (rest : Bytes), p.n ≤ p.nodes.length → PRes.Slots p (parseValue fuel p pos rest)) ∧
    (∀ (p : P) (id : Nat) (nv : Slice) (vs : List V) (k pos : Nat) (rest : Bytes), p.n ≤ p.nodes.length → id < p.n → k ≤ vs.length →
      vs.length ≤ max nv.arr.length (2 * k - 1) → PRes.LoopSlots p id nv (parseElems fuel p id nv vs k pos rest)) ∧
    (∀ (p : P) (id : Nat) (nv : Slice) (vs : List V) (k pos : Nat) (rest : Bytes), p.n ≤ p.nodes.length → id < p.n → k ≤ vs.length →
      vs.length ≤ max nv.arr.length (2 * k - 1) → PRes.LoopSlots p id nv (parseMembers fuel p id nv vs k pos rest)) := by
  intro fuel
  induction fuel with
  | zero =>
    refine ⟨fun p pos rest _ => ?_, fun p id nv vs k pos rest _ _ _ _ => ?_, fun p id nv vs k pos rest _ _ _ _ => ?_⟩
    · rw [parseValue]; trivial
    · rw [parseElems]; trivial
    · rw [parseMembers]; trivial
  | succ fuel ih =>
    obtain ⟨ihV, ihE, ihM⟩ := ih
    have errs : ∀ {p : P} {id : Nat} {nv : Slice} {e : PErr}, PRes.LoopSlots p id nv (.err p e) := fun _ => At.same rfl
    have next : ∀ {vs : List V} {nv : Slice} {key : Bytes} {n k : Nat}, k ≤ vs.length → vs.length ≤ max nv.arr.length (2 * k - 1) →
        k + 1 ≤ (appendV vs key n k).length ∧ (appendV vs key n k).length ≤ max nv.arr.length (2 * (k + 1) - 1) := by
      intro vs nv key n k h1 h2
      rw [appendV_length _ _ _ _ h1]
      split <;> omega
    refine ⟨fun p pos rest hp => ?_, fun p id nv vs k pos rest hp hid hk hv => ?_, fun p id nv vs k pos rest hp hid hk hv => ?_⟩
    · rw [parseValue]
      generalize hs : skipSpace pos rest = q
      obtain ⟨pos1, rest1⟩ := q
      cases rest1 with
      | nil => exact slots_err
      | cons c r =>
        simp only
        have cont : ∀ (typ : Typ) (p' : P) (id : Nat), p.node = (p', some id) →
            (∀ {e : PErr}, PRes.Slots p (.err (p'.setNode id (setContainer typ)) e)) ∧
            (∀ {pos : Nat} {rest : Bytes}, PRes.Slots p (.ok ((p'.setNode id (setContainer typ)).setNode id (setValues ⟨((p'.nodes.getD id NodeD.zero).values).zeroVis, 0⟩)) pos rest)) := by
          intro typ p' id hn
          obtain ⟨c1, c2, c3, c4, c5⟩ := container_slots hn hp typ
          refine ⟨fun i => At.same (c1 i), fun {pos rest} i => ?_⟩
          by_cases hi : i = id
          · subst hi
            have e2 : (((p'.setNode i (setContainer typ)).setNode i (setValues ⟨((p'.nodes.getD i NodeD.zero).values).zeroVis, 0⟩)).sl i).arr.length = (p.sl i).arr.length := by
              rw [setNode_sl _ (by omega), ← c5]
              exact zeroVis_length _
            exact ⟨fun h => absurd h (by omega), fun _ => e2, by rw [e2]; omega⟩
          · exact At.same (by rw [setNode_sl_ne _ hi, c1])
        split
        · split
          · exact slots_err
          · split
            · exact slots_err
            · exact scalar_slots hp
        · split
          · generalize hn : p.node = q
            obtain ⟨p', o⟩ := q
            cases o with
            | none => trivial
            | some id =>
              obtain ⟨c1, c2, c3, c4, c5⟩ := container_slots hn hp tObject
              obtain ⟨k1, k2⟩ := cont tObject p' id hn
              dsimp only
              generalize hs2 : skipSpace (pos1 + 1) r = q
              obtain ⟨pos2, rest2⟩ := q
              cases rest2 with
              | nil => exact k1
              | cons c2' r2 =>
                dsimp only
                split
                · exact k2
                · split
                  · refine of_loop c1 c2 c3 c5 (ihM _ _ _ _ _ _ _ (by omega) (by omega) (Nat.zero_le _) (by omega)) (grown_n ((parse_bounded fuel).2.2 _ _ _ _ _ _ _ (by omega)))
                  · exact k1
          · split
            · generalize hn : p.node = q
              obtain ⟨p', o⟩ := q
              cases o with
              | none => trivial
              | some id =>
                obtain ⟨c1, c2, c3, c4, c5⟩ := container_slots hn hp tArray
                obtain ⟨k1, k2⟩ := cont tArray p' id hn
                dsimp only
                generalize hs2 : skipSpace (pos1 + 1) r = q
                obtain ⟨pos2, rest2⟩ := q
                cases rest2 with
                | nil => exact k1
                | cons c2' r2 =>
                  dsimp only
                  split
                  · exact k2
                  · refine of_loop c1 c2 c3 c5 (ihE _ _ _ _ _ _ _ (by omega) (by omega) (Nat.zero_le _) (by omega)) (grown_n ((parse_bounded fuel).2.1 _ _ _ _ _ _ _ (by omega)))
            · split
              · exact scalar_slots hp
              · split
                · exact literal_slots hp
                · split
                  · exact scalar_slots hp
                  · split
                    · exact literal_slots hp
                    · split
                      · exact literal_slots hp
                      · exact slots_err
    · rw [parseElems]
      have h1 := ihV p pos rest hp
      have hb := (parse_bounded fuel).1 p pos rest hp
      generalize hv' : parseValue fuel p pos rest = q at h1 hb ⊢
      cases q with
      | crash => trivial
      | err p' e => exact h1
      | ok p' pos' rest' =>
        obtain ⟨_, b2, b3⟩ := hb
        obtain ⟨n1, n2⟩ := next (key := []) (n := p.n) hk hv
        simp only
        generalize hs2 : skipSpace pos' rest' = q
        obtain ⟨pos2, rest2⟩ := q
        cases rest2 with
        | nil => exact h1
        | cons c2 r2 =>
          dsimp only
          split
          · exact loop_trans h1 b2.1 (ihE _ _ _ _ _ _ _ b3 (by have := b2.1; omega) n1 n2) (grown_n ((parse_bounded fuel).2.1 _ _ _ _ _ _ _ b3))
          · split
            · exact loop_end h1 b3 b2.1 hid n1 n2
            · exact h1
    · rw [parseMembers]
      split
      · exact errs
      · rename_i i hi
        dsimp only
        generalize hs : skipSpace (pos + 1 + i) (rest.drop (i + 1)) = q
        obtain ⟨pos1, rest1⟩ := q
        cases rest1 with
        | nil => exact errs
        | cons c r =>
          dsimp only
          split
          · have h1 := ihV p (pos1 + 1) r hp
            have hb := (parse_bounded fuel).1 p (pos1 + 1) r hp
            generalize hv' : parseValue fuel p (pos1 + 1) r = q at h1 hb ⊢
            cases q with
            | crash => trivial
            | err p' e => exact h1
            | ok p' pos' rest' =>
              obtain ⟨_, b2, b3⟩ := hb
              obtain ⟨n1, n2⟩ := next (key := rest.take i) (n := p.n) hk hv
              simp only
              generalize hs2 : skipSpace pos' rest' = q
              obtain ⟨pos2, rest2⟩ := q
              cases rest2 with
              | nil => exact h1
              | cons c2 r2 =>
                dsimp only
                split
                · generalize hs3 : skipSpace (pos2 + 1) r2 = q
                  obtain ⟨pos3, rest3⟩ := q
                  cases rest3 with
                  | nil => exact h1
                  | cons c3 r3 =>
                    dsimp only
                    split
                    · exact loop_trans h1 b2.1 (ihM _ _ _ _ _ _ _ b3 (by have := b2.1; omega) n1 n2) (grown_n ((parse_bounded fuel).2.2 _ _ _ _ _ _ _ b3))
                    · exact h1
                · split
                  · exact loop_end h1 b3 b2.1 hid n1 n2
                  · exact h1
          · exact errs

/-! ## Sums -/

/-- Slots for children in the arrays of all nodes, used or not. -/
def Doc.slots (d : Doc) : Nat := (d.arr.map fun n => n.values.arr.length).sum

theorem sum_le {a b c : List Nat} (h : ∀ i, a.getD i 0 ≤ b.getD i 0 + c.getD i 0) : a.sum ≤ b.sum + c.sum := by
  induction a generalizing b c with
  | nil => simp
  | cons x a ih =>
    have h0 := h 0
    have ht : a.sum ≤ b.tail.sum + c.tail.sum := by
      apply ih
      intro i
      have := h (i + 1)
      cases b <;> cases c <;> simpa using this
    have hb : b.sum = b.getD 0 0 + b.tail.sum := by cases b <;> simp
    have hc : c.sum = c.getD 0 0 + c.tail.sum := by cases c <;> simp
    simp only [List.sum_cons, List.getD_cons_zero] at h0 ⊢
    omega

theorem elemRefs_length : ∀ (xs : List JVal) (b : Nat), (elemRefs b xs).length = xs.length
  | [], _ => rfl
  | x :: xs, b => by simp [elemRefs, elemRefs_length xs]

theorem memberRefs_length : ∀ (xs : List (Bytes × JVal)) (b : Nat), (memberRefs b xs).length = xs.length
  | [], _ => rfl
  | (_, x) :: xs, b => by simp [memberRefs, memberRefs_length xs]

/-- All nodes but the first are children. -/
theorem flat_children : (∀ t : JVal, ∀ b, ((flat b t).map (·.vals.length)).sum + 1 = t.size) ∧
    (∀ xs, ∀ b, ((flatElems b xs).map (·.vals.length)).sum + xs.length = sizeElems xs) ∧
    (∀ ms, ∀ b, ((flatMembers b ms).map (·.vals.length)).sum + ms.length = sizeMembers ms) := by
  apply jval_ind
  · intro b; simp [flat, JVal.size]
  · intro b base; cases b <;> simp [flat, JVal.size]
  · intro r b; simp [flat, JVal.size]
  · intro r b; simp [flat, JVal.size]
  · intro xs ih b; have := ih (b + 1); simp [flat, JVal.size, elemRefs_length]; omega
  · intro xs ih b; have := ih (b + 1); simp [flat, JVal.size, memberRefs_length]; omega
  · intro b; simp [flatElems, sizeElems]
  · intro x xs h1 h2 b; have := h1 b; have := h2 (b + x.size); simp [flatElems, sizeElems]; omega
  · intro b; simp [flatMembers, sizeMembers]
  · intro k x xs h1 h2 b; have := h1 b; have := h2 (b + x.size); simp [flatMembers, sizeMembers]; omega

end Verif.Njson
