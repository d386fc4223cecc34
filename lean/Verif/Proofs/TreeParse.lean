import Verif.Proofs.Flat

/-!
The parser as a function to trees: the same control flow as the model's `parseValue`, without the arena.
`refine_*` shows that the arena parser computes the preorder layout of the tree this parser returns, touches
nothing before its start, and fails with the same errors.
-/

namespace Verif.Njson
open Verif Verif.Spec

inductive TR (α : Type) where
  | ok (a : α) (pos : Nat) (rest : Bytes)
  | err (e : PErr)
  | crash

def tLiteral (t : JVal) (typ : Typ) (lit : Bytes) (pos : Nat) (s : Bytes) : TR JVal :=
  if lit.length ≤ s.length then
    if s.take lit.length = lit then .ok t (pos + lit.length) (s.drop lit.length)
    else .err (.abort pos typ (.str (s.take lit.length)) (.str lit))
  else .err (.eof typ)

mutual
def tVal : Nat → Nat → Bytes → TR JVal
  | 0, _, _ => .crash
  | fuel + 1, pos, rest =>
    match skipSpace pos rest with
    | (_, []) => .err (.eof tAnyValue)
    | (pos, c :: r) =>
      if c = 34 then
        match r with
        | [] => .err (.eof tString)
        | _ =>
          match scanString r with
          | none => .err (.eof tString)
          | some i => .ok (.str (r.take i)) (pos + 1 + 1 + i) (r.drop (i + 1))
      else if c = 123 then
        match skipSpace (pos + 1) r with
        | (_, []) => .err (.eof tObject)
        | (pos, c :: r) =>
          if c = 125 then .ok (.obj []) (pos + 1) r
          else if c = 34 then
            match tMembers fuel (pos + 1) r with
            | .ok ms pos rest => .ok (.obj ms) pos rest
            | .err e => .err e
            | .crash => .crash
          else .err (.abort pos tObject (.byte c) (.oneOf [125, 34]))
      else if c = 91 then
        match skipSpace (pos + 1) r with
        | (_, []) => .err (.eof tArray)
        | (pos, c :: r) =>
          if c = 93 then .ok (.arr []) (pos + 1) r
          else
            match tElems fuel pos (c :: r) with
            | .ok xs pos rest => .ok (.arr xs) pos rest
            | .err e => .err e
            | .crash => .crash
      else if isDigit c then
        let i := numberLen (c :: r)
        .ok (.num ((c :: r).take i)) (pos + i) ((c :: r).drop i)
      else if c = 110 then tLiteral .null tNull strNull pos (c :: r)
      else if c = 45 then
        let i := numberLen (c :: r)
        .ok (.num ((c :: r).take i)) (pos + i) ((c :: r).drop i)
      else if c = 102 then tLiteral (.bool false) tBoolean strFalse pos (c :: r)
      else if c = 116 then tLiteral (.bool true) tBoolean strTrue pos (c :: r)
      else .err (.abort pos tAnyValue (.byte c) (.str b!"any value"))

def tElems : Nat → Nat → Bytes → TR (List JVal)
  | 0, _, _ => .crash
  | fuel + 1, pos, rest =>
    match tVal fuel pos rest with
    | .crash => .crash
    | .err e => .err e
    | .ok x pos rest =>
      match skipSpace pos rest with
      | (_, []) => .err (.eof tArray)
      | (pos, c :: r) =>
        if c = 44 then
          match tElems fuel (pos + 1) r with
          | .ok xs pos rest => .ok (x :: xs) pos rest
          | .err e => .err e
          | .crash => .crash
        else if c = 93 then .ok [x] (pos + 1) r
        else .err (.abort pos tArray (.byte c) (.oneOf [44, 93]))

def tMembers : Nat → Nat → Bytes → TR (List (Bytes × JVal))
  | 0, _, _ => .crash
  | fuel + 1, pos, key =>
    match scanQuote key 0 with
    | none => .err (.eof tObject)
    | some i =>
      match skipSpace (pos + 1 + i) (key.drop (i + 1)) with
      | (_, []) => .err (.eof tObject)
      | (pos, c :: r) =>
        if c = 58 then
          match tVal fuel (pos + 1) r with
          | .crash => .crash
          | .err e => .err e
          | .ok x pos rest =>
            match skipSpace pos rest with
            | (_, []) => .err (.eof tObject)
            | (pos, c :: r) =>
              if c = 44 then
                match skipSpace (pos + 1) r with
                | (_, []) => .err (.eof tObject)
                | (pos, c :: r) =>
                  if c = 34 then
                    match tMembers fuel (pos + 1) r with
                    | .ok ms pos rest => .ok ((key.take i, x) :: ms) pos rest
                    | .err e => .err e
                    | .crash => .crash
                  else .err (.abort pos tObject (.byte c) (.oneOf [34]))
              else if c = 125 then .ok [(key.take i, x)] (pos + 1) r
              else .err (.abort pos tObject (.byte c) (.oneOf [44, 125]))
        else .err (.abort pos tObject (.byte c) (.oneOf [58]))
end

/-! ## arena lemmas -/

def P.Wf (p : P) : Prop := p.n ≤ p.nodes.length

/-- Everything before `k` is untouched and the state stays well formed. -/
structure Keep (k : Nat) (p p' : P) : Prop where
  wf : p'.Wf
  le : p.n ≤ p'.n
  cap : p.nodes.length ≤ p'.nodes.length
  same : ∀ i, i < k → p'.nodes[i]? = p.nodes[i]?

theorem Keep.refl {k : Nat} {p : P} (h : p.Wf) : Keep k p p := ⟨h, Nat.le_refl _, Nat.le_refl _, fun _ _ => rfl⟩

theorem Keep.trans {k : Nat} {p q r : P} (h : Keep k p q) (h' : Keep k q r) : Keep k p r :=
  ⟨h'.wf, Nat.le_trans h.le h'.le, Nat.le_trans h.cap h'.cap, fun i hi => (h'.same i hi).trans (h.same i hi)⟩

theorem Keep.mono {k k' : Nat} {p q : P} (h : Keep k p q) (hk : k' ≤ k) : Keep k' p q :=
  ⟨h.wf, h.le, h.cap, fun i hi => h.same i (by omega)⟩

/-- The observable nodes from `p.n` on are `ns`. -/
def Has (p : P) (base : Nat) (ns : List ANode) : Prop := ∀ j, j < ns.length → (p.nodes[base + j]?).map NodeD.abs = ns[j]?

theorem Has.keep {p q : P} {base : Nat} {ns : List ANode} (h : Has p base ns) (hk : ∀ i, base ≤ i → i < base + ns.length →
    q.nodes[i]? = p.nodes[i]?) : Has q base ns := by
  intro j hj
  rw [hk (base + j) (by omega) (by omega)]
  exact h j hj

theorem Has.append {p : P} {base : Nat} {ns ms : List ANode} (h : Has p base ns) (h' : Has p (base + ns.length) ms) :
    Has p base (ns ++ ms) := by
  intro j hj
  by_cases hlt : j < ns.length
  · rw [List.getElem?_append_left hlt]; exact h j hlt
  · rw [List.getElem?_append_right (by omega)]
    have := h' (j - ns.length) (by simp at hj; omega)
    rwa [show base + ns.length + (j - ns.length) = base + j by omega] at this

theorem Has.cons {p : P} {base : Nat} {a : ANode} {ns : List ANode} (h : (p.nodes[base]?).map NodeD.abs = some a)
    (h' : Has p (base + 1) ns) : Has p base (a :: ns) := by
  have : Has p base [a] := by
    intro j hj
    simp at hj; subst hj; simpa using h
  simpa using Has.append this h'

theorem Has.nil {p : P} {base : Nat} : Has p base [] := by intro j hj; simp at hj

/-- `node()` always hands out index `p.n`. -/
theorem node_eq {p : P} (h : p.Wf) : ∃ q : P, p.node = (q, some p.n) ∧ q.n = p.n + 1 ∧ q.n ≤ q.nodes.length ∧
    p.nodes.length ≤ q.nodes.length ∧ ∀ i, i < p.n → q.nodes[i]? = p.nodes[i]? := by
  unfold P.Wf at h
  unfold P.node
  split
  · rename_i hlt
    exact ⟨_, rfl, rfl, by simp; omega, Nat.le_refl _, fun _ _ => rfl⟩
  · rename_i hlt
    simp only
    rw [if_pos (by simp; omega)]
    refine ⟨_, rfl, rfl, by simp; omega, by simp, fun i hi => ?_⟩
    simp only
    rw [List.getElem?_append_left (by omega)]

theorem setNode_n (p : P) (i : Nat) (f) : (p.setNode i f).n = p.n := rfl
theorem setNode_length (p : P) (i : Nat) (f) : (p.setNode i f).nodes.length = p.nodes.length := by simp [P.setNode]
theorem setNode_ne (p : P) {i j : Nat} (f) (h : j ≠ i) : (p.setNode i f).nodes[j]? = p.nodes[j]? := by
  simp [P.setNode, Ne.symm h]
theorem setNode_eq (p : P) (i : Nat) (f) : (p.setNode i f).nodes[i]? = (p.nodes[i]?).map f := by
  simp [P.setNode]

theorem zeroVis_vis (s : Slice) : (Slice.mk s.zeroVis 0).vis = [] := by simp [Slice.vis]

theorem appendV_take {vs : List V} {key : Bytes} {id i : Nat} (h : i ≤ vs.length) :
    i + 1 ≤ (appendV vs key id i).length ∧ (appendV vs key id i).take (i + 1) = vs.take i ++ [⟨id, key⟩] := by
  unfold appendV
  split
  · rename_i hlt
    refine ⟨by simp; omega, ?_⟩
    rw [List.take_add_one, List.take_set_of_le (Nat.le_refl i)]
    simp [hlt]
  · rename_i hlt
    have : i = vs.length := by omega
    subst this
    refine ⟨by simp, ?_⟩
    rw [List.take_add_one, List.take_set_of_le (Nat.le_refl _)]
    simp

theorem finishValues_vis {nv : Slice} {vs : List V} {k : Nat} (h : k ≤ vs.length) :
    (finishValues nv vs k).vis = vs.take k := by
  unfold finishValues Slice.vis
  split
  · rw [List.append_assoc, List.take_append_of_le_length (by simp; omega), List.take_take, Nat.min_self]
  · split
    · rfl
    · have : k = vs.length := by omega
      simp [this]

/-! ## refinement -/

/-- What `parseValue` does, given what the tree parser returns. -/
def RefVal (p : P) : TR JVal → PRes → Prop
  | .ok t pos rest, r => ∃ p', r = .ok p' pos rest ∧ Keep p.n p p' ∧ p'.n = p.n + t.size ∧ Has p' p.n (flat p.n t)
  | .err e, r => ∃ p', r = .err p' e ∧ Keep p.n p p'
  | .crash, r => r = .crash

/-- What the container loops do: fill `values` from index `numV`, store it in node `id`. -/
def RefList {α : Type} (p : P) (id : Nat) (seen : List V) (size : List α → Nat) (refs : Nat → List α → List V)
    (fl : Nat → List α → List ANode) : TR (List α) → PRes → Prop
  | .ok xs pos rest, r => ∃ p', r = .ok p' pos rest ∧ p'.Wf ∧ p.nodes.length ≤ p'.nodes.length ∧
      p'.n = p.n + size xs ∧
      (∀ i, i < p.n → i ≠ id → p'.nodes[i]? = p.nodes[i]?) ∧
      (∃ w : Slice, w.vis = seen ++ refs p.n xs ∧ p'.nodes[id]? = (p.nodes[id]?).map (setValues w)) ∧
      Has p' p.n (fl p.n xs)
  | .err e, r => ∃ p', r = .err p' e ∧ p'.Wf ∧ p.n ≤ p'.n ∧ p.nodes.length ≤ p'.nodes.length ∧
      (∀ i, i < p.n → i ≠ id → p'.nodes[i]? = p.nodes[i]?)
  | .crash, r => r = .crash

theorem refine_scalar {p : P} (h : p.Wf) (t : JVal) (typ : Typ) (raw : Bytes) (pos : Nat) (rest : Bytes)
    (hs : t.size = 1) (hf : ∀ b, flat b t = [⟨typ, false, raw, []⟩]) :
    RefVal p (.ok t pos rest) (p.scalar typ raw pos rest) := by
  obtain ⟨q, e, hn, hle, hc, hsame⟩ := node_eq h
  unfold P.scalar
  rw [e]
  simp only
  refine ⟨_, rfl, ⟨?_, ?_, ?_, ?_⟩, ?_, ?_⟩
  · unfold P.Wf; rw [setNode_length]; exact hle
  · rw [setNode_n]; omega
  · rw [setNode_length]; exact hc
  · intro i hi; rw [setNode_ne _ _ (by omega)]; exact hsame i hi
  · rw [setNode_n, hs, hn]
  · rw [hf]
    apply Has.cons
    · rw [setNode_eq]
      have : p.n < q.nodes.length := by omega
      rw [List.getElem?_eq_getElem this]
      simp [NodeD.abs, zeroVis_vis]
    · exact Has.nil

theorem refine_literal {p : P} (h : p.Wf) (t : JVal) (typ : Typ) (lit : Bytes) (pos : Nat) (s : Bytes)
    (hs : t.size = 1) (hf : ∀ b, flat b t = [⟨typ, false, lit, []⟩]) :
    RefVal p (tLiteral t typ lit pos s) (p.literal typ lit pos s) := by
  unfold tLiteral P.literal
  split
  · split
    · exact refine_scalar h t typ lit _ _ hs hf
    · exact ⟨p, rfl, Keep.refl h⟩
  · exact ⟨p, rfl, Keep.refl h⟩

theorem refine_all (fuel : Nat) :
    (∀ (p : P) (pos : Nat) (rest : Bytes), p.Wf → RefVal p (tVal fuel pos rest) (parseValue fuel p pos rest)) ∧
    (∀ (p : P) (id : Nat) (nv : Slice) (vs : List V) (k pos : Nat) (rest : Bytes), p.Wf → id < p.n → k ≤ vs.length →
      RefList p id (vs.take k) sizeElems elemRefs flatElems (tElems fuel pos rest)
        (parseElems fuel p id nv vs k pos rest)) ∧
    (∀ (p : P) (id : Nat) (nv : Slice) (vs : List V) (k pos : Nat) (rest : Bytes), p.Wf → id < p.n → k ≤ vs.length →
      RefList p id (vs.take k) sizeMembers memberRefs flatMembers (tMembers fuel pos rest)
        (parseMembers fuel p id nv vs k pos rest)) := by
  induction fuel with
  | zero =>
    refine ⟨fun p pos rest _ => ?_, fun p id nv vs k pos rest _ _ _ => ?_, fun p id nv vs k pos rest _ _ _ => ?_⟩
    · simp [tVal, parseValue, RefVal]
    · simp [tElems, parseElems, RefList]
    · simp [tMembers, parseMembers, RefList]
  | succ fuel ih =>
    obtain ⟨ihV, ihE, ihM⟩ := ih
    refine ⟨fun p pos rest hwf => ?_, fun p id nv vs k pos rest hwf hid hk => ?_,
      fun p id nv vs k pos rest hwf hid hk => ?_⟩
    · -- values
      unfold tVal parseValue
      generalize skipSpace pos rest = sk
      obtain ⟨pos, rest⟩ := sk
      match rest with
      | [] => exact ⟨p, rfl, Keep.refl hwf⟩
      | c :: r =>
        simp only
        split
        · -- string
          match r with
          | [] => exact ⟨p, rfl, Keep.refl hwf⟩
          | c' :: r' =>
            simp only
            generalize scanString (c' :: r') = sc
            match sc with
            | none => exact ⟨p, rfl, Keep.refl hwf⟩
            | some i => exact refine_scalar hwf _ _ _ _ _ rfl (fun _ => rfl)
        · split
          · -- object
            obtain ⟨q, e, hn, hle, hc, hsame⟩ := node_eq hwf
            rw [e]
            simp only
            generalize hq2 : q.setNode p.n (setContainer tObject) = q2
            have q2n : q2.n = p.n + 1 := by rw [← hq2, setNode_n, hn]
            have q2l : q2.nodes.length = q.nodes.length := by rw [← hq2, setNode_length]
            have q2wf : q2.Wf := by unfold P.Wf; omega
            have q2same : ∀ i, i < p.n → q2.nodes[i]? = p.nodes[i]? := by
              intro i hi; rw [← hq2, setNode_ne _ _ (by omega)]; exact hsame i hi
            have q2k : Keep p.n p q2 := ⟨q2wf, by omega, by omega, q2same⟩
            have q2at : ∃ nd : NodeD, q2.nodes[p.n]? = some nd ∧ nd.typ = tObject ∧ nd.root = false ∧ nd.raw = [] := by
              rw [← hq2, setNode_eq, List.getElem?_eq_getElem (show p.n < q.nodes.length by omega)]
              exact ⟨_, rfl, rfl, rfl, rfl⟩
            obtain ⟨nd, hnd, nd1, nd2, nd3⟩ := q2at
            generalize skipSpace (pos + 1) r = sk
            obtain ⟨pos, rest⟩ := sk
            match rest with
            | [] => exact ⟨_, rfl, q2k⟩
            | c :: r =>
              simp only
              split
              · refine ⟨_, rfl, ⟨?_, ?_, ?_, ?_⟩, ?_, ?_⟩
                · unfold P.Wf; rw [setNode_length, setNode_n]; exact q2wf
                · rw [setNode_n]; omega
                · rw [setNode_length]; omega
                · intro i hi; rw [setNode_ne _ _ (by omega)]; exact q2same i hi
                · rw [setNode_n, q2n]; rfl
                · refine Has.cons ?_ Has.nil
                  rw [setNode_eq, hnd]
                  simp [NodeD.abs, setValues, zeroVis_vis, nd1, nd2, nd3, memberRefs]
              · split
                · have := ihM q2 p.n (q.nodes.getD p.n NodeD.zero).values (q.nodes.getD p.n NodeD.zero).values.arr 0
                    (pos + 1) r q2wf (by omega) (by omega)
                  revert this
                  generalize tMembers fuel (pos + 1) r = tr
                  generalize parseMembers fuel q2 p.n _ _ 0 (pos + 1) r = pr
                  intro this
                  match tr, this with
                  | .crash, this => exact this
                  | .err e, this =>
                    obtain ⟨p', rfl, h1, h2, h3, h4⟩ := this
                    exact ⟨p', rfl, h1, by omega, by omega, fun i hi => (h4 i (by omega) (by omega)).trans (q2same i hi)⟩
                  | .ok xs pos rest, this =>
                    obtain ⟨p', rfl, h1, h2, h3, h4, ⟨w, hw, hw2⟩, h6⟩ := this
                    refine ⟨p', rfl, ⟨h1, by omega, by omega, fun i hi => (h4 i (by omega) (by omega)).trans (q2same i hi)⟩,
                      ?_, ?_⟩
                    · rw [h3, q2n, JVal.size]; omega
                    · refine Has.cons ?_ ?_
                      · rw [hw2, hnd]
                        simp [NodeD.abs, setValues, nd1, nd2, nd3, hw, q2n]
                      · rw [← q2n]; exact h6
                · exact ⟨_, rfl, q2k⟩
          · split
            · -- array
              obtain ⟨q, e, hn, hle, hc, hsame⟩ := node_eq hwf
              rw [e]
              simp only
              generalize hq2 : q.setNode p.n (setContainer tArray) = q2
              have q2n : q2.n = p.n + 1 := by rw [← hq2, setNode_n, hn]
              have q2l : q2.nodes.length = q.nodes.length := by rw [← hq2, setNode_length]
              have q2wf : q2.Wf := by unfold P.Wf; omega
              have q2same : ∀ i, i < p.n → q2.nodes[i]? = p.nodes[i]? := by
                intro i hi; rw [← hq2, setNode_ne _ _ (by omega)]; exact hsame i hi
              have q2k : Keep p.n p q2 := ⟨q2wf, by omega, by omega, q2same⟩
              have q2at : ∃ nd : NodeD, q2.nodes[p.n]? = some nd ∧ nd.typ = tArray ∧ nd.root = false ∧ nd.raw = [] := by
                rw [← hq2, setNode_eq, List.getElem?_eq_getElem (show p.n < q.nodes.length by omega)]
                exact ⟨_, rfl, rfl, rfl, rfl⟩
              obtain ⟨nd, hnd, nd1, nd2, nd3⟩ := q2at
              generalize skipSpace (pos + 1) r = sk
              obtain ⟨pos, rest⟩ := sk
              match rest with
              | [] => exact ⟨_, rfl, q2k⟩
              | c :: r =>
                simp only
                split
                · refine ⟨_, rfl, ⟨?_, ?_, ?_, ?_⟩, ?_, ?_⟩
                  · unfold P.Wf; rw [setNode_length, setNode_n]; exact q2wf
                  · rw [setNode_n]; omega
                  · rw [setNode_length]; omega
                  · intro i hi; rw [setNode_ne _ _ (by omega)]; exact q2same i hi
                  · rw [setNode_n, q2n]; rfl
                  · refine Has.cons ?_ Has.nil
                    rw [setNode_eq, hnd]
                    simp [NodeD.abs, setValues, zeroVis_vis, nd1, nd2, nd3, elemRefs]
                · have := ihE q2 p.n (q.nodes.getD p.n NodeD.zero).values (q.nodes.getD p.n NodeD.zero).values.arr 0
                    pos (c :: r) q2wf (by omega) (by omega)
                  revert this
                  generalize tElems fuel pos (c :: r) = tr
                  generalize parseElems fuel q2 p.n _ _ 0 pos (c :: r) = pr
                  intro this
                  match tr, this with
                  | .crash, this => exact this
                  | .err e, this =>
                    obtain ⟨p', rfl, h1, h2, h3, h4⟩ := this
                    exact ⟨p', rfl, h1, by omega, by omega, fun i hi => (h4 i (by omega) (by omega)).trans (q2same i hi)⟩
                  | .ok xs pos rest, this =>
                    obtain ⟨p', rfl, h1, h2, h3, h4, ⟨w, hw, hw2⟩, h6⟩ := this
                    refine ⟨p', rfl, ⟨h1, by omega, by omega, fun i hi => (h4 i (by omega) (by omega)).trans (q2same i hi)⟩,
                      ?_, ?_⟩
                    · rw [h3, q2n, JVal.size]; omega
                    · refine Has.cons ?_ ?_
                      · rw [hw2, hnd]
                        simp [NodeD.abs, setValues, nd1, nd2, nd3, hw, q2n]
                      · rw [← q2n]; exact h6
            · split
              · exact refine_scalar hwf _ _ _ _ _ rfl (fun _ => rfl)
              · split
                · exact refine_literal hwf _ _ _ _ _ rfl (fun _ => rfl)
                · split
                  · exact refine_scalar hwf _ _ _ _ _ rfl (fun _ => rfl)
                  · split
                    · exact refine_literal hwf _ _ _ _ _ rfl (fun _ => rfl)
                    · split
                      · exact refine_literal hwf _ _ _ _ _ rfl (fun _ => rfl)
                      · exact ⟨p, rfl, Keep.refl hwf⟩
    · -- elements
      unfold tElems parseElems
      simp only
      have hav := appendV_take (key := []) (id := p.n) hk
      have := ihV p pos rest hwf
      revert this
      generalize tVal fuel pos rest = tr
      generalize parseValue fuel p pos rest = pr
      intro this
      match tr, this with
      | .crash, this => unfold RefVal at this; subst this; rfl
      | .err e, this =>
        obtain ⟨p', rfl, hk'⟩ := this
        exact ⟨p', rfl, hk'.wf, hk'.le, hk'.cap, fun i hi _ => hk'.same i hi⟩
      | .ok x pos rest, this =>
        obtain ⟨p1, rfl, hk1, hn1, hh1⟩ := this
        have hxs := size_pos x
        simp only
        generalize skipSpace pos rest = sk
        obtain ⟨pos, rest⟩ := sk
        match rest with
        | [] => exact ⟨p1, rfl, hk1.wf, hk1.le, hk1.cap, fun i hi _ => hk1.same i hi⟩
        | c :: r =>
          simp only
          split
          · -- comma
            have := ihE p1 id nv (appendV vs [] p.n k) (k + 1) (pos + 1) r hk1.wf (by omega) hav.1
            revert this
            generalize tElems fuel (pos + 1) r = tr
            generalize parseElems fuel p1 id nv (appendV vs [] p.n k) (k + 1) (pos + 1) r = pr
            intro this
            match tr, this with
            | .crash, this => exact this
            | .err e, this =>
              obtain ⟨p', rfl, h1, h2, h3, h4⟩ := this
              have := hk1.cap
              exact ⟨p', rfl, h1, by omega, by omega, fun i hi hne => (h4 i (by omega) hne).trans (hk1.same i hi)⟩
            | .ok xs pos rest, this =>
              obtain ⟨p', rfl, h1, h2, h3, h4, ⟨w, hw, hw2⟩, h6⟩ := this
              have := hk1.cap
              refine ⟨p', rfl, h1, by omega, ?_, fun i hi hne => (h4 i (by omega) hne).trans (hk1.same i hi),
                ⟨w, ?_, ?_⟩, ?_⟩
              · rw [h3, hn1, sizeElems]; omega
              · rw [hw, hav.2, elemRefs, hn1]; simp
              · rw [hw2, hk1.same id hid]
              · rw [flatElems]
                refine Has.append (hh1.keep ?_) ?_
                · intro i hi1 hi2
                  rw [flat_length] at hi2
                  exact h4 i (by omega) (by omega)
                · rw [flat_length, ← hn1]; exact h6
          · split
            · -- end
              refine ⟨_, rfl, ?_, ?_, ?_, ?_, ⟨finishValues nv (appendV vs [] p.n k) (k + 1), ?_, ?_⟩, ?_⟩
              · unfold P.Wf; rw [setNode_length, setNode_n]; exact hk1.wf
              · rw [setNode_length]; exact hk1.cap
              · rw [setNode_n, hn1]; simp [sizeElems]
              · intro i hi hne; rw [setNode_ne _ _ hne]; exact hk1.same i hi
              · rw [finishValues_vis hav.1, hav.2]; simp [elemRefs]
              · rw [setNode_eq, hk1.same id hid]
              · simp only [flatElems, List.append_nil]
                refine hh1.keep ?_
                intro i hi1 hi2
                rw [setNode_ne _ _ (by omega)]
            · exact ⟨p1, rfl, hk1.wf, hk1.le, hk1.cap, fun i hi _ => hk1.same i hi⟩
    · -- members
      unfold tMembers parseMembers
      generalize scanQuote rest 0 = sq
      match sq with
      | none => exact ⟨p, rfl, hwf, Nat.le_refl _, Nat.le_refl _, fun i hi _ => rfl⟩
      | some n =>
        simp only
        have hav := appendV_take (key := rest.take n) (id := p.n) hk
        generalize skipSpace (pos + 1 + n) (rest.drop (n + 1)) = sk
        obtain ⟨pos', rest'⟩ := sk
        match rest' with
        | [] => exact ⟨p, rfl, hwf, Nat.le_refl _, Nat.le_refl _, fun i hi _ => rfl⟩
        | c :: r =>
          simp only
          split
          · have := ihV p (pos' + 1) r hwf
            revert this
            generalize tVal fuel (pos' + 1) r = tr
            generalize parseValue fuel p (pos' + 1) r = pr
            intro this
            match tr, this with
            | .crash, this => unfold RefVal at this; subst this; rfl
            | .err e, this =>
              obtain ⟨p', rfl, hk'⟩ := this
              exact ⟨p', rfl, hk'.wf, hk'.le, hk'.cap, fun i hi _ => hk'.same i hi⟩
            | .ok x pos'' rest'', this =>
              obtain ⟨p1, rfl, hk1, hn1, hh1⟩ := this
              have hxs := size_pos x
              simp only
              generalize skipSpace pos'' rest'' = sk
              obtain ⟨pos3, rest3⟩ := sk
              match rest3 with
              | [] => exact ⟨p1, rfl, hk1.wf, hk1.le, hk1.cap, fun i hi _ => hk1.same i hi⟩
              | c :: r =>
                simp only
                split
                · -- comma
                  generalize skipSpace (pos3 + 1) r = sk
                  obtain ⟨pos4, rest4⟩ := sk
                  match rest4 with
                  | [] => exact ⟨p1, rfl, hk1.wf, hk1.le, hk1.cap, fun i hi _ => hk1.same i hi⟩
                  | c :: r =>
                    simp only
                    split
                    · have := ihM p1 id nv (appendV vs (rest.take n) p.n k) (k + 1) (pos4 + 1) r hk1.wf (by omega) hav.1
                      revert this
                      generalize tMembers fuel (pos4 + 1) r = tr
                      generalize parseMembers fuel p1 id nv (appendV vs (rest.take n) p.n k) (k + 1) (pos4 + 1) r = pr
                      intro this
                      match tr, this with
                      | .crash, this => exact this
                      | .err e, this =>
                        obtain ⟨p', rfl, h1, h2, h3, h4⟩ := this
                        have := hk1.cap
                        exact ⟨p', rfl, h1, by omega, by omega,
                          fun i hi hne => (h4 i (by omega) hne).trans (hk1.same i hi)⟩
                      | .ok xs pos rest, this =>
                        obtain ⟨p', rfl, h1, h2, h3, h4, ⟨w, hw, hw2⟩, h6⟩ := this
                        have := hk1.cap
                        refine ⟨p', rfl, h1, by omega, ?_,
                          fun i hi hne => (h4 i (by omega) hne).trans (hk1.same i hi), ⟨w, ?_, ?_⟩, ?_⟩
                        · rw [h3, hn1, sizeMembers]; omega
                        · rw [hw, hav.2, memberRefs, hn1]; simp
                        · rw [hw2, hk1.same id hid]
                        · rw [flatMembers]
                          refine Has.append (hh1.keep ?_) ?_
                          · intro i hi1 hi2
                            rw [flat_length] at hi2
                            exact h4 i (by omega) (by omega)
                          · rw [flat_length, ← hn1]; exact h6
                    · exact ⟨p1, rfl, hk1.wf, hk1.le, hk1.cap, fun i hi _ => hk1.same i hi⟩
                · split
                  · refine ⟨_, rfl, ?_, ?_, ?_, ?_, ⟨finishValues nv (appendV vs (rest.take n) p.n k) (k + 1), ?_, ?_⟩, ?_⟩
                    · unfold P.Wf; rw [setNode_length, setNode_n]; exact hk1.wf
                    · rw [setNode_length]; exact hk1.cap
                    · rw [setNode_n, hn1]; simp [sizeMembers]
                    · intro i hi hne; rw [setNode_ne _ _ hne]; exact hk1.same i hi
                    · rw [finishValues_vis hav.1, hav.2]; simp [memberRefs]
                    · rw [setNode_eq, hk1.same id hid]
                    · simp only [flatMembers, List.append_nil]
                      refine hh1.keep ?_
                      intro i hi1 hi2
                      rw [setNode_ne _ _ (by omega)]
                  · exact ⟨p1, rfl, hk1.wf, hk1.le, hk1.cap, fun i hi _ => hk1.same i hi⟩
          · exact ⟨p, rfl, hwf, Nat.le_refl _, Nat.le_refl _, fun i hi _ => rfl⟩

end Verif.Njson
