import Verif.Proofs.Serial

/-!
The abstract document machine: documents without spare capacity. Every operation of the model commutes with
the abstraction that forgets spare node and value capacity.
-/

namespace Verif.Njson
open Verif Verif.Spec

/-- A document without capacity. -/
structure AD where
  nodes : List ANode
  rev : UInt64
  deriving DecidableEq

def Doc.abs (d : Doc) : AD := ⟨d.view, d.rev⟩

abbrev AH := Ref → AD
def Heap.abs (h : Heap) : AH := fun r => (h r).abs
def AH.set (a : AH) (r : Ref) (d : AD) : AH := fun r' => if r' = r then d else a r'

theorem Heap.abs_set (h : Heap) (r : Ref) (d : Doc) : (h.set r d).abs = AH.set h.abs r d.abs := by
  funext r'
  unfold Heap.abs Heap.set AH.set
  split <;> rfl

theorem Heap.Wf.set {h : Heap} (hw : h.Wf) (r : Ref) {d : Doc} (hd : d.Wf) : (h.set r d).Wf := by
  intro r'
  unfold Heap.set
  split
  · exact hd
  · exact hw r'

/-! ## slices -/

theorem vis_append (s : Slice) (v : V) : (s.append v).vis = s.vis ++ [v] := by
  unfold Slice.append Slice.vis
  split
  · rename_i h
    simp only
    rw [List.take_set, List.take_add_one, List.getElem?_eq_getElem h]
    simp only [Option.toList_some]
    rw [List.set_append_right _ _ (by simp; omega)]
    simp [Nat.min_eq_left (Nat.le_of_lt h)]
  · rename_i h
    simp only
    rw [List.take_of_length_le]
    simp; omega

theorem vis_length_le (s : Slice) : s.vis.length ≤ s.arr.length := by simp [Slice.vis]; omega

theorem vis_get (s : Slice) {i : Nat} (h : i < s.vis.length) : i < s.len ∧ i < s.arr.length := by
  simp [Slice.vis] at h; omega

theorem take_modify {α : Type} (l : List α) (n i : Nat) (f : α → α) : (l.modify i f).take n = (l.take n).modify i f := by
  apply List.ext_getElem?
  intro j
  rw [List.getElem?_take]
  by_cases hij : j = i
  · subst hij
    rw [modify_eq, modify_eq, List.getElem?_take]
    split <;> rfl
  · rw [modify_ne _ _ hij, modify_ne _ _ hij, List.getElem?_take]

/-- the visible values after `setKey` -/
def setKeyV (vs : List V) (key : Bytes) (id : Nat) : List V :=
  match vs.findIdx? (fun v => v.key = key) with
  | some i => vs.modify i fun v => { v with id := id }
  | none => vs ++ [⟨id, key⟩]

theorem vis_setKey (s : Slice) (key : Bytes) (id : Nat) : (setKey s key id).vis = setKeyV s.vis key id := by
  unfold setKey setKeyV
  cases s.vis.findIdx? (fun v => v.key = key) with
  | none => exact vis_append s _
  | some i => exact take_modify _ _ _ _

theorem vis_remove (s : Slice) {i : Nat} (h : i < s.vis.length) : (s.remove i).vis = s.vis.eraseIdx i := by
  unfold Slice.remove
  show List.take (s.vis.length - 1) _ = _
  rw [List.append_assoc, List.take_append_of_le_length (by rw [List.length_eraseIdx, if_pos h]; omega),
    List.take_of_length_le (by rw [List.length_eraseIdx, if_pos h]; omega)]

/-- the visible values after moving the last one into slot `i` -/
def swapRemoveV (vs : List V) (i : Nat) : List V := (vs.set i (vs.getD (vs.length - 1) V.zero)).take (vs.length - 1)

theorem vis_swapRemove (s : Slice) (i : Nat) : (s.swapRemove i).vis = swapRemoveV s.vis i := by
  unfold Slice.swapRemove swapRemoveV
  show List.take (s.vis.length - 1) ((s.arr.set i (s.arr.getD (s.vis.length - 1) V.zero)).set (s.vis.length - 1) V.zero) = _
  have h1 : s.vis.length ≤ s.arr.length := vis_length_le s
  have h2 : s.vis.length ≤ s.len := by simp [Slice.vis]; omega
  have hd : s.arr.getD (s.vis.length - 1) V.zero = s.vis.getD (s.vis.length - 1) V.zero ∨ s.vis.length = 0 := by
    by_cases h0 : s.vis.length = 0
    · right; exact h0
    · left
      have : s.vis[s.vis.length - 1]? = s.arr[s.vis.length - 1]? := by
        generalize hk : s.vis.length - 1 = k
        unfold Slice.vis
        exact List.getElem?_take_of_lt (by omega)
      simp only [List.getD, this]
  rcases hd with hd | hd
  · rw [List.take_set_of_le (Nat.le_refl _), hd, List.take_set, List.take_set]
    congr 1
    have : s.vis.length - 1 ≤ s.len := by omega
    generalize s.vis.length - 1 = k at this
    unfold Slice.vis
    rw [List.take_take, Nat.min_eq_left this]
  · rw [hd]; simp

theorem vis_slice (s : Slice) {i j : Nat} (h : j ≤ s.vis.length) :
    (⟨s.arr.drop i, j - i⟩ : Slice).vis = (s.vis.take j).drop i := by
  unfold Slice.vis at h ⊢
  simp only at h ⊢
  rw [List.take_take, List.drop_take]
  congr 1
  simp at h; omega

theorem vis_set (s : Slice) (i : Nat) (v : V) : (⟨s.arr.set i v, s.len⟩ : Slice).vis = s.vis.set i v := by
  unfold Slice.vis; rw [List.take_set]

/-! ## documents -/

theorem view_setNode (d : Doc) (i : Nat) (f : NodeD → NodeD) (fa : ANode → ANode) (hf : ∀ n, (f n).abs = fa n.abs) :
    (d.setNode i f).view = d.view.modify i fa := by
  unfold Doc.view Doc.setNode
  simp only
  rw [take_modify]
  apply List.ext_getElem?
  intro j
  rw [List.getElem?_map]
  by_cases hij : j = i
  · subst hij
    rw [modify_eq, modify_eq, List.getElem?_map]
    cases (d.arr.take d.len)[j]? <;> simp [hf]
  · rw [modify_ne _ _ hij, modify_ne _ _ hij, List.getElem?_map]

theorem wf_setNode {d : Doc} (h : d.Wf) (i : Nat) (f : NodeD → NodeD) : (d.setNode i f).Wf := by
  unfold Doc.Wf at *; simp [Doc.setNode, h]

theorem wf_grow {d : Doc} (h : d.Wf) : d.grow.Wf := by
  unfold Doc.Wf Doc.grow at *
  split
  · simp only; omega
  · simp; omega

theorem grow_len (d : Doc) : d.grow.len = d.len + 1 := by unfold Doc.grow; split <;> rfl
theorem grow_rev (d : Doc) : d.grow.rev = d.rev := by unfold Doc.grow; split <;> rfl

/-- overwriting the grown slot -/
theorem view_grow_set {d : Doc} (h : d.Wf) (f : NodeD → NodeD) (a : ANode) (hf : ∀ n, (f n).abs = a) :
    (d.grow.setNode d.len f).view = d.view ++ [a] := by
  rw [view_setNode _ _ f (fun _ => a) hf]
  unfold Doc.Wf at h
  unfold Doc.grow
  split
  · rename_i hl
    unfold Doc.view
    simp only
    rw [List.take_add_one, List.getElem?_eq_getElem hl]
    simp only [Option.toList_some, List.map_append, List.map_cons, List.map_nil]
    apply List.ext_getElem?
    intro j
    by_cases hj : j = d.len
    · subst hj
      rw [modify_eq, List.getElem?_append_right (by simp; omega), List.getElem?_append_right (by simp; omega)]
      simp [Nat.min_eq_left h]
    · rw [modify_ne _ _ hj]
      by_cases hj2 : j < d.len
      · rw [List.getElem?_append_left (by simp; omega), List.getElem?_append_left (by simp; omega)]
      · rw [List.getElem?_eq_none (by simp; omega), List.getElem?_eq_none (by simp; omega)]
  · rename_i hl
    unfold Doc.view
    simp only
    rw [List.take_of_length_le (l := _ ++ _) (by simp; omega)]
    apply List.ext_getElem?
    intro j
    by_cases hj : j = d.len
    · subst hj
      rw [modify_eq, List.map_append, List.getElem?_append_right (by simp; omega), List.getElem?_append_right (by simp; omega)]
      simp [Nat.min_eq_left h]
    · rw [modify_ne _ _ hj, List.map_append]
      by_cases hj2 : j < d.len
      · rw [List.getElem?_append_left (by simp; omega), List.getElem?_append_left (by simp; omega)]
      · rw [List.getElem?_eq_none (by simp; omega), List.getElem?_eq_none (by simp; omega)]

theorem abs_reset (n : NodeD) (typ : Typ) (root : Bool) (raw : Bytes) : (n.reset typ root raw).abs = ⟨typ, root, raw, []⟩ := by
  simp [NodeD.reset, NodeD.abs, zeroVis_vis]

/-! ## the abstract operations -/

def A.add (d : AD) (typ : Typ) (raw : Bytes) : AD × Nat := ({ d with nodes := d.nodes ++ [⟨typ, true, raw, []⟩] }, d.nodes.length)

theorem abs_add {d : Doc} (h : d.Wf) (typ : Typ) (raw : Bytes) :
    (d.add typ raw).1.Wf ∧ ((d.add typ raw).1.abs, (d.add typ raw).2) = A.add d.abs typ raw := by
  refine ⟨wf_setNode (wf_grow h) _ _, ?_⟩
  unfold Doc.add A.add Doc.abs
  simp only
  rw [view_grow_set h _ ⟨typ, true, raw, []⟩ (fun n => abs_reset n typ true raw), view_length h]
  simp [Doc.setNode, grow_rev]

def A.reset (d : AD) : AD := ⟨[], d.rev + 1⟩

theorem abs_docReset (d : Doc) : d.reset.Wf ∧ d.reset.abs = A.reset d.abs := by
  refine ⟨Nat.zero_le _, ?_⟩
  simp [Doc.reset, A.reset, Doc.abs, Doc.view]

def A.parse (d : AD) (s : Bytes) : AD × ParseOut :=
  match treeParse s with
  | .ok t _ r => ({ d with nodes := d.nodes ++ rootHead (flat d.nodes.length t) }, .ok d.nodes.length r)
  | .err (.eof typ) => (d, .eof typ s)
  | .err (.abort pos typ got want) => (d, .err pos typ got want [])
  | .crash => (d, .crash)

theorem abs_parse {d : Doc} (h : d.Wf) (s : Bytes) :
    (d.parse s).1.Wf ∧ ((d.parse s).1.abs, (d.parse s).2) = A.parse d.abs s := by
  unfold A.parse
  rcases parse_cases h s with ⟨t, pos, r, d1, e1, e2, e3, e4, e5⟩ | ⟨_, d1, e1, e2, e3, e4, e5, e6⟩ | ⟨_, _, _, _, d1, e1, e2, e3, e4, e5, e6⟩
  · rw [e1, e2]
    refine ⟨e3, ?_⟩
    simp [Doc.abs, e5, e4, view_length h]
  · rw [e1, e2]
    exact ⟨e3, by simp [Doc.abs, e6, e4]⟩
  · rw [e1, e2]
    exact ⟨e3, by simp [Doc.abs, e6, e4]⟩

def A.ncopyVals (get : List ANode → Nat → Option ANode) (rec : List ANode → ANode → Option (List ANode × Nat)) :
    List V → List ANode → List V → Option (List ANode × List V)
  | [], d, values => some (d, values)
  | v :: vs, d, values =>
    match get d v.id with
    | none => A.ncopyVals get rec vs d values
    | some n =>
      match rec d n with
      | none => none
      | some (d, id) => A.ncopyVals get rec vs d (values ++ [⟨id, v.key⟩])

def A.ncopy (get : List ANode → Nat → Option ANode) : Nat → List ANode → ANode → Option (List ANode × Nat)
  | 0, _, _ => none
  | fuel + 1, d, n =>
    match A.ncopyVals get (A.ncopy get fuel) n.vals (d ++ [⟨n.typ, n.root, n.raw, []⟩]) [] with
    | none => none
    | some (d', values) => some (d'.modify d.length fun n => { n with vals := values }, d.length)

theorem abs_ncopy (get : Doc → Nat → Option NodeD) (aget : List ANode → Nat → Option ANode)
    (hget : ∀ d id, d.Wf → aget d.view id = (get d id).map NodeD.abs) (fuel : Nat) :
    ∀ d n, Doc.Wf d → (ncopy get fuel d n).map (fun p => (p.1.view, p.2)) = A.ncopy aget fuel d.view n.abs ∧
      ∀ d' id, ncopy get fuel d n = some (d', id) → d'.Wf ∧ d'.rev = d.rev := by
  induction fuel with
  | zero => intro d n _; exact ⟨rfl, by simp [ncopy]⟩
  | succ fuel ih =>
    have hvals : ∀ vs d values numV, Doc.Wf d → numV ≤ values.length →
        (ncopyVals get (ncopy get fuel) vs d values numV).map (fun p => (p.1.view, p.2.1.take p.2.2)) =
          A.ncopyVals aget (A.ncopy aget fuel) vs d.view (values.take numV) ∧
        ∀ d' values' numV', ncopyVals get (ncopy get fuel) vs d values numV = some (d', values', numV') →
          d'.Wf ∧ d'.rev = d.rev := by
      intro vs
      induction vs with
      | nil =>
        intro d values numV hd hn
        refine ⟨rfl, ?_⟩
        intro d' v' n' h
        simp [ncopyVals] at h
        obtain ⟨rfl, _⟩ := h
        exact ⟨hd, rfl⟩
      | cons v vs ihv =>
        intro d values numV hd hn
        unfold ncopyVals A.ncopyVals
        rw [hget d v.id hd]
        cases hg : get d v.id with
        | none => simp only [Option.map_none]; exact ihv d values numV hd hn
        | some n =>
          simp only [Option.map_some]
          obtain ⟨h1, h2⟩ := ih d n hd
          rw [← h1]
          cases hc : ncopy get fuel d n with
          | none => simp
          | some p =>
            obtain ⟨d1, id1⟩ := p
            obtain ⟨hw1, hr1⟩ := h2 d1 id1 hc
            simp only [Option.map_some]
            obtain ⟨ha, hb⟩ := appendV_take (key := v.key) (id := id1) hn
            obtain ⟨h3, h4⟩ := ihv d1 (appendV values v.key id1 numV) (numV + 1) hw1 ha
            rw [hb] at h3
            exact ⟨h3, fun d' v' n' h => by rw [← hr1]; exact h4 d' v' n' h⟩
    intro d n hd
    unfold ncopy A.ncopy
    simp only
    have hd1 : (d.grow.setNode d.len fun _ => ⟨n.typ, n.root, n.raw, Slice.nil⟩).Wf := wf_setNode (wf_grow hd) _ _
    have hv1 : (d.grow.setNode d.len fun _ => ⟨n.typ, n.root, n.raw, Slice.nil⟩).view = d.view ++ [⟨n.typ, n.root, n.raw, []⟩] :=
      view_grow_set hd _ _ (fun _ => rfl)
    have hr1 : (d.grow.setNode d.len fun _ => ⟨n.typ, n.root, n.raw, Slice.nil⟩).rev = d.rev := by simp [Doc.setNode, grow_rev]
    generalize (d.grow.setNode d.len fun _ => ⟨n.typ, n.root, n.raw, Slice.nil⟩) = d1 at hd1 hv1 hr1
    generalize ((d.grow.arr.getD d.len NodeD.zero).values).arr = values
    obtain ⟨h1, h2⟩ := hvals n.values.vis d1 values 0 hd1 (Nat.zero_le _)
    rw [hv1, List.take_zero] at h1
    rw [show n.abs.vals = n.values.vis from rfl, show n.abs.typ = n.typ from rfl, show n.abs.root = n.root from rfl,
      show n.abs.raw = n.raw from rfl, ← h1]
    cases hc : ncopyVals get (ncopy get fuel) n.values.vis d1 values 0 with
    | none => simp
    | some p =>
      obtain ⟨d2, v2, n2⟩ := p
      obtain ⟨hw2, hr2⟩ := h2 d2 v2 n2 hc
      simp only [Option.map_some]
      refine ⟨?_, ?_⟩
      · rw [view_setNode d2 d.len _ (fun a => { a with vals := v2.take n2 }) (fun _ => rfl), view_length hd]
      · intro d' id h
        simp at h
        obtain ⟨rfl, rfl⟩ := h
        exact ⟨wf_setNode hw2 _ _, by rw [← hr1, ← hr2]; rfl⟩

/-! ## nodes -/

def A.document (a : AH) (n : Node) : Option Ref :=
  match n.doc with
  | some r => if (a r).rev = n.rev then some r else none
  | none => none

theorem abs_document (h : Heap) (n : Node) : n.document h = A.document h.abs n := rfl

def A.getOf (a : AH) : Option Ref → Nat → Option ANode
  | some r, id => (a r).nodes[id]?
  | none, _ => none

theorem abs_getOf (h : Heap) (o : Option Ref) (id : Nat) : (getOf h o id).map NodeD.abs = A.getOf h.abs o id := by
  cases o with
  | none => rfl
  | some r => exact (view_get (h r) id).symm

def A.get (a : AH) (n : Node) : Option ANode := A.getOf a (A.document a n) n.id

theorem abs_get (h : Heap) (n : Node) : (n.get h).map NodeD.abs = A.get h.abs n := by
  unfold A.get
  rw [← abs_getOf, ← abs_document]
  unfold Node.get getOf
  cases n.document h <;> rfl

theorem get_doc {h : Heap} {n : Node} {nn : NodeD} (hg : n.get h = some nn) : ∃ r, n.doc = some r ∧ (h r).rev = n.rev ∧
    (h r).get n.id = some nn := by
  unfold Node.get Node.document at hg
  cases hd : n.doc with
  | none => rw [hd] at hg; simp at hg
  | some r =>
    rw [hd] at hg
    simp only at hg
    split at hg
    · rename_i r' he
      split at he
      · rename_i hr
        simp at he; subst he
        exact ⟨r, rfl, hr, hg⟩
      · simp at he
    · simp at hg

/-! ## mutation -/

def A.modify (a : AH) (r : Ref) (id : Nat) (f : ANode → ANode) : AH := a.set r { a r with nodes := (a r).nodes.modify id f }

theorem abs_modify {h : Heap} (hw : h.Wf) (r : Ref) (id : Nat) (f : NodeD → NodeD) (fa : ANode → ANode)
    (hf : ∀ n, (f n).abs = fa n.abs) :
    (h.set r ((h r).setNode id f)).Wf ∧ (h.set r ((h r).setNode id f)).abs = A.modify h.abs r id fa := by
  refine ⟨hw.set r (wf_setNode (hw r) _ _), ?_⟩
  rw [Heap.abs_set]
  unfold A.modify Doc.abs
  rw [view_setNode _ _ _ fa hf]
  rfl

def A.update (a : AH) (n : Node) (f : ANode → ANode) : AH :=
  match A.get a n, n.doc with
  | some _, some r => A.modify a r n.id f
  | _, _ => a

theorem abs_update {h : Heap} (hw : h.Wf) (n : Node) (f : NodeD → NodeD) (fa : ANode → ANode) (hf : ∀ n, (f n).abs = fa n.abs) :
    (n.update h f).Wf ∧ (n.update h f).abs = A.update h.abs n fa := by
  unfold Node.update A.update
  rw [← abs_get]
  cases n.get h with
  | none => exact ⟨hw, rfl⟩
  | some nn =>
    cases hd : n.doc with
    | none => exact ⟨hw, rfl⟩
    | some r => exact abs_modify hw r n.id f fa hf

def A.copyOrAdopt (a : AH) (fuel : Nat) (r : Ref) (other : Option Ref) (id to : Nat) : Option (AH × Nat) :=
  match A.getOf a other id with
  | none => some (a, maxUint)
  | some n =>
    if other = some r ∧ id ≠ to ∧ n.root = true ∧ id ≠ 0 then
      some (A.modify a r id fun n => { n with root := false }, id)
    else
      match A.ncopy (fun d id => if other = some r then d[id]? else A.getOf a other id) fuel (a r).nodes n with
      | none => none
      | some (d, id) => some (a.set r { a r with nodes := d }, id)

theorem abs_copyOrAdopt {h : Heap} (hw : h.Wf) (fuel : Nat) (r : Ref) (other : Option Ref) (id to : Nat) :
    (copyOrAdopt h fuel r other id to).map (fun p => (p.1.abs, p.2)) = A.copyOrAdopt h.abs fuel r other id to ∧
    ∀ h' id', copyOrAdopt h fuel r other id to = some (h', id') → h'.Wf := by
  unfold copyOrAdopt A.copyOrAdopt
  rw [← abs_getOf]
  cases hg : getOf h other id with
  | none =>
    refine ⟨rfl, ?_⟩
    intro h' id' he
    simp at he
    rw [← he.1]; exact hw
  | some n =>
    simp only [Option.map_some, show n.abs.root = n.root from rfl]
    by_cases hc : other = some r ∧ id ≠ to ∧ n.root = true ∧ id ≠ 0
    · rw [if_pos hc, if_pos hc]
      obtain ⟨h1, h2⟩ := abs_modify hw r id (fun n => { n with root := false }) (fun n => { n with root := false }) (fun _ => rfl)
      refine ⟨by simp [h2], ?_⟩
      intro h' id' he
      simp at he
      rw [← he.1]; exact h1
    · rw [if_neg hc, if_neg hc]
      have := abs_ncopy (fun d id => if other = some r then d.get id else getOf h other id)
        (fun d id => if other = some r then d[id]? else A.getOf h.abs other id) (by
          intro d id hd
          split
          · exact view_get d id
          · exact (abs_getOf h other id).symm) fuel (h r) n (hw r)
      obtain ⟨h1, h2⟩ := this
      rw [show (h.abs r).nodes = (h r).view from rfl, ← h1]
      cases hn : ncopy (fun d id => if other = some r then d.get id else getOf h other id) fuel (h r) n with
      | none => simp
      | some p =>
        obtain ⟨d', id'⟩ := p
        obtain ⟨hw', hr'⟩ := h2 d' id' hn
        simp only [Option.map_some]
        refine ⟨?_, ?_⟩
        · rw [Heap.abs_set]
          simp [Doc.abs, hr', Heap.abs]
        · intro h' id'' he
          simp at he
          rw [← he.1]; exact hw.set r hw'

/-- relates a concrete partial step to an abstract one -/
def Commutes (c : Option Heap) (a : Option AH) : Prop := c.map Heap.abs = a ∧ ∀ h', c = some h' → h'.Wf

theorem Commutes.some {h : Heap} {a : AH} (hw : h.Wf) (ha : h.abs = a) : Commutes (some h) (some a) :=
  ⟨by simp [ha], fun h' he => by simp at he; rw [← he]; exact hw⟩

def A.setF (key : Bytes) (id : Nat) (n : ANode) : ANode := { n with vals := setKeyV n.vals key id }

def A.nset (a : AH) (fuel : Nat) (n : Node) (key : Bytes) (value : Node) : Option AH :=
  match A.get a n, n.doc with
  | some nn, some r =>
    if nn.typ = tObject then
      match A.copyOrAdopt a fuel r (A.document a value) value.id n.id with
      | none => none
      | some (a, id) => if id < maxUint then some (A.modify a r n.id (A.setF key id)) else some a
    else some a
  | _, _ => some a

theorem abs_nset {h : Heap} (hw : h.Wf) (fuel : Nat) (n : Node) (key : Bytes) (value : Node) :
    Commutes (n.set h fuel key value) (A.nset h.abs fuel n key value) := by
  unfold Node.set A.nset
  rw [← abs_get]
  cases n.get h with
  | none => exact .some hw rfl
  | some nn =>
    cases hd : n.doc with
    | none => exact .some hw rfl
    | some r =>
      simp only [Option.map_some, show nn.abs.typ = nn.typ from rfl]
      split
      · obtain ⟨h1, h2⟩ := abs_copyOrAdopt hw fuel r (value.document h) value.id n.id
        rw [← abs_document, ← h1]
        cases hc : copyOrAdopt h fuel r (value.document h) value.id n.id with
        | none => exact ⟨rfl, by simp⟩
        | some p =>
          obtain ⟨h', id⟩ := p
          have hw' := h2 h' id hc
          simp only [Option.map_some]
          split
          · obtain ⟨h3, h4⟩ := abs_modify hw' r n.id (fun nn => { nn with values := setKey nn.values key id }) (A.setF key id)
              (fun n => by simp [NodeD.abs, A.setF, vis_setKey])
            exact .some h3 h4
          · exact .some hw' rfl
      · exact .some hw rfl

def A.appendLoop (fuel : Nat) (r : Ref) (to : Nat) : List Node → AH → List V → Option (AH × List V)
  | [], a, vv => some (a, vv)
  | v :: vs, a, vv =>
    match A.copyOrAdopt a fuel r (A.document a v) v.id to with
    | none => none
    | some (a, id) => A.appendLoop fuel r to vs a (vv ++ [⟨id, []⟩])

theorem abs_appendLoop (fuel : Nat) (r : Ref) (to : Nat) : ∀ (vs : List Node) (h : Heap) (vv : Slice), h.Wf →
    (appendLoop fuel r to vs h vv).map (fun p => (p.1.abs, p.2.vis)) = A.appendLoop fuel r to vs h.abs vv.vis ∧
    ∀ h' vv', appendLoop fuel r to vs h vv = some (h', vv') → h'.Wf
  | [], h, vv, hw => ⟨rfl, by intro h' vv' he; simp [appendLoop] at he; rw [← he.1]; exact hw⟩
  | v :: vs, h, vv, hw => by
    unfold appendLoop A.appendLoop
    obtain ⟨h1, h2⟩ := abs_copyOrAdopt hw fuel r (v.document h) v.id to
    rw [← abs_document, ← h1]
    cases hc : copyOrAdopt h fuel r (v.document h) v.id to with
    | none => simp
    | some p =>
      obtain ⟨h', id⟩ := p
      simp only [Option.map_some]
      rw [← vis_append]
      exact abs_appendLoop fuel r to vs h' _ (h2 h' id hc)

def A.append (a : AH) (fuel : Nat) (n : Node) (values : List Node) : Option AH :=
  if values.length = 0 then some a
  else
    match A.get a n, n.doc with
    | some nn, some r =>
      if nn.typ = tArray then
        match A.appendLoop fuel r n.id values a nn.vals with
        | none => none
        | some (a, vv) => some (A.modify a r n.id fun n => { n with vals := vv })
      else some a
    | _, _ => some a

theorem abs_append {h : Heap} (hw : h.Wf) (fuel : Nat) (n : Node) (values : List Node) :
    Commutes (n.append h fuel values) (A.append h.abs fuel n values) := by
  unfold Node.append A.append
  split
  · exact .some hw rfl
  · rw [← abs_get]
    cases n.get h with
    | none => exact .some hw rfl
    | some nn =>
      cases hd : n.doc with
      | none => exact .some hw rfl
      | some r =>
        simp only [Option.map_some, show nn.abs.typ = nn.typ from rfl, show nn.abs.vals = nn.values.vis from rfl]
        split
        · obtain ⟨h1, h2⟩ := abs_appendLoop fuel r n.id values h nn.values hw
          rw [← h1]
          cases hc : appendLoop fuel r n.id values h nn.values with
          | none => exact ⟨rfl, by simp⟩
          | some p =>
            obtain ⟨h', vv⟩ := p
            obtain ⟨h3, h4⟩ := abs_modify (h2 h' vv hc) r n.id (setValues vv) (fun n => { n with vals := vv.vis }) (fun n => rfl)
            exact .some h3 h4
        · exact .some hw rfl

def A.replaceF (i : Nat) (id : Nat) (n : ANode) : ANode := { n with vals := n.vals.set i ⟨id, []⟩ }

def A.replace (a : AH) (fuel : Nat) (n : Node) (i : Int) (value : Node) : Option AH :=
  match A.get a n, n.doc with
  | some nn, some r =>
    if nn.typ = tArray ∧ 0 ≤ i ∧ i < nn.vals.length then
      match A.copyOrAdopt a fuel r (A.document a value) value.id n.id with
      | none => none
      | some (a, id) => if id < maxUint then some (A.modify a r n.id (A.replaceF i.toNat id)) else some a
    else some a
  | _, _ => some a

theorem abs_replace {h : Heap} (hw : h.Wf) (fuel : Nat) (n : Node) (i : Int) (value : Node) :
    Commutes (n.replace h fuel i value) (A.replace h.abs fuel n i value) := by
  unfold Node.replace A.replace
  rw [← abs_get]
  cases n.get h with
  | none => exact .some hw rfl
  | some nn =>
    cases hd : n.doc with
    | none => exact .some hw rfl
    | some r =>
      simp only [Option.map_some, show nn.abs.typ = nn.typ from rfl, show nn.abs.vals = nn.values.vis from rfl]
      split
      · obtain ⟨h1, h2⟩ := abs_copyOrAdopt hw fuel r (value.document h) value.id n.id
        rw [← abs_document, ← h1]
        cases hc : copyOrAdopt h fuel r (value.document h) value.id n.id with
        | none => exact ⟨rfl, by simp⟩
        | some p =>
          obtain ⟨h', id⟩ := p
          have hw' := h2 h' id hc
          simp only [Option.map_some]
          split
          · obtain ⟨h3, h4⟩ := abs_modify hw' r n.id
              (fun nn => { nn with values := { nn.values with arr := nn.values.arr.set i.toNat ⟨id, []⟩ } }) (A.replaceF i.toNat id)
              (fun n => by simp [NodeD.abs, A.replaceF, vis_set])
            exact .some h3 h4
          · exact .some hw' rfl
      · exact .some hw rfl

def A.sliceF (i j : Int) (n : ANode) : ANode :=
  if n.typ = tArray ∧ 0 ≤ i ∧ i < j ∧ j < n.vals.length then { n with vals := (n.vals.take j.toNat).drop i.toNat } else n

theorem abs_slice {h : Heap} (hw : h.Wf) (n : Node) (i j : Int) :
    (n.slice h i j).Wf ∧ (n.slice h i j).abs = A.update h.abs n (A.sliceF i j) := by
  unfold Node.slice
  refine abs_update hw n _ _ fun n => ?_
  unfold A.sliceF
  simp only [show n.abs.typ = n.typ from rfl, show n.abs.vals = n.values.vis from rfl]
  split
  · rename_i hc
    simp only [NodeD.abs]
    rw [show (j - i).toNat = j.toNat - i.toNat by omega, vis_slice _ (by omega)]
  · rfl

def A.removeF (i : Int) (n : ANode) : ANode :=
  if n.typ = tArray ∧ 0 ≤ i ∧ i < n.vals.length then { n with vals := n.vals.eraseIdx i.toNat } else n

theorem abs_remove {h : Heap} (hw : h.Wf) (n : Node) (i : Int) :
    (n.remove h i).Wf ∧ (n.remove h i).abs = A.update h.abs n (A.removeF i) := by
  unfold Node.remove
  refine abs_update hw n _ _ fun n => ?_
  unfold A.removeF
  simp only [show n.abs.typ = n.typ from rfl, show n.abs.vals = n.values.vis from rfl]
  split
  · rename_i hc
    simp only [NodeD.abs]
    rw [vis_remove _ (by omega)]
  · rfl

def A.delF (key : Bytes) (n : ANode) : ANode :=
  if n.typ = tObject then
    match n.vals.findIdx? (fun v => v.key = key) with
    | some i => { n with vals := swapRemoveV n.vals i }
    | none => n
  else n

theorem abs_del {h : Heap} (hw : h.Wf) (n : Node) (key : Bytes) :
    (n.del h key).Wf ∧ (n.del h key).abs = A.update h.abs n (A.delF key) := by
  unfold Node.del
  refine abs_update hw n _ _ fun n => ?_
  unfold A.delF
  simp only [show n.abs.typ = n.typ from rfl, show n.abs.vals = n.values.vis from rfl]
  split
  · cases n.values.vis.findIdx? (fun v => v.key = key) with
    | none => rfl
    | some i => simp only [NodeD.abs, vis_swapRemove]
  · rfl

def A.scalarF (typ : Typ) (raw : Bytes) (n : ANode) : ANode := ⟨typ, n.root, raw, []⟩

theorem abs_setScalar {h : Heap} (hw : h.Wf) (n : Node) (typ : Typ) (raw : Bytes) :
    (n.setScalar h typ raw).Wf ∧ (n.setScalar h typ raw).abs = A.update h.abs n (A.scalarF typ raw) := by
  unfold Node.setScalar
  exact abs_update hw n _ _ fun n => abs_reset n typ n.root raw

/-! ### Strip -/

def A.stripFrom (rec : List ANode → Nat → Option (List ANode)) (id : Nat) : Nat → Nat → List ANode → Option (List ANode)
  | 0, _, d => some d
  | k + 1, j, d =>
    match d[id]? with
    | none => none
    | some nn =>
      match nn.vals[j]? with
      | none => some d
      | some v =>
        match rec d v.id with
        | none => none
        | some d => A.stripFrom rec id k (j + 1) d

def A.stripLoop (rec : List ANode → Nat → Option (List ANode)) (id : Nat) (key : Bytes) : Nat → Nat → List ANode → Option (List ANode)
  | 0, _, d => some d
  | k + 1, i, d =>
    match d[id]? with
    | none => none
    | some nn =>
      match nn.vals[i]? with
      | none => none
      | some v =>
        if v.key = key then
          A.stripFrom rec id nn.vals.length i (d.modify id fun n => { n with vals := swapRemoveV nn.vals i })
        else
          match rec d v.id with
          | none => none
          | some d => A.stripLoop rec id key k (i + 1) d

def A.strip (key : Bytes) : Nat → List ANode → Nat → Option (List ANode)
  | 0, _, _ => none
  | fuel + 1, d, id =>
    match d[id]? with
    | none => some d
    | some nn => if nn.typ = tObject then A.stripLoop (A.strip key fuel) id key nn.vals.length 0 d else some d

/-- a document transformer that commutes with the view and keeps well-formedness and revision -/
def CommD (f : Doc → Option Doc) (g : List ANode → Option (List ANode)) : Prop :=
  ∀ d, d.Wf → (f d).map Doc.view = g d.view ∧ ∀ d', f d = some d' → d'.Wf ∧ d'.rev = d.rev

theorem commD_stripFrom {rec : Doc → Nat → Option Doc} {arec : List ANode → Nat → Option (List ANode)}
    (hr : ∀ id, CommD (rec · id) (arec · id)) (id : Nat) : ∀ k j, CommD (stripFrom rec id k j) (A.stripFrom arec id k j)
  | 0, j, d, hd => ⟨rfl, fun d' h => by simp [stripFrom] at h; rw [← h]; exact ⟨hd, rfl⟩⟩
  | k + 1, j, d, hd => by
    unfold stripFrom A.stripFrom
    rw [view_get]
    cases d.get id with
    | none => exact ⟨rfl, by simp⟩
    | some nn =>
      simp only [Option.map_some, show nn.abs.vals = nn.values.vis from rfl]
      cases nn.values.vis[j]? with
      | none => exact ⟨rfl, fun d' h => by simp at h; rw [← h]; exact ⟨hd, rfl⟩⟩
      | some v =>
        simp only
        have hx : (rec d v.id).map Doc.view = arec d.view v.id ∧ ∀ d', rec d v.id = some d' → d'.Wf ∧ d'.rev = d.rev := hr v.id d hd
        obtain ⟨h1, h2⟩ := hx
        rw [← h1]
        cases hc : rec d v.id with
        | none => exact ⟨rfl, by simp⟩
        | some d1 =>
          obtain ⟨hw1, hr1⟩ := h2 d1 hc
          simp only [Option.map_some]
          obtain ⟨h3, h4⟩ := commD_stripFrom hr id k (j + 1) d1 hw1
          exact ⟨h3, fun d' h => by rw [← hr1]; exact h4 d' h⟩

theorem commD_stripLoop {rec : Doc → Nat → Option Doc} {arec : List ANode → Nat → Option (List ANode)}
    (hr : ∀ id, CommD (rec · id) (arec · id)) (id : Nat) (key : Bytes) :
    ∀ k i, CommD (stripLoop rec id key k i) (A.stripLoop arec id key k i)
  | 0, j, d, hd => ⟨rfl, fun d' h => by simp [stripLoop] at h; rw [← h]; exact ⟨hd, rfl⟩⟩
  | k + 1, i, d, hd => by
    unfold stripLoop A.stripLoop
    rw [view_get]
    cases d.get id with
    | none => exact ⟨rfl, by simp⟩
    | some nn =>
      simp only [Option.map_some, show nn.abs.vals = nn.values.vis from rfl]
      cases nn.values.vis[i]? with
      | none => exact ⟨rfl, by simp⟩
      | some v =>
        simp only
        split
        · have := commD_stripFrom hr id nn.values.vis.length i (d.setNode id (setValues (nn.values.swapRemove i))) (wf_setNode hd _ _)
          rw [view_setNode _ _ _ (fun n => { n with vals := swapRemoveV nn.values.vis i })
            (fun n => by simp [NodeD.abs, setValues, vis_swapRemove])] at this
          exact this
        · have hx : (rec d v.id).map Doc.view = arec d.view v.id ∧ ∀ d', rec d v.id = some d' → d'.Wf ∧ d'.rev = d.rev := hr v.id d hd
          obtain ⟨h1, h2⟩ := hx
          rw [← h1]
          cases hc : rec d v.id with
          | none => exact ⟨rfl, by simp⟩
          | some d1 =>
            obtain ⟨hw1, hr1⟩ := h2 d1 hc
            simp only [Option.map_some]
            obtain ⟨h3, h4⟩ := commD_stripLoop hr id key k (i + 1) d1 hw1
            exact ⟨h3, fun d' h => by rw [← hr1]; exact h4 d' h⟩

theorem commD_strip (key : Bytes) : ∀ fuel id, CommD (Doc.strip key fuel · id) (A.strip key fuel · id)
  | 0, id, d, hd => ⟨rfl, by simp [Doc.strip]⟩
  | fuel + 1, id, d, hd => by
    simp only
    unfold Doc.strip A.strip
    rw [view_get]
    cases d.get id with
    | none => exact ⟨rfl, fun d' h => by simp at h; rw [← h]; exact ⟨hd, rfl⟩⟩
    | some nn =>
      simp only [Option.map_some, show nn.abs.vals = nn.values.vis from rfl, show nn.abs.typ = nn.typ from rfl]
      split
      · exact commD_stripLoop (commD_strip key fuel) id key _ _ d hd
      · exact ⟨rfl, fun d' h => by simp at h; rw [← h]; exact ⟨hd, rfl⟩⟩

def A.nstrip (a : AH) (fuel : Nat) (n : Node) (key : Bytes) : Option AH :=
  match A.document a n with
  | some r =>
    match A.strip key fuel (a r).nodes n.id with
    | some d => some (a.set r { a r with nodes := d })
    | none => none
  | none => some a

theorem abs_nstrip {h : Heap} (hw : h.Wf) (fuel : Nat) (n : Node) (key : Bytes) :
    Commutes (n.strip h fuel key) (A.nstrip h.abs fuel n key) := by
  unfold Node.strip A.nstrip
  rw [← abs_document]
  cases n.document h with
  | none => exact .some hw rfl
  | some r =>
    simp only
    obtain ⟨h1, h2⟩ := commD_strip key fuel n.id (h r) (hw r)
    simp only at h1 h2
    rw [show (h.abs r).nodes = (h r).view from rfl, ← h1]
    cases hc : (h r).strip key fuel n.id with
    | none => exact ⟨rfl, by simp⟩
    | some d =>
      obtain ⟨hw', hr'⟩ := h2 d hc
      refine .some (hw.set r hw') ?_
      rw [Heap.abs_set]
      simp [Doc.abs, hr', Heap.abs]

end Verif.Njson
