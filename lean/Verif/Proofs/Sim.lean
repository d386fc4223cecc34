import Verif.Proofs.Abs
import Verif.Spec.Ops

/-! Every call is a function of the visible part of the documents, up to renaming revisions. -/

namespace Verif.Njson
open Verif Verif.Spec

def AH.shift (δ : Ref → UInt64) (a : AH) : AH := fun r => { a r with rev := (a r).rev + δ r }

variable (δ : Ref → UInt64)

theorem shift_nodes (a : AH) (r : Ref) : (a.shift δ r).nodes = (a r).nodes := rfl

theorem shift_doc (n : Node) : (n.shift δ).doc = n.doc := by
  unfold Node.shift; split <;> rfl
theorem shift_id (n : Node) : (n.shift δ).id = n.id := by
  unfold Node.shift; split <;> rfl

theorem u64_add_cancel (a b c : UInt64) : a + c = b + c ↔ a = b := by
  constructor
  · intro h
    have := congrArg (· - c) h
    simpa [UInt64.add_sub_cancel] using this
  · rintro rfl; rfl

theorem shift_document (a : AH) (n : Node) : A.document (a.shift δ) (n.shift δ) = A.document a n := by
  unfold A.document
  rw [shift_doc]
  cases hd : n.doc with
  | none => rfl
  | some r =>
    have : (n.shift δ).rev = n.rev + δ r := by unfold Node.shift; rw [hd]
    rw [this]
    simp only [AH.shift, u64_add_cancel]

theorem shift_getOf (a : AH) (o : Option Ref) (id : Nat) : A.getOf (a.shift δ) o id = A.getOf a o id := by
  cases o <;> rfl

theorem shift_get (a : AH) (n : Node) : A.get (a.shift δ) (n.shift δ) = A.get a n := by
  unfold A.get; rw [shift_document, shift_getOf, shift_id]

theorem shift_set (a : AH) (r : Ref) (d : List ANode) :
    AH.set (a.shift δ) r { a.shift δ r with nodes := d } = AH.shift δ (AH.set a r { a r with nodes := d }) := by
  funext r'
  unfold AH.set AH.shift
  simp only
  split
  · rename_i h; subst h; rfl
  · rfl

theorem shift_modify (a : AH) (r : Ref) (id : Nat) (f : ANode → ANode) :
    A.modify (a.shift δ) r id f = (A.modify a r id f).shift δ := by
  unfold A.modify; rw [← shift_set]; rfl

theorem shift_update (a : AH) (n : Node) (f : ANode → ANode) :
    A.update (a.shift δ) (n.shift δ) f = (A.update a n f).shift δ := by
  unfold A.update
  rw [shift_get, shift_doc, shift_id]
  cases A.get a n with
  | none => rfl
  | some nn =>
    cases n.doc with
    | none => rfl
    | some r => exact shift_modify δ a r n.id f

theorem shift_copyOrAdopt (a : AH) (fuel : Nat) (r : Ref) (o : Option Ref) (id to : Nat) :
    A.copyOrAdopt (a.shift δ) fuel r o id to = (A.copyOrAdopt a fuel r o id to).map (fun p => (p.1.shift δ, p.2)) := by
  unfold A.copyOrAdopt
  simp only [shift_getOf, shift_modify, shift_nodes]
  cases A.getOf a o id with
  | none => rfl
  | some n =>
    simp only
    split
    · rfl
    · cases A.ncopy (fun d id => if o = some r then d[id]? else A.getOf a o id) fuel (a r).nodes n with
      | none => rfl
      | some p => simp [← shift_set]

theorem shift_nset (a : AH) (fuel : Nat) (n : Node) (key : Bytes) (v : Node) :
    A.nset (a.shift δ) fuel (n.shift δ) key (v.shift δ) = (A.nset a fuel n key v).map (AH.shift δ) := by
  unfold A.nset
  rw [shift_get, shift_doc, shift_id, shift_id, shift_document]
  cases A.get a n with
  | none => rfl
  | some nn =>
    cases n.doc with
    | none => rfl
    | some r =>
      simp only [shift_copyOrAdopt]
      split
      · cases A.copyOrAdopt a fuel r (A.document a v) v.id n.id with
        | none => rfl
        | some p =>
          simp only [Option.map_some, shift_modify]
          split <;> rfl
      · rfl

theorem shift_appendLoop (fuel : Nat) (r : Ref) (to : Nat) : ∀ (vs : List Node) (a : AH) (vv : List V),
    A.appendLoop fuel r to (vs.map (·.shift δ)) (a.shift δ) vv = (A.appendLoop fuel r to vs a vv).map (fun p => (p.1.shift δ, p.2))
  | [], a, vv => rfl
  | v :: vs, a, vv => by
    simp only [List.map_cons]
    unfold A.appendLoop
    rw [shift_document, shift_id, shift_copyOrAdopt]
    cases A.copyOrAdopt a fuel r (A.document a v) v.id to with
    | none => rfl
    | some p => exact shift_appendLoop fuel r to vs p.1 _

theorem shift_append (a : AH) (fuel : Nat) (n : Node) (vs : List Node) :
    A.append (a.shift δ) fuel (n.shift δ) (vs.map (·.shift δ)) = (A.append a fuel n vs).map (AH.shift δ) := by
  unfold A.append
  rw [shift_get, shift_doc, shift_id, List.length_map]
  split
  · rfl
  · cases A.get a n with
    | none => rfl
    | some nn =>
      cases n.doc with
      | none => rfl
      | some r =>
        simp only [shift_appendLoop]
        split
        · cases A.appendLoop fuel r n.id vs a nn.vals with
          | none => rfl
          | some p => simp [shift_modify]
        · rfl

theorem shift_replace (a : AH) (fuel : Nat) (n : Node) (i : Int) (v : Node) :
    A.replace (a.shift δ) fuel (n.shift δ) i (v.shift δ) = (A.replace a fuel n i v).map (AH.shift δ) := by
  unfold A.replace
  rw [shift_get, shift_doc, shift_id, shift_id, shift_document]
  cases A.get a n with
  | none => rfl
  | some nn =>
    cases n.doc with
    | none => rfl
    | some r =>
      simp only [shift_copyOrAdopt]
      split
      · cases A.copyOrAdopt a fuel r (A.document a v) v.id n.id with
        | none => rfl
        | some p =>
          simp only [Option.map_some, shift_modify]
          split <;> rfl
      · rfl

theorem shift_nstrip (a : AH) (fuel : Nat) (n : Node) (key : Bytes) :
    A.nstrip (a.shift δ) fuel (n.shift δ) key = (A.nstrip a fuel n key).map (AH.shift δ) := by
  unfold A.nstrip
  rw [shift_document, shift_id]
  cases A.document a n with
  | none => rfl
  | some r =>
    simp only [shift_nodes]
    cases A.strip key fuel (a r).nodes n.id with
    | none => rfl
    | some d => simp [← shift_set]

/-! ## reads -/

theorem contOf_abs {get get' : Nat → Option NodeD} (h : ∀ id, (get id).map NodeD.abs = (get' id).map NodeD.abs) :
    contOf get = contOf get' := by
  funext id
  have := congrArg (Option.map ANode.cont) (h id)
  rw [Option.map_map, Option.map_map] at this
  exact this

theorem contOf_cases {get get' : Nat → Option NodeD} (h : contOf get = contOf get') (id : Nat) :
    (get id = none ∧ get' id = none) ∨
    ∃ n n', get id = some n ∧ get' id = some n' ∧ n.typ = n'.typ ∧ n.raw = n'.raw ∧ n.values.vis = n'.values.vis := by
  have := congrFun h id
  unfold contOf at this
  cases h1 : get id with
  | none =>
    rw [h1] at this
    cases h2 : get' id with
    | none => exact Or.inl ⟨rfl, rfl⟩
    | some n' => rw [h2] at this; simp at this
  | some n =>
    rw [h1] at this
    cases h2 : get' id with
    | none => rw [h2] at this; simp at this
    | some n' => rw [h2] at this; simp at this; exact Or.inr ⟨n, n', rfl, rfl, this.1, this.2.1, this.2.2⟩

theorem appendJSON_congr {get get' : Nat → Option NodeD} (h : contOf get = contOf get') :
    ∀ fuel dst id, appendJSON get fuel dst id = appendJSON get' fuel dst id := by
  intro fuel
  induction fuel with
  | zero => intros; rfl
  | succ fuel ih =>
    intro dst id
    have hrec : appendJSON get fuel = appendJSON get' fuel := by funext a b; exact ih a b
    unfold appendJSON
    rcases contOf_cases h id with ⟨h1, h2⟩ | ⟨n, n', h1, h2, e1, e2, e3⟩
    · rw [h1, h2]
    · rw [h1, h2, hrec]
      simp only [e1, e2, e3]

theorem lookup_congr {get get' : Nat → Option NodeD} (h : contOf get = contOf get') :
    ∀ path id, lookup get id path = lookup get' id path
  | [], id => rfl
  | key :: path, id => by
    unfold lookup
    rcases contOf_cases h id with ⟨h1, h2⟩ | ⟨n, n', h1, h2, e1, e2, e3⟩
    · rw [h1, h2]
    · rw [h1, h2]
      simp only [e1, e3]
      have ih := lookup_congr h path
      simp only [ih]

/-! ## calls -/

/-- outcome of a call on the abstraction: everything it returns, and the abstract heap -/
def absOut (p : Option (Heap × Res)) : Option (AH × Res) := p.map fun p => (p.1.abs, p.2)

def shiftOut (p : Option (AH × Res)) : Option (AH × Res) := p.map fun p => (p.1.shift δ, p.2.shift δ)

theorem same_abs {h h' : Heap} (hw : h.Wf) (hw' : h'.Wf) : Heap.Same δ h h' ↔ h'.abs = h.abs.shift δ := by
  constructor
  · intro hs
    funext r
    obtain ⟨⟨h1, h2⟩, h3⟩ := hs r
    unfold Heap.abs AH.shift Doc.abs
    simp only [h3, AD.mk.injEq, and_true]
    apply List.ext_getElem?
    intro id
    rw [view_get, view_get]
    have := h2 id
    cases e1 : (h r).get id with
    | none =>
      rw [e1] at this
      cases e2 : (h' r).get id with
      | none => rfl
      | some n' => rw [e2] at this; simp at this
    | some n =>
      rw [e1] at this
      cases e2 : (h' r).get id with
      | none => rw [e2] at this; simp at this
      | some n' =>
        rw [e2] at this
        simp [NodeD.visible] at this
        simp [NodeD.abs, this]
  · intro hs r
    have hr := congrFun hs r
    unfold Heap.abs AH.shift Doc.abs at hr
    simp only [AD.mk.injEq] at hr
    refine ⟨⟨?_, fun id => ?_⟩, hr.2⟩
    · rw [← view_length (hw r), ← view_length (hw' r), hr.1]
    · have : ∀ n : NodeD, n.visible = (n.abs.typ, n.abs.root, n.abs.raw, n.abs.vals) := fun _ => rfl
      have e := congrArg (fun l : List ANode => l[id]?.map fun a => (a.typ, a.root, a.raw, a.vals)) hr.1
      simp only [view_get, Option.map_map] at e
      exact e.symm

theorem rel_get {h h' : Heap} (hs : h'.abs = h.abs.shift δ) (n : Node) :
    (n.get h).map NodeD.abs = ((n.shift δ).get h').map NodeD.abs := by
  rw [abs_get, abs_get, hs, shift_get]

theorem rel_cases {h h' : Heap} (hs : h'.abs = h.abs.shift δ) (n : Node) :
    (n.get h = none ∧ (n.shift δ).get h' = none) ∨
    ∃ d d', n.get h = some d ∧ (n.shift δ).get h' = some d' ∧ d.typ = d'.typ ∧ d.raw = d'.raw ∧ d.values.vis = d'.values.vis := by
  have := rel_get δ hs n
  cases h1 : n.get h with
  | none =>
    rw [h1] at this
    cases h2 : (n.shift δ).get h' with
    | none => exact Or.inl ⟨rfl, rfl⟩
    | some n' => rw [h2] at this; simp at this
  | some d =>
    rw [h1] at this
    cases h2 : (n.shift δ).get h' with
    | none => rw [h2] at this; simp at this
    | some d' =>
      rw [h2] at this
      simp [NodeD.abs] at this
      exact Or.inr ⟨d, d', rfl, rfl, this.1, this.2.2.1, this.2.2.2⟩

theorem rel_getOf {h h' : Heap} (hs : h'.abs = h.abs.shift δ) (o : Option Ref) :
    contOf (getOf h o) = contOf (getOf h' o) := by
  apply contOf_abs
  intro id
  rw [abs_getOf, abs_getOf, hs, shift_getOf]

theorem shift_with (n : Node) (id : Nat) : (n.shift δ).with_ id = (n.with_ id).shift δ := by
  unfold Node.with_ Node.shift
  cases hd : n.doc <;> simp [hd]

theorem run_rel {h h' : Heap} (hw : h.Wf) (hw' : h'.Wf) (hs : h'.abs = h.abs.shift δ) (fuel : Nat) (op : Op) :
    absOut ((op.shift δ).run fuel h') = shiftOut δ (absOut (op.run fuel h)) ∧
    ∀ h1 res, op.run fuel h = some (h1, res) → h1.Wf := by
  have keep : ∀ {c : Option (Bytes × Bool)} {h1 : Heap} {res : Res}, c.map (fun x => (h, Res.json x)) = some (h1, res) → h1.Wf := by
    intro c h1 res he
    cases c with
    | none => simp at he
    | some x => simp at he; rw [← he.1]; exact hw
  have read : ∀ {f g : Res}, g = f.shift δ →
      absOut (some (h', g)) = shiftOut δ (absOut (some (h, f))) ∧
      ∀ h1 res, (some (h, f) : Option (Heap × Res)) = some (h1, res) → h1.Wf := by
    intro f g he
    refine ⟨by simp [absOut, shiftOut, he, hs], ?_⟩
    intro h1 res e
    simp at e; rw [← e.1]; exact hw
  have part : ∀ {c c' : Option Heap} {a : Option AH}, Commutes c a → Commutes c' (a.map (AH.shift δ)) →
      absOut (c'.map (·, Res.unit)) = shiftOut δ (absOut (c.map (·, Res.unit))) ∧
      ∀ h1 res, c.map (·, Res.unit) = some (h1, res) → h1.Wf := by
    intro c c' a hc hc'
    refine ⟨?_, ?_⟩
    · have e1 := hc.1
      have e2 := hc'.1
      rw [← e1] at e2
      cases c with
      | none => cases c' with
        | none => rfl
        | some x => simp at e2
      | some y => cases c' with
        | none => simp at e2
        | some x => simp at e2; simp [absOut, shiftOut, e2, Res.shift]
    · intro h1 res e
      cases c with
      | none => simp at e
      | some y => simp at e; rw [← e.1]; exact hc.2 y rfl
  have upd : ∀ {c c' : Heap} {a : AH}, (c.Wf ∧ c.abs = a) → (c'.Wf ∧ c'.abs = a.shift δ) →
      absOut (some (c', Res.unit)) = shiftOut δ (absOut (some (c, Res.unit))) ∧
      ∀ h1 res, (some (c, Res.unit) : Option (Heap × Res)) = some (h1, res) → h1.Wf := by
    intro c c' a hc hc'
    refine ⟨by simp [absOut, shiftOut, hc.2, hc'.2, Res.shift], ?_⟩
    intro h1 res e
    simp at e; rw [← e.1]; exact hc.1
  have hnodes : ∀ r, (h' r).view = (h r).view := fun r => congrArg AD.nodes (congrFun hs r)
  have hrevs : ∀ r, (h' r).rev = (h r).rev + δ r := fun r => congrArg AD.rev (congrFun hs r)
  have hsetr : ∀ (r : Ref) (d d' : Doc), d'.view = d.view → d'.rev = d.rev + δ r →
      (h'.set r d').abs = (h.set r d).abs.shift δ := by
    intro r d d' h1 h2
    funext r'
    have := congrFun hs r'
    unfold Heap.abs Heap.set AH.shift at *
    simp only at *
    split
    · rename_i e; subst e; simp [Doc.abs, h1, h2]
    · exact this
  cases op with
  | parse r s =>
    simp only [Op.shift, Op.run]
    obtain ⟨a1, a2⟩ := abs_parse (hw r) s
    obtain ⟨b1, b2⟩ := abs_parse (hw' r) s
    have e1 := congrArg (fun p : AD × ParseOut => p.1) a2
    have e2 := congrArg (fun p : AD × ParseOut => p.2) a2
    have f1 := congrArg (fun p : AD × ParseOut => p.1) b2
    have f2 := congrArg (fun p : AD × ParseOut => p.2) b2
    simp only at e1 e2 f1 f2
    have hA : A.parse (h' r).abs s = ({ (A.parse (h r).abs s).1 with rev := (A.parse (h r).abs s).1.rev + δ r }, (A.parse (h r).abs s).2) := by
      have : (h' r).abs = { (h r).abs with rev := (h r).abs.rev + δ r } := congrFun hs r
      rw [this]
      unfold A.parse
      cases treeParse s with
      | ok t p rest => rfl
      | err e => cases e <;> rfl
      | crash => rfl
    have hout : ((h' r).parse s).2 = ((h r).parse s).2 := by rw [f2, hA, e2]
    have hd : (h'.set r ((h' r).parse s).1).abs = (h.set r ((h r).parse s).1).abs.shift δ := by
      apply hsetr
      · have := congrArg AD.nodes f1; rw [hA] at this
        have e := congrArg AD.nodes e1
        exact this.trans e.symm
      · have := congrArg AD.rev f1; rw [hA] at this
        have e := congrArg AD.rev e1
        simp only [Doc.abs] at this e
        rw [this, ← e]
    have hrev : ((h' r).parse s).1.rev = ((h r).parse s).1.rev + δ r := by
      have := congrArg AD.rev f1; rw [hA] at this
      have e := congrArg AD.rev e1
      simp only [Doc.abs] at this e
      rw [this, ← e]
    have hset : ∀ (k : Heap) (d : Doc), (k.set r d) r = d := by intro k d; simp [Heap.set]
    unfold Heap.parse
    simp only
    rw [hout]
    refine ⟨?_, ?_⟩
    · cases ((h r).parse s).2 with
      | ok id rest =>
        simp [absOut, shiftOut, hd, Res.shift, Heap.node, Node.shift, hset, hrev]
      | eof _ _ => simp [absOut, shiftOut, hd, Res.shift, Node.shift, Node.zero]
      | err _ _ _ _ _ => simp [absOut, shiftOut, hd, Res.shift, Node.shift, Node.zero]
      | crash => simp [absOut, shiftOut, hd, Res.shift, Node.shift, Node.zero]
    · intro h1 res e
      have hw1 : (h.set r ((h r).parse s).1).Wf := hw.set r a1
      cases ho : ((h r).parse s).2 <;> (rw [ho] at e; simp at e; rw [← e.1]; exact hw1)
  | reset r =>
    simp only [Op.shift, Op.run]
    refine ⟨?_, ?_⟩
    · have := hsetr r (h r).reset (h' r).reset (by simp [Doc.view, Doc.reset])
        (by simp only [Doc.reset, hrevs r]; rw [UInt64.add_assoc, UInt64.add_comm (δ r), ← UInt64.add_assoc])
      simp [absOut, shiftOut, this, Res.shift]
    · intro h1 res e
      simp at e; rw [← e.1]; exact hw.set r (abs_docReset _).1
  | add r typ raw =>
    simp only [Op.shift, Op.run]
    obtain ⟨a1, a2⟩ := abs_add (hw r) typ raw
    obtain ⟨b1, b2⟩ := abs_add (hw' r) typ raw
    simp only [A.add, Prod.mk.injEq] at a2 b2
    have e1 := congrArg AD.nodes a2.1
    have e2 := congrArg AD.rev a2.1
    have f1 := congrArg AD.nodes b2.1
    have f2 := congrArg AD.rev b2.1
    simp only [Doc.abs] at e1 e2 f1 f2
    have hd := hsetr r ((h r).add typ raw).1 ((h' r).add typ raw).1 (by rw [e1, f1, hnodes]) (by rw [e2, f2, hrevs])
    refine ⟨?_, ?_⟩
    · simp only [absOut, shiftOut, Option.map_some, hd, Res.shift, Heap.node, Node.shift, Heap.set, if_true]
      rw [a2.2, b2.2, e2, f2, hrevs]
      simp only [Doc.abs, hnodes]
    · intro h1 res e
      simp at e; rw [← e.1]; exact hw.set r a1
  | docJSON r dst =>
    simp only [Op.shift, Op.run]
    have : (h' r).appendJSON fuel dst = (h r).appendJSON fuel dst := by
      unfold Doc.appendJSON
      exact (appendJSON_congr (rel_getOf δ hs (some r)) fuel dst 0).symm
    rw [this]
    refine ⟨?_, fun h1 res e => keep e⟩
    cases (h r).appendJSON fuel dst with
    | none => rfl
    | some x => simp [absOut, shiftOut, hs, Res.shift]
  | set n key value =>
    simp only [Op.shift, Op.run]
    refine part (abs_nset hw fuel n key value) ?_
    have := abs_nset hw' fuel (n.shift δ) key (value.shift δ)
    rwa [hs, shift_nset] at this
  | append n values =>
    simp only [Op.shift, Op.run]
    refine part (abs_append hw fuel n values) ?_
    have := abs_append hw' fuel (n.shift δ) (values.map (·.shift δ))
    rwa [hs, shift_append] at this
  | replace n i value =>
    simp only [Op.shift, Op.run]
    refine part (abs_replace hw fuel n i value) ?_
    have := abs_replace hw' fuel (n.shift δ) i (value.shift δ)
    rwa [hs, shift_replace] at this
  | slice n i j =>
    simp only [Op.shift, Op.run]
    refine upd (abs_slice hw n i j) ?_
    have := abs_slice hw' (n.shift δ) i j
    rwa [hs, shift_update] at this
  | remove n i =>
    simp only [Op.shift, Op.run]
    refine upd (abs_remove hw n i) ?_
    have := abs_remove hw' (n.shift δ) i
    rwa [hs, shift_update] at this
  | strip n key =>
    simp only [Op.shift, Op.run]
    refine part (abs_nstrip hw fuel n key) ?_
    have := abs_nstrip hw' fuel (n.shift δ) key
    rwa [hs, shift_nstrip] at this
  | del n key =>
    simp only [Op.shift, Op.run]
    refine upd (abs_del hw n key) ?_
    have := abs_del hw' (n.shift δ) key
    rwa [hs, shift_update] at this
  | setScalar n typ raw =>
    simp only [Op.shift, Op.run]
    refine upd (abs_setScalar hw n typ raw) ?_
    have := abs_setScalar hw' (n.shift δ) typ raw
    rwa [hs, shift_update] at this
  | json n dst =>
    simp only [Op.shift, Op.run]
    have : (n.shift δ).appendJSON h' fuel dst = n.appendJSON h fuel dst := by
      unfold Node.appendJSON
      rw [shift_doc, shift_id]
      have hj := appendJSON_congr (rel_getOf δ hs n.doc) fuel dst n.id
      rcases rel_cases δ hs n with ⟨e1, e2⟩ | ⟨d, d', e1, e2, _⟩
      · rw [e1, e2]
      · rw [e1, e2]; exact hj.symm
    rw [this]
    refine ⟨?_, fun h1 res e => keep e⟩
    cases n.appendJSON h fuel dst with
    | none => rfl
    | some x => simp [absOut, shiftOut, hs, Res.shift]
  | raw n =>
    refine read ?_
    simp only [Res.shift, Node.raw]
    rcases rel_cases δ hs n with ⟨e1, e2⟩ | ⟨d, d', e1, e2, e3, e4, e5⟩ <;> simp [*]
  | unescaped n =>
    refine read ?_
    simp only [Res.shift, Node.unescaped]
    rcases rel_cases δ hs n with ⟨e1, e2⟩ | ⟨d, d', e1, e2, e3, e4, e5⟩ <;> simp [*]
  | data n =>
    refine read ?_
    simp only [Res.shift, Node.data]
    rcases rel_cases δ hs n with ⟨e1, e2⟩ | ⟨d, d', e1, e2, e3, e4, e5⟩ <;> simp [*]
  | toBool n =>
    refine read ?_
    simp only [Res.shift, Node.toBool]
    rcases rel_cases δ hs n with ⟨e1, e2⟩ | ⟨d, d', e1, e2, e3, e4, e5⟩ <;> simp [*]
  | typ n =>
    refine read ?_
    simp only [Res.shift, Node.typ]
    rcases rel_cases δ hs n with ⟨e1, e2⟩ | ⟨d, d', e1, e2, e3, e4, e5⟩ <;> simp [*]
  | values n =>
    refine read ?_
    simp only [Res.shift, Node.values]
    rcases rel_cases δ hs n with ⟨e1, e2⟩ | ⟨d, d', e1, e2, e3, e4, e5⟩ <;> simp [*]
  | lookup n path =>
    refine read ?_
    simp only [Res.shift, Node.lookup, shift_id]
    rw [shift_with, abs_document, hs, shift_document, ← abs_document, lookup_congr (rel_getOf δ hs (n.document h))]
  | get n key =>
    refine read ?_
    simp only [Res.shift, Node.getKey]
    rcases rel_cases δ hs n with ⟨e1, e2⟩ | ⟨d, d', e1, e2, e3, e4, e5⟩
    · simp only [e1, e2, shift_with]
    · simp only [e1, e2, e3, e5]
      split
      · cases findKey key d'.values.vis <;> simp only [shift_with]
      · rw [shift_with]
  | index n i =>
    refine read ?_
    simp only [Res.shift, Node.index]
    rcases rel_cases δ hs n with ⟨e1, e2⟩ | ⟨d, d', e1, e2, e3, e4, e5⟩
    · simp only [e1, e2, shift_with]
    · simp only [e1, e2, e3, e5]
      split
      · cases d'.values.vis[i.toNat]? <;> simp only [shift_with]
      · rw [shift_with]

theorem run_wf {h : Heap} (hw : h.Wf) {fuel : Nat} {op : Op} {h1 : Heap} {res : Res} (he : op.run fuel h = some (h1, res)) :
    h1.Wf :=
  (run_rel (fun _ => 0) hw hw (by funext r; simp [AH.shift]) fuel op).2 h1 res he

theorem runOps_wf {fuel : Nat} : ∀ {ops : List Op} {h h1 : Heap} {rs : List Res}, h.Wf → runOps fuel ops h = some (h1, rs) → h1.Wf
  | [], h, h1, rs, hw, he => by simp [runOps] at he; rw [← he.1]; exact hw
  | op :: ops, h, h1, rs, hw, he => by
    unfold runOps at he
    cases h2 : op.run fuel h with
    | none => rw [h2] at he; simp at he
    | some p =>
      rw [h2] at he
      simp only at he
      cases h3 : runOps fuel ops p.1 with
      | none => rw [h3] at he; simp at he
      | some q =>
        rw [h3] at he
        simp at he
        have := runOps_wf (run_wf hw h2) h3
        rw [← he.1]; exact this

theorem runOps_rel (fuel : Nat) : ∀ (ops : List Op) (h h' : Heap), h.Wf → h'.Wf → h'.abs = h.abs.shift δ →
    (runOps fuel (ops.map (Op.shift δ)) h' = none ∧ runOps fuel ops h = none) ∨
    ∃ h1 h1' rs, runOps fuel ops h = some (h1, rs) ∧
      runOps fuel (ops.map (Op.shift δ)) h' = some (h1', rs.map (Res.shift δ)) ∧ h1'.abs = h1.abs.shift δ
  | [], h, h', hw, hw', hs => Or.inr ⟨h, h', [], rfl, rfl, hs⟩
  | op :: ops, h, h', hw, hw', hs => by
    obtain ⟨e, _⟩ := run_rel δ hw hw' hs fuel op
    simp only [List.map_cons]
    unfold runOps
    cases h1 : op.run fuel h with
    | none =>
      rw [h1] at e
      cases h2 : (op.shift δ).run fuel h' with
      | none => exact Or.inl ⟨rfl, rfl⟩
      | some q => rw [h2] at e; simp [absOut, shiftOut] at e
    | some p =>
      rw [h1] at e
      cases h2 : (op.shift δ).run fuel h' with
      | none => rw [h2] at e; simp [absOut, shiftOut] at e
      | some q =>
        rw [h2] at e
        obtain ⟨p1, p2⟩ := p
        obtain ⟨q1, q2⟩ := q
        simp [absOut, shiftOut] at e
        simp only
        rcases runOps_rel fuel ops p1 q1 (run_wf hw h1) (run_wf hw' h2) e.1 with ⟨e1, e2⟩ | ⟨x, x', rs, e1, e2, e3⟩
        · rw [e1, e2]; exact Or.inl ⟨rfl, rfl⟩
        · rw [e1, e2]
          exact Or.inr ⟨x, x', p2 :: rs, rfl, by simp [e.2], e3⟩

end Verif.Njson
