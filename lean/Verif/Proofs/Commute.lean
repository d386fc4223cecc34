import Mathlib.Data.List.Forall2
import Mathlib.Tactic.SplitIfs
import Verif.Proofs.Mut
import Verif.Proofs.ParseDoc
import Verif.Spec.Ops
import Verif.Spec.Commute

/-!
# Two edits, in either order: the content of the edited nodes

An edit of `n` changes the content of `n`, as a function of the content before and of the identifiers that the inserted values
get (`opCont`); the rest are new nodes.
-/

namespace Verif.Njson
open Verif Verif.Spec

/-- the values that a call inserts -/
def Op.vals (op : Op) : List Node := op.inserted.map (·.2)

/-- the content of the edited node afterwards, with the identifiers of the inserted values -/
def opCont (op : Op) (c : Cont) (ids : List Nat) : Cont :=
  match op with
  | .set _ k _ => if c.typ = tObject then ⟨c.typ, c.raw, setKeyV c.vals k (ids.headD 0)⟩ else c
  | .append _ _ => if c.typ = tArray then ⟨c.typ, c.raw, c.vals ++ ids.map fun i => ⟨i, []⟩⟩ else c
  | .replace _ i _ => if c.typ = tArray ∧ 0 ≤ i ∧ i < c.vals.length then ⟨c.typ, c.raw, c.vals.set i.toNat ⟨ids.headD 0, []⟩⟩ else c
  | .slice _ i j => (A.sliceF i j ⟨c.typ, false, c.raw, c.vals⟩).cont
  | .remove _ i => (A.removeF i ⟨c.typ, false, c.raw, c.vals⟩).cont
  | .del _ k => (A.delF k ⟨c.typ, false, c.raw, c.vals⟩).cont
  | .setScalar _ t b => ⟨t, b, []⟩
  | _ => c

/-- the inserted values: they exist, and the target is not below them -/
def ValsFit (a : AH) (fuel : Nat) (r : Ref) (tgt : Nat) (vals : List Node) (ts : List JVal) : Prop :=
  vals.length = ts.length ∧ ∀ (i : Nat) (v : Node) (t : JVal), vals[i]? = some v → ts[i]? = some t →
    t.size ≤ fuel ∧ ∃ r', A.document a v = some r' ∧ Reps (A.cont a r') t v.id ∧ (r' = r → ¬ Reach (A.cont a r) v.id tgt)

/-- the nodes `ids` of document `r` afterwards hold the inserted values; of the old nodes they reach only what the values reached -/
def ValsHeld (a a' : AH) (r : Ref) (vals : List Node) (ts : List JVal) (ids : List Nat) : Prop :=
  ids.length = ts.length ∧ ∀ (i : Nat) (v : Node) (t : JVal) (id : Nat), vals[i]? = some v → ts[i]? = some t → ids[i]? = some id →
    Reps (A.cont a' r) t id ∧ ∀ j, Reach (A.cont a' r) id j → j < (a r).nodes.length → A.document a v = some r ∧ Reach (A.cont a r) v.id j

/-- the effect of an edit -/
def EditEff (a a' : AH) (op : Op) (r : Ref) (n : Nat) (c : Cont) (ts : List JVal) : Prop :=
  Local a a' r n ∧ (((∀ ids, opCont op c ids = c) ∧ A.cont a' r n = some c) ∨
    ∃ ids, A.cont a' r n = some (opCont op c ids) ∧ ValsHeld a a' r op.vals ts ids)

theorem edit_modify_one {a a1 : AH} {fuel : Nat} {r : Ref} {tgt : Nat} {v : Node} {ts : List JVal} (f : Nat → ANode → ANode) {id1 : Nat}
    (hto : tgt < (a r).nodes.length) (hyp : ValsFit a fuel r tgt [v] ts) (h : A.copyOrAdopt a fuel r (A.document a v) v.id tgt = some (a1, id1)) :
    ValsHeld a (A.modify a1 r tgt (f id1)) r [v] ts [id1] ∧ id1 ≤ (a r).nodes.length := by
  obtain ⟨hl, hyp⟩ := hyp
  obtain ⟨t, rfl⟩ : ∃ t, ts = [t] := List.length_eq_one_iff.1 (by simpa using hl.symm)
  obtain ⟨hf, r', h1, h2, h3⟩ := hyp 0 v t rfl rfl
  obtain ⟨a2, id2, e1, e2, e3, e4, e5⟩ := copyOrAdopt_tree (r := r) («to» := tgt) h2 hf
  rw [h1, e1] at h
  simp only [Option.some.injEq, Prod.mk.injEq] at h
  obtain ⟨rfl, rfl⟩ := h
  have hno : ¬ Reach (A.cont a2 r) id2 tgt := fun hr => by
    obtain ⟨⟨k1, _⟩, k2⟩ := e5 _ hr hto
    exact h3 k1 k2
  refine ⟨⟨rfl, ?_⟩, e4⟩
  intro i v' t' id' g1 g2 g3
  cases i with
  | succ i => simp at g1
  | zero =>
    simp only [List.length_cons, List.length_nil, Nat.zero_add, Nat.lt_add_one, List.getElem?_eq_getElem, List.getElem_cons_zero, Option.some.injEq] at g1 g2 g3
    subst g1; subst g2; subst g3
    refine ⟨modify_reps e3 fun _ => hno, ?_⟩
    intro j hj hlt
    have hb : Reach (A.cont a2 r) id2 j := reach_back hj fun k hk => modify_cont_ne fun _ he => by subst he; exact hno hk
    obtain ⟨⟨k1, _⟩, k2⟩ := e5 _ hb hlt
    subst k1
    exact ⟨h1, k2⟩

theorem appendLoop_holds {fuel : Nat} {r : Ref} {tgt : Nat} : ∀ (vals : List Node) (ts : List JVal) (a : AH) (vv : List V),
    tgt < (a r).nodes.length → ValsFit a fuel r tgt vals ts →
    ∃ a' ids, A.appendLoop fuel r tgt vals a vv = some (a', vv ++ ids.map fun i => ⟨i, []⟩) ∧ Ext a a' r ∧ ValsHeld a a' r vals ts ids
  | [], ts, a, vv, _, ⟨hl, _⟩ => by
    have : ts = [] := List.length_eq_zero_iff.1 hl.symm
    subst this
    exact ⟨a, [], by simp [A.appendLoop], .refl _ _, rfl, by simp⟩
  | v :: vals, [], a, vv, _, ⟨hl, _⟩ => by simp at hl
  | v :: vals, t :: ts, a, vv, hto, ⟨hl, hyp⟩ => by
    obtain ⟨hf, r', hdv, hv, hins⟩ := hyp 0 v t rfl rfl
    obtain ⟨a1, id1, h1, hext, h2, h3, h4⟩ := copyOrAdopt_tree (r := r) («to» := tgt) hv hf
    obtain ⟨a2, ids, e1, e2, e3, e4⟩ := appendLoop_holds (r := r) (fuel := fuel) (tgt := tgt) vals ts a1 (vv ++ [⟨id1, []⟩])
      (Nat.lt_of_lt_of_le hto hext.len) ⟨by simpa using hl, by
        intro i w t' hw ht'
        obtain ⟨hf', q, g1, g2, g3⟩ := hyp (i + 1) w t' (by simpa using hw) (by simpa using ht')
        refine ⟨hf', q, by rw [hext.document, g1], hext.reps g2, ?_⟩
        rintro rfl hr
        exact g3 rfl (reach_back hr (hext.agree g2))⟩
    refine ⟨a2, id1 :: ids, ?_, hext.trans e2, by simp [e3], ?_⟩
    · unfold A.appendLoop
      rw [hdv, h1]
      simp only
      rw [e1]; simp
    · intro i w s id g1 g2 g3
      cases i with
      | zero =>
        simp only [List.getElem?_cons_zero, Option.some.injEq] at g1 g2 g3
        subst g1; subst g2; subst g3
        refine ⟨e2.reps h2, ?_⟩
        intro j hj hlt
        obtain ⟨⟨k1, _⟩, k2⟩ := h4 _ (reach_back hj (e2.agree h2)) hlt
        subst k1
        exact ⟨hdv, k2⟩
      | succ i =>
        simp only [List.getElem?_cons_succ] at g1 g2 g3
        obtain ⟨k1, k2⟩ := e4 i w s id g1 g2 g3
        refine ⟨k1, ?_⟩
        intro j hj hlt
        obtain ⟨k3, k4⟩ := k2 j hj (Nat.lt_of_lt_of_le hlt hext.len)
        rw [hext.document] at k3
        obtain ⟨_, q, c1, c2, _⟩ := hyp (i + 1) w s (by simpa using g1) (by simpa using g2)
        rw [k3] at c1
        simp only [Option.some.injEq] at c1
        subst c1
        exact ⟨k3, reach_back k4 (hext.agree c2)⟩

theorem holds_modify {a a1 : AH} {fuel : Nat} {r : Ref} {tgt : Nat} {vals : List Node} {ts : List JVal} {ids : List Nat} {f : ANode → ANode}
    (hto : tgt < (a r).nodes.length) (hyp : ValsFit a fuel r tgt vals ts) (h : ValsHeld a a1 r vals ts ids) : ValsHeld a (A.modify a1 r tgt f) r vals ts ids := by
  refine ⟨h.1, ?_⟩
  intro i v t id g1 g2 g3
  obtain ⟨h1, h2⟩ := h.2 i v t id g1 g2 g3
  obtain ⟨_, q, c1, c2, c3⟩ := hyp.2 i v t g1 g2
  have hno : ¬ Reach (A.cont a1 r) id tgt := fun hr => by
    obtain ⟨k1, k2⟩ := h2 _ hr hto
    rw [k1] at c1
    simp only [Option.some.injEq] at c1
    exact c3 c1.symm k2
  refine ⟨modify_reps h1 fun _ => hno, ?_⟩
  intro j hj hlt
  exact h2 j (reach_back hj fun k hk => modify_cont_ne fun _ he => by subst he; exact hno hk) hlt

theorem edit_idle {a : AH} {op : Op} {r : Ref} {n : Nat} {c : Cont} {ts : List JVal} (hc : A.cont a r n = some c) (h : ∀ ids, opCont op c ids = c) :
    EditEff a a op r n c ts := ⟨.refl _ _ _, .inl ⟨h, hc⟩⟩

theorem edit_set {a a' : AH} {fuel : Nat} {n v : Node} {k : Bytes} {r : Ref} {c : Cont} {ts : List JVal} (hd : A.document a n = some r)
    (hc : A.cont a r n.id = some c) (hyp : ValsFit a fuel r n.id [v] ts) (hlen : (a r).nodes.length < maxUint)
    (h : A.nset a fuel n k v = some a') : EditEff a a' (.set n k v) r n.id c ts := by
  obtain ⟨x, hx, rfl⟩ := acont_some hc
  unfold A.nset at h
  rw [aget_some hd hx, document_doc hd] at h
  simp only at h
  split at h
  · rename_i ht
    split at h
    · simp at h
    · rename_i a1 id1 h1
      obtain ⟨k1, k2⟩ := edit_modify_one (fun id => A.setF k id) (acont_lt hc) hyp h1
      rw [if_pos (by omega)] at h
      simp only [Option.some.injEq] at h
      subst h
      have hext := copyOrAdopt_ext h1
      refine ⟨local_modify hext _, .inr ⟨[id1], ?_, k1⟩⟩
      have hc1 : A.cont a1 r n.id = some x.cont := by rw [hext.old _ (acont_lt hc), hc]
      obtain ⟨x1, hx1, hxc1⟩ := acont_some hc1
      rw [modify_cont_eq hx1]
      simp only [ANode.cont, Cont.mk.injEq] at hxc1
      obtain ⟨f1, f2, f3⟩ := hxc1
      simp only [ANode.cont, A.setF, f1, f2, f3]
      exact congrArg some (if_pos (c := x.cont.typ = tObject) ht).symm
  · rename_i ht
    simp only [Option.some.injEq] at h
    subst h
    refine edit_idle hc fun ids => ?_
    exact if_neg ht

theorem edit_replace {a a' : AH} {fuel : Nat} {n v : Node} {i : Int} {r : Ref} {c : Cont} {ts : List JVal} (hd : A.document a n = some r)
    (hc : A.cont a r n.id = some c) (hyp : ValsFit a fuel r n.id [v] ts) (hlen : (a r).nodes.length < maxUint)
    (h : A.replace a fuel n i v = some a') : EditEff a a' (.replace n i v) r n.id c ts := by
  obtain ⟨x, hx, rfl⟩ := acont_some hc
  unfold A.replace at h
  rw [aget_some hd hx, document_doc hd] at h
  simp only at h
  split at h
  · rename_i ht
    split at h
    · simp at h
    · rename_i a1 id1 h1
      obtain ⟨k1, k2⟩ := edit_modify_one (fun id => A.replaceF i.toNat id) (acont_lt hc) hyp h1
      rw [if_pos (by omega)] at h
      simp only [Option.some.injEq] at h
      subst h
      have hext := copyOrAdopt_ext h1
      refine ⟨local_modify hext _, .inr ⟨[id1], ?_, k1⟩⟩
      have hc1 : A.cont a1 r n.id = some x.cont := by rw [hext.old _ (acont_lt hc), hc]
      obtain ⟨x1, hx1, hxc1⟩ := acont_some hc1
      rw [modify_cont_eq hx1]
      simp only [ANode.cont, Cont.mk.injEq] at hxc1
      obtain ⟨f1, f2, f3⟩ := hxc1
      simp only [ANode.cont, A.replaceF, f1, f2, f3]
      exact congrArg some (if_pos (c := x.cont.typ = tArray ∧ 0 ≤ i ∧ i < x.cont.vals.length) ht).symm
  · rename_i ht
    simp only [Option.some.injEq] at h
    subst h
    refine edit_idle hc fun ids => ?_
    exact if_neg ht

theorem edit_append {a a' : AH} {fuel : Nat} {n : Node} {vs : List Node} {r : Ref} {c : Cont} {ts : List JVal} (hd : A.document a n = some r)
    (hc : A.cont a r n.id = some c) (hyp : ValsFit a fuel r n.id vs ts)
    (h : A.append a fuel n vs = some a') : EditEff a a' (.append n vs) r n.id c ts := by
  obtain ⟨x, hx, rfl⟩ := acont_some hc
  have hvals : Op.vals (.append n vs) = vs := by simp [Op.vals, Op.inserted, Function.comp_def]
  unfold A.append at h
  split at h
  · rename_i hz
    simp only [Option.some.injEq] at h
    subst h
    have : vs = [] := List.length_eq_zero_iff.1 hz
    subst this
    have : ts = [] := List.length_eq_zero_iff.1 hyp.1.symm
    subst this
    refine ⟨.refl _ _ _, .inr ⟨[], ?_, rfl, by simp⟩⟩
    rw [hc]
    simp only [opCont, List.map_nil, List.append_nil]
    split <;> rfl
  · rw [aget_some hd hx, document_doc hd] at h
    simp only at h
    split at h
    · rename_i ht
      obtain ⟨a1, ids, e1, e2, e3⟩ := appendLoop_holds vs ts a x.vals (acont_lt hc) hyp
      rw [e1] at h
      simp only [Option.some.injEq] at h
      subst h
      refine ⟨local_modify e2 _, .inr ⟨ids, ?_, by rw [hvals]; exact holds_modify (acont_lt hc) hyp e3⟩⟩
      have hc1 : A.cont a1 r n.id = some x.cont := by rw [e2.old _ (acont_lt hc), hc]
      obtain ⟨x1, hx1, hxc1⟩ := acont_some hc1
      rw [modify_cont_eq hx1]
      simp only [ANode.cont, Cont.mk.injEq] at hxc1
      obtain ⟨f1, f2, f3⟩ := hxc1
      simp only [ANode.cont, f1, f2]
      exact congrArg some (if_pos (c := x.cont.typ = tArray) ht).symm
    · rename_i ht
      simp only [Option.some.injEq] at h
      subst h
      refine edit_idle hc fun ids => ?_
      exact if_neg ht

theorem edit_update {a : AH} {n : Node} {op : Op} {r : Ref} {c : Cont} {f : ANode → ANode} (hd : A.document a n = some r)
    (hc : A.cont a r n.id = some c) (hf : ∀ x : ANode, x.cont = c → (f x).cont = opCont op c []) :
    EditEff a (A.update a n f) op r n.id c [] := by
  obtain ⟨x, hx, hxc⟩ := acont_some hc
  have hu : A.update a n f = A.modify a r n.id f := by
    unfold A.update
    rw [aget_some hd hx, document_doc hd]
  rw [hu]
  refine ⟨local_modify (.refl _ _) _, .inr ⟨[], ?_, rfl, by simp⟩⟩
  rw [modify_cont_eq hx, hf x hxc]

/-! ## the effect of a call -/

theorem run_edit_eff {h : Heap} (hw : h.Wf) {fuel : Nat} {op : Op} {n : Node} (hop : op.mutates n) (hns : ∀ k, op ≠ .strip n k)
    {h1 : Heap} {res : Res} (hrun : op.run fuel h = some (h1, res)) {r : Ref} {c : Cont} {ts : List JVal} (hd : A.document h.abs n = some r)
    (hc : A.cont h.abs r n.id = some c) (hyp : ValsFit h.abs fuel r n.id op.vals ts) (hlen : (h.abs r).nodes.length < maxUint) :
    EditEff h.abs h1.abs op r n.id c ts ∧ h1.Wf := by
  have part : ∀ {c : Option Heap} {a : Option AH}, Commutes c a → c.map (·, Res.unit) = some (h1, res) → a = some h1.abs ∧ h1.Wf := by
    intro c a hca he
    cases c with
    | none => simp at he
    | some x => simp at he; have := hca.1; rw [← this, ← he.1]; exact ⟨rfl, hca.2 _ rfl⟩
  have nil : op.vals = [] → ts = [] := fun he => List.length_eq_zero_iff.1 (by rw [← hyp.1, he]; rfl)
  cases op <;> simp only [Op.mutates] at hop
  case set k v => subst hop; obtain ⟨e1, e2⟩ := part (abs_nset hw fuel _ k v) hrun; exact ⟨edit_set hd hc hyp hlen e1, e2⟩
  case append vs =>
    subst hop
    obtain ⟨e1, e2⟩ := part (abs_append hw fuel _ vs) hrun
    rw [show Op.vals (.append _ vs) = vs by simp [Op.vals, Op.inserted, Function.comp_def]] at hyp
    exact ⟨edit_append hd hc hyp e1, e2⟩
  case replace i v => subst hop; obtain ⟨e1, e2⟩ := part (abs_replace hw fuel _ i v) hrun; exact ⟨edit_replace hd hc hyp hlen e1, e2⟩
  case slice i j =>
    subst hop
    simp [Op.run] at hrun
    rw [← hrun.1, (abs_slice hw _ i j).2, nil rfl]
    exact ⟨edit_update hd hc (by rintro x rfl; by_cases hc : x.typ = tArray ∧ 0 ≤ i ∧ i < j ∧ j < x.vals.length <;> simp only [opCont, A.sliceF, ANode.cont, hc, if_true, if_false, and_self]), (abs_slice hw _ i j).1⟩
  case remove i =>
    subst hop
    simp [Op.run] at hrun
    rw [← hrun.1, (abs_remove hw _ i).2, nil rfl]
    exact ⟨edit_update hd hc (by rintro x rfl; by_cases hc : x.typ = tArray ∧ 0 ≤ i ∧ i < x.vals.length <;> simp only [opCont, A.removeF, ANode.cont, hc, if_true, if_false, and_self]), (abs_remove hw _ i).1⟩
  case strip k => subst hop; exact absurd rfl (hns k)
  case del k =>
    subst hop
    simp [Op.run] at hrun
    rw [← hrun.1, (abs_del hw _ k).2, nil rfl]
    refine ⟨edit_update hd hc ?_, (abs_del hw _ k).1⟩
    rintro x rfl
    simp only [opCont, A.delF, ANode.cont]
    cases x.vals.findIdx? (fun v => decide (v.key = k)) <;> split_ifs <;> simp_all
  case setScalar t b =>
    subst hop
    simp [Op.run] at hrun
    rw [← hrun.1, (abs_setScalar hw _ t b).2, nil rfl]
    exact ⟨edit_update hd hc (by rintro x rfl; rfl), (abs_setScalar hw _ t b).1⟩

/-! ## the same tree in two documents -/

/-- children that show the same in two documents: the same old node, or nodes with the same tree -/
def SameChild (g0 g g' : Nat → Option Cont) (v v' : V) : Prop :=
  v.key = v'.key ∧ ((v.id = v'.id ∧ ∃ t, Reps g0 t v.id) ∨ ∃ s, Reps g s v.id ∧ Reps g' s v'.id)

def SameCont (g0 g g' : Nat → Option Cont) (c c' : Cont) : Prop :=
  c.typ = c'.typ ∧ c.raw = c'.raw ∧ List.Forall₂ (SameChild g0 g g') c.vals c'.vals

theorem reps_merge {g0 g g' : Nat → Option Cont}
    (hold : ∀ a t, Reps g0 t a → ∃ c c', g a = some c ∧ g' a = some c' ∧ SameCont g0 g g' c c') :
    (∀ t : JVal, ∀ a, (∃ s, Reps g0 s a) → Reps g t a → Reps g' t a) ∧
    (∀ xs : List JVal, ∀ vs vs', RepsElems g xs vs → List.Forall₂ (SameChild g0 g g') vs vs' → RepsElems g' xs vs') ∧
    (∀ ms : List (Bytes × JVal), ∀ vs vs', RepsMembers g ms vs → List.Forall₂ (SameChild g0 g g') vs vs' → RepsMembers g' ms vs') := by
  have leaf : ∀ {a : Nat} {typ : Typ} {raw : Bytes}, (∃ s, Reps g0 s a) → g a = some ⟨typ, raw, []⟩ → g' a = some ⟨typ, raw, []⟩ := by
    rintro a typ raw ⟨s, hs⟩ hg
    obtain ⟨c, c', e1, e2, e3, e4, e5⟩ := hold a s hs
    rw [hg] at e1
    simp only [Option.some.injEq] at e1
    subst e1
    simp only [List.forall₂_nil_left_iff] at e5
    rw [e2]
    cases c'
    simp only at e3 e4 e5
    rw [← e3, ← e4, e5]
  have child : ∀ {t : JVal} {v v' : V}, (∀ a, (∃ s, Reps g0 s a) → Reps g t a → Reps g' t a) → SameChild g0 g g' v v' → Reps g t v.id → Reps g' t v'.id := by
    intro t v v' ih hs hr
    rcases hs.2 with ⟨he, h0⟩ | ⟨s, k1, k2⟩
    · rw [← he]; exact ih _ h0 hr
    · rw [reps_unique hr k1]; exact k2
  apply jval_ind
  · intro a h0 h; exact leaf h0 h
  · intro x a h0 h; cases x <;> exact leaf h0 h
  · intro x a h0 h; exact leaf h0 h
  · intro x a h0 h; exact leaf h0 h
  · rintro xs ih a ⟨s, hs⟩ ⟨vs, h1, h2⟩
    obtain ⟨c, c', e1, e2, e3, e4, e5⟩ := hold a s hs
    rw [h1] at e1
    simp only [Option.some.injEq] at e1
    subst e1
    refine ⟨c'.vals, ?_, ih vs _ h2 e5⟩
    rw [e2]
    cases c'
    simp only at e3 e4
    rw [← e3, ← e4]
  · rintro xs ih a ⟨s, hs⟩ ⟨vs, h1, h2⟩
    obtain ⟨c, c', e1, e2, e3, e4, e5⟩ := hold a s hs
    rw [h1] at e1
    simp only [Option.some.injEq] at e1
    subst e1
    refine ⟨c'.vals, ?_, ih vs _ h2 e5⟩
    rw [e2]
    cases c'
    simp only at e3 e4
    rw [← e3, ← e4]
  · intro vs vs' h hf
    have : vs = [] := h
    subst this
    simp only [List.forall₂_nil_left_iff] at hf
    exact hf
  · rintro x xs ih1 ih2 vs vs' ⟨id, ws, rfl, h1, h2⟩ hf
    obtain ⟨w, ws', k1, k2, rfl⟩ := List.forall₂_cons_left_iff.1 hf
    refine ⟨w.id, ws', ?_, child ih1 k1 h1, ih2 _ _ h2 k2⟩
    have := k1.1
    cases w
    simp only at this
    rw [← this]
  · intro vs vs' h hf
    have : vs = [] := h
    subst this
    simp only [List.forall₂_nil_left_iff] at hf
    exact hf
  · rintro k x xs ih1 ih2 vs vs' ⟨id, ws, rfl, h1, h2⟩ hf
    obtain ⟨w, ws', k1, k2, rfl⟩ := List.forall₂_cons_left_iff.1 hf
    refine ⟨w.id, ws', ?_, child ih1 k1 h1, ih2 _ _ h2 k2⟩
    have := k1.1
    cases w
    simp only at this
    rw [← this]

theorem sameChild_refl {g0 g g' : Nat → Option Cont} {vs : List V} (h : ∀ v ∈ vs, ∃ t, Reps g0 t v.id) : List.Forall₂ (SameChild g0 g g') vs vs :=
  List.forall₂_same.2 fun v hv => ⟨rfl, .inl ⟨rfl, h v hv⟩⟩

theorem sameCont_refl {g0 g g' : Nat → Option Cont} {c : Cont} (h : ∀ v ∈ c.vals, ∃ t, Reps g0 t v.id) : SameCont g0 g g' c c :=
  ⟨rfl, rfl, sameChild_refl h⟩

theorem forall₂_modify {R : V → V → Prop} {f f' : V → V} : ∀ {vs vs' : List V} (i : Nat), List.Forall₂ R vs vs' → (∀ v v', R v v' → R (f v) (f' v')) →
    List.Forall₂ R (vs.modify i f) (vs'.modify i f')
  | [], _, i, h, _ => by simp only [List.forall₂_nil_left_iff] at h; subst h; simp
  | v :: vs, _, i, h, hf => by
    obtain ⟨w, ws, k1, k2, rfl⟩ := List.forall₂_cons_left_iff.1 h
    cases i with
    | zero => exact .cons (hf _ _ k1) k2
    | succ i => exact .cons k1 (forall₂_modify i k2 hf)

theorem forall₂_set {R : V → V → Prop} {x x' : V} (hx : R x x') : ∀ {vs vs' : List V} (i : Nat), List.Forall₂ R vs vs' → List.Forall₂ R (vs.set i x) (vs'.set i x')
  | [], _, i, h => by simp only [List.forall₂_nil_left_iff] at h; subst h; simp
  | v :: vs, _, i, h => by
    obtain ⟨w, ws, k1, k2, rfl⟩ := List.forall₂_cons_left_iff.1 h
    cases i with
    | zero => exact .cons hx k2
    | succ i => exact .cons k1 (forall₂_set hx i k2)

theorem opCont_same {g0 g g' : Nat → Option Cont} {op : Op} {c : Cont} {ids ids' : List Nat} (h : ∀ v ∈ c.vals, ∃ t, Reps g0 t v.id)
    (hl : ids.length = op.vals.length) (hl' : ids'.length = op.vals.length)
    (hs : ∀ (i id id' : Nat), ids[i]? = some id → ids'[i]? = some id' → ∃ s, Reps g s id ∧ Reps g' s id') :
    SameCont g0 g g' (opCont op c ids) (opCont op c ids') := by
  have one : op.vals.length = 1 → ∃ s, Reps g s (ids.headD 0) ∧ Reps g' s (ids'.headD 0) := by
    intro he
    obtain ⟨i, rfl⟩ := List.length_eq_one_iff.1 (hl.trans he)
    obtain ⟨j, rfl⟩ := List.length_eq_one_iff.1 (hl'.trans he)
    exact hs 0 i j rfl rfl
  have sub : ∀ c' : Cont, (∀ v ∈ c'.vals, v ∈ c.vals) → SameCont g0 g g' c' c' := fun c' hc => sameCont_refl fun v hv => h v (hc v hv)
  cases op <;> simp only [opCont]
  case set m k v =>
    split
    · refine ⟨rfl, rfl, ?_⟩
      simp only [setKeyV]
      split
      · exact forall₂_modify _ (sameChild_refl h) fun v v' hv => ⟨hv.1, .inr (one rfl)⟩
      · refine List.rel_append (sameChild_refl h) (.cons ⟨rfl, .inr (one rfl)⟩ .nil)
    · exact sub _ fun _ hv => hv
  case append m vs =>
    split
    · refine ⟨rfl, rfl, List.rel_append (sameChild_refl h) ?_⟩
      rw [List.forall₂_map_left_iff, List.forall₂_map_right_iff, List.forall₂_iff_get]
      refine ⟨by omega, ?_⟩
      intro i h1 h2
      exact ⟨rfl, .inr (hs i _ _ (List.getElem?_eq_getElem h1) (List.getElem?_eq_getElem h2))⟩
    · exact sub _ fun _ hv => hv
  case replace m i v =>
    split
    · refine ⟨rfl, rfl, ?_⟩
      exact forall₂_set ⟨rfl, .inr (one rfl)⟩ _ (sameChild_refl h)
    · exact sub _ fun _ hv => hv
  case slice m i j =>
    refine sub _ fun v hv => ?_
    simp only [A.sliceF] at hv
    split at hv
    · exact List.mem_of_mem_take (List.mem_of_mem_drop hv)
    · exact hv
  case remove m i =>
    refine sub _ fun v hv => ?_
    simp only [A.removeF] at hv
    split at hv
    · exact List.mem_of_mem_eraseIdx hv
    · exact hv
  case del m k =>
    refine sub _ fun v hv => ?_
    simp only [A.delF] at hv
    split at hv
    · split at hv
      · rename_i i hi
        have hv := List.mem_of_mem_take hv
        rcases List.mem_or_eq_of_mem_set hv with hv | hv
        · exact hv
        · have hlt := (List.findIdx?_eq_some_iff_getElem.1 hi).1
          rw [hv, List.getD, List.getElem?_eq_getElem (by show _ - 1 < _; omega)]
          exact List.getElem_mem _
      · exact hv
    · exact hv
  case setScalar m t b => exact sub _ fun v hv => by simp at hv
  all_goals exact sub _ fun _ hv => hv

/-! ## two edits -/

/-- what is left of an edit of `n` when another edit has come before or after it -/
def After (a : AH) (op : Op) (r : Ref) (n : Nat) (c : Cont) (ts : List JVal) : Prop :=
  ((∀ ids, opCont op c ids = c) ∧ A.cont a r n = some c) ∨
    ∃ ids, A.cont a r n = some (opCont op c ids) ∧ ids.length = ts.length ∧
      ∀ (i : Nat) (t : JVal) (id : Nat), ts[i]? = some t → ids[i]? = some id → Reps (A.cont a r) t id

theorem EditEff.after {a a' : AH} {fuel : Nat} {op : Op} {r : Ref} {n : Nat} {c : Cont} {ts : List JVal} (h : EditEff a a' op r n c ts)
    (hyp : ValsFit a fuel r n op.vals ts) : After a' op r n c ts := by
  rcases h.2 with h1 | ⟨ids, h1, h2, h3⟩
  · exact .inl h1
  · refine .inr ⟨ids, h1, h2, ?_⟩
    intro i t id g1 g2
    have hlt : i < op.vals.length := by
      rw [hyp.1]
      exact (List.getElem?_eq_some_iff.1 g1).1
    exact (h3 i _ t id (List.getElem?_eq_getElem hlt) g1 g2).1

/-- an edit of another node leaves it as it is -/
theorem EditEff.after_local {a a' a'' : AH} {fuel : Nat} {op : Op} {r r2 : Ref} {n n2 : Nat} {c : Cont} {ts : List JVal} (h : EditEff a a' op r n c ts)
    (hyp : ValsFit a fuel r n op.vals ts) (hn : n < (a r).nodes.length) (hl : Local a' a'' r2 n2) (hne : ¬ (r2 = r ∧ n2 = n)) (hn2 : n2 < (a r2).nodes.length)
    (hv : ∀ v ∈ op.vals, A.document a v = some r2 → ¬ Reach (A.cont a r2) v.id n2) : After a'' op r n c ts := by
  have hcont : A.cont a'' r n = A.cont a' r n := by
    by_cases hr : r2 = r
    · subst hr
      exact hl.old n (Nat.lt_of_lt_of_le hn h.1.len) fun he => hne ⟨rfl, he.symm⟩
    · unfold A.cont; rw [hl.other r fun he => hr he.symm]
  rcases h.2 with ⟨h1, h2⟩ | ⟨ids, h1, h2, h3⟩
  · exact .inl ⟨h1, by rw [hcont, h2]⟩
  · refine .inr ⟨ids, by rw [hcont, h1], h2, ?_⟩
    intro i t id g1 g2
    have hlt : i < op.vals.length := by
      rw [hyp.1]
      exact (List.getElem?_eq_some_iff.1 g1).1
    obtain ⟨k1, k2⟩ := h3 i _ t id (List.getElem?_eq_getElem hlt) g1 g2
    refine hl.reps k1 ?_
    rintro rfl hr
    obtain ⟨k3, k4⟩ := k2 n2 hr hn2
    exact hv _ (List.getElem_mem _) k3 k4

theorem Local.fits {a a' : AH} {fuel : Nat} {r1 r : Ref} {n1 n : Nat} {vals : List Node} {ts : List JVal} (hl : Local a a' r1 n1)
    (hyp : ValsFit a fuel r n vals ts) (hv : ∀ v ∈ vals, A.document a v = some r1 → ¬ Reach (A.cont a r1) v.id n1) : ValsFit a' fuel r n vals ts := by
  refine ⟨hyp.1, ?_⟩
  intro i v t g1 g2
  obtain ⟨k1, q, k2, k3, k4⟩ := hyp.2 i v t g1 g2
  have hno : q = r1 → ¬ Reach (A.cont a r1) v.id n1 := fun he => hv v (List.mem_of_getElem? g1) (he ▸ k2)
  refine ⟨k1, q, by rw [hl.document, k2], hl.reps k3 hno, ?_⟩
  rintro rfl hr
  refine k4 rfl (reach_back hr fun j hj => ?_)
  by_cases hq : q = r1
  · subst hq
    exact hl.old j (reach_lt k3 hj) fun he => by subst he; exact hno rfl hj
  · unfold A.cont; rw [hl.other q hq]

/-- two results agree on the trees of the old nodes when they agree about the two edited nodes -/
theorem trees_agree {a b b' : AH} {op1 op2 : Op} {r1 r2 : Ref} {n1 n2 : Nat} {c1 c2 : Cont} {ts1 ts2 : List JVal}
    (h1 : A.cont a r1 n1 = some c1) (h2 : A.cont a r2 n2 = some c2)
    (l1 : op1.vals.length = ts1.length) (l2 : op2.vals.length = ts2.length)
    (o : ∀ r j, j < (a r).nodes.length → ¬ (r = r1 ∧ j = n1) → ¬ (r = r2 ∧ j = n2) → A.cont b r j = A.cont a r j)
    (o' : ∀ r j, j < (a r).nodes.length → ¬ (r = r1 ∧ j = n1) → ¬ (r = r2 ∧ j = n2) → A.cont b' r j = A.cont a r j)
    (e1 : After b op1 r1 n1 c1 ts1) (e2 : After b op2 r2 n2 c2 ts2) (e1' : After b' op1 r1 n1 c1 ts1) (e2' : After b' op2 r2 n2 c2 ts2)
    {r : Ref} {m : Nat} {t : JVal} (ht : Reps (A.cont a r) t m) {t' : JVal} (h : Reps (A.cont b r) t' m) : Reps (A.cont b' r) t' m := by
  have child : ∀ {q : Ref} {j : Nat} {s : JVal} {c : Cont}, Reps (A.cont a q) s j → A.cont a q j = some c → ∀ v ∈ c.vals, ∃ s, Reps (A.cont a q) s v.id := by
    intro q j s c hs hc v hv
    obtain ⟨s', k, _⟩ := (reps_reach_all _).1 s j hs v.id (.step hc hv (.refl _))
    exact ⟨s', k⟩
  have edited : ∀ {op : Op} {q : Ref} {n : Nat} {c : Cont} {ts : List JVal} {s : JVal}, op.vals.length = ts.length → A.cont a q n = some c → Reps (A.cont a q) s n →
      After b op q n c ts → After b' op q n c ts →
      ∃ d d', A.cont b q n = some d ∧ A.cont b' q n = some d' ∧ SameCont (A.cont a q) (A.cont b q) (A.cont b' q) d d' := by
    intro op q n c ts s hl hc hs k k'
    have hv := child hs hc
    rcases k with ⟨k1, k2⟩ | ⟨ids, k1, k2, k3⟩
    · rcases k' with ⟨_, k4⟩ | ⟨ids', k4, _, _⟩
      · exact ⟨c, c, k2, k4, sameCont_refl hv⟩
      · rw [k1] at k4
        exact ⟨c, c, k2, k4, sameCont_refl hv⟩
    · rcases k' with ⟨k4, k5⟩ | ⟨ids', k4, k5, k6⟩
      · rw [k4] at k1
        exact ⟨c, c, k1, k5, sameCont_refl hv⟩
      · refine ⟨_, _, k1, k4, opCont_same hv (k2.trans hl.symm) (k5.trans hl.symm) ?_⟩
        intro i id id' g g'
        have hlt : i < ts.length := by rw [← k2]; exact (List.getElem?_eq_some_iff.1 g).1
        exact ⟨ts[i], k3 i _ id (List.getElem?_eq_getElem hlt) g, k6 i _ id' (List.getElem?_eq_getElem hlt) g'⟩
  refine (reps_merge (g0 := A.cont a r) (g := A.cont b r) (g' := A.cont b' r) ?_).1 t' m ⟨t, ht⟩ h
  intro j s hs
  by_cases k1 : r = r1 ∧ j = n1
  · obtain ⟨rfl, rfl⟩ := k1
    exact edited l1 h1 hs e1 e1'
  by_cases k2 : r = r2 ∧ j = n2
  · obtain ⟨rfl, rfl⟩ := k2
    exact edited l2 h2 hs e2 e2'
  obtain ⟨c, hc⟩ := reps_some hs
  refine ⟨c, c, ?_, ?_, sameCont_refl (child hs hc)⟩
  · rw [o r j (reps_lt hs) k1 k2, hc]
  · rw [o' r j (reps_lt hs) k1 k2, hc]

/-! ## the trees afterwards exist -/

theorem arr_exists {g : Nat → Option Cont} {j : Nat} {vs : List V} (hc : g j = some ⟨tArray, [], vs⟩) (h : ∀ v ∈ vs, v.key = [] ∧ ∃ t, Reps g t v.id) :
    ∃ t, Reps g t j := by
  have : ∃ xs, RepsElems g xs vs := by
    clear hc
    induction vs with
    | nil => exact ⟨[], rfl⟩
    | cons v vs ih =>
      obtain ⟨xs, h1⟩ := ih fun w hw => h w (List.mem_cons_of_mem _ hw)
      obtain ⟨k, t, ht⟩ := h v (List.mem_cons_self ..)
      refine ⟨t :: xs, v.id, vs, ?_, ht, h1⟩
      cases v
      simp only at k
      rw [k]
  obtain ⟨xs, h1⟩ := this
  exact ⟨.arr xs, vs, hc, h1⟩

theorem obj_exists {g : Nat → Option Cont} {j : Nat} {vs : List V} (hc : g j = some ⟨tObject, [], vs⟩) (h : ∀ v ∈ vs, ∃ t, Reps g t v.id) :
    ∃ t, Reps g t j := by
  have : ∃ xs, RepsMembers g xs vs := by
    clear hc
    induction vs with
    | nil => exact ⟨[], rfl⟩
    | cons v vs ih =>
      obtain ⟨xs, h1⟩ := ih fun w hw => h w (List.mem_cons_of_mem _ hw)
      obtain ⟨t, ht⟩ := h v (List.mem_cons_self ..)
      exact ⟨(v.key, t) :: xs, v.id, vs, rfl, ht, h1⟩
  obtain ⟨xs, h1⟩ := this
  exact ⟨.obj xs, vs, hc, h1⟩

theorem scalar_exists {g : Nat → Option Cont} {j : Nat} {typ : Typ} {raw : Bytes} (hc : g j = some ⟨typ, raw, []⟩)
    (h : (typ = tNull ∧ raw = b!"null") ∨ (typ = tBoolean ∧ (raw = b!"true" ∨ raw = b!"false")) ∨ typ = tNumber ∨ typ = tString) : ∃ t, Reps g t j := by
  rcases h with ⟨rfl, rfl⟩ | ⟨rfl, rfl | rfl⟩ | rfl | rfl
  · exact ⟨.null, hc⟩
  · exact ⟨.bool true, hc⟩
  · exact ⟨.bool false, hc⟩
  · exact ⟨.num raw, hc⟩
  · exact ⟨.str raw, hc⟩

/-- what an edit can make of a node -/
theorem opCont_cases (op : Op) (c : Cont) (ids : List Nat) (hl : ids.length = op.vals.length) :
    (∃ n typ raw, op = .setScalar n typ raw ∧ opCont op c ids = ⟨typ, raw, []⟩) ∨
    ((opCont op c ids).typ = c.typ ∧ (opCont op c ids).raw = c.raw ∧
      ((opCont op c ids).vals ≠ c.vals → c.typ = tArray ∨ c.typ = tObject) ∧
      ∀ v ∈ (opCont op c ids).vals, v ∈ c.vals ∨ (v.id ∈ ids ∧ (c.typ = tArray → v.key = []))) := by
  have one : op.vals.length = 1 → ids.headD 0 ∈ ids := by
    intro he
    obtain ⟨i, rfl⟩ := List.length_eq_one_iff.1 (hl.trans he)
    simp
  have idle : c.typ = c.typ ∧ c.raw = c.raw ∧ (c.vals ≠ c.vals → c.typ = tArray ∨ c.typ = tObject) ∧
      ∀ v ∈ c.vals, v ∈ c.vals ∨ (v.id ∈ ids ∧ (c.typ = tArray → v.key = [])) := ⟨rfl, rfl, fun h => absurd rfl h, fun v hv => .inl hv⟩
  cases op <;> simp only [opCont]
  case setScalar m t b => exact .inl ⟨m, t, b, rfl, rfl⟩
  case set m k v =>
    right
    split
    · rename_i ht
      refine ⟨rfl, rfl, fun _ => .inr ht, ?_⟩
      intro w hw
      have hna : ¬ c.typ = tArray := by rw [ht]; decide
      simp only [setKeyV] at hw
      split at hw
      · obtain ⟨i, hi⟩ := List.mem_iff_getElem?.1 hw
        rename_i q _
        by_cases hiq : i = q
        · subst hiq
          rw [modify_eq] at hi
          cases hx : c.vals[i]? with
          | none => rw [hx] at hi; simp at hi
          | some x =>
            rw [hx] at hi
            simp only [Option.map_some, Option.some.injEq] at hi
            rw [← hi]
            exact .inr ⟨one rfl, fun h => absurd h hna⟩
        · rw [modify_ne _ _ hiq] at hi
          exact .inl (List.mem_of_getElem? hi)
      · rcases List.mem_append.1 hw with hw | hw
        · exact .inl hw
        · simp only [List.mem_singleton] at hw
          subst hw
          exact .inr ⟨one rfl, fun h => absurd h hna⟩
    · exact idle
  case append m vs =>
    right
    split
    · rename_i ht
      refine ⟨rfl, rfl, fun _ => .inl ht, ?_⟩
      intro w hw
      rcases List.mem_append.1 hw with hw | hw
      · exact .inl hw
      · obtain ⟨i, hi, rfl⟩ := List.mem_map.1 hw
        exact .inr ⟨hi, fun _ => rfl⟩
    · exact idle
  case replace m i v =>
    right
    split
    · rename_i ht
      refine ⟨rfl, rfl, fun _ => .inl ht.1, ?_⟩
      intro w hw
      rcases List.mem_or_eq_of_mem_set hw with hw | hw
      · exact .inl hw
      · subst hw
        exact .inr ⟨one rfl, fun _ => rfl⟩
    · exact idle
  case slice m i j =>
    right
    simp only [A.sliceF]
    split
    · rename_i ht
      exact ⟨rfl, rfl, fun _ => .inl ht.1, fun v hv => .inl (List.mem_of_mem_take (List.mem_of_mem_drop hv))⟩
    · exact idle
  case remove m i =>
    right
    simp only [A.removeF]
    split
    · rename_i ht
      exact ⟨rfl, rfl, fun _ => .inl ht.1, fun v hv => .inl (List.mem_of_mem_eraseIdx hv)⟩
    · exact idle
  case del m k =>
    right
    simp only [A.delF]
    split
    · rename_i ht
      split
      · rename_i i hi
        refine ⟨rfl, rfl, fun _ => .inr ht, fun v hv => .inl ?_⟩
        have hv := List.mem_of_mem_take hv
        rcases List.mem_or_eq_of_mem_set hv with hv | hv
        · exact hv
        · have hlt := (List.findIdx?_eq_some_iff_getElem.1 hi).1
          rw [hv, List.getD, List.getElem?_eq_getElem (by show _ - 1 < _; omega)]
          exact List.getElem_mem _
      · exact idle
    · exact idle
  all_goals exact .inr ⟨trivial, trivial, idle.2.2⟩

theorem after_exists {a b : AH} {op1 op2 : Op} {r1 r2 : Ref} {n1 n2 : Nat} {c1 c2 : Cont} {ts1 ts2 : List JVal}
    (h1 : A.cont a r1 n1 = some c1) (h2 : A.cont a r2 n2 = some c2)
    (l1 : op1.vals.length = ts1.length) (l2 : op2.vals.length = ts2.length) (z1 : SetsScalar op1) (z2 : SetsScalar op2)
    (o : ∀ r j, j < (a r).nodes.length → ¬ (r = r1 ∧ j = n1) → ¬ (r = r2 ∧ j = n2) → A.cont b r j = A.cont a r j)
    (e1 : After b op1 r1 n1 c1 ts1) (e2 : After b op2 r2 n2 c2 ts2) (r : Ref) :
    (∀ t : JVal, ∀ j, Reps (A.cont a r) t j → ∃ t', Reps (A.cont b r) t' j) := by
  -- the content of a node afterwards
  have key : ∀ {t : JVal} {j : Nat} {c : Cont}, Reps (A.cont a r) t j → A.cont a r j = some c →
      (∃ t', Reps (A.cont b r) t' j) ∨ ∃ ws, A.cont b r j = some ⟨c.typ, c.raw, ws⟩ ∧ (ws ≠ c.vals → c.typ = tArray ∨ c.typ = tObject) ∧
        ∀ v ∈ ws, v ∈ c.vals ∨ ((∃ t', Reps (A.cont b r) t' v.id) ∧ (c.typ = tArray → v.key = [])) := by
    intro t j c ht hc
    have edit : ∀ {op : Op} {q : Ref} {n : Nat} {d : Cont} {ts : List JVal}, op.vals.length = ts.length → SetsScalar op → A.cont a q n = some d → After b op q n d ts →
        (∃ t', Reps (A.cont b q) t' n) ∨ ∃ ws, A.cont b q n = some ⟨d.typ, d.raw, ws⟩ ∧ (ws ≠ d.vals → d.typ = tArray ∨ d.typ = tObject) ∧
        ∀ v ∈ ws, v ∈ d.vals ∨ ((∃ t', Reps (A.cont b q) t' v.id) ∧ (d.typ = tArray → v.key = [])) := by
      intro op q n d ts hl hz hd ha
      rcases ha with ⟨_, k2⟩ | ⟨ids, k1, k2, k3⟩
      · exact .inr ⟨d.vals, k2, fun h => absurd rfl h, fun v hv => .inl hv⟩
      · rcases opCont_cases op d ids (k2.trans hl.symm) with ⟨m, typ, raw, g1, g2⟩ | ⟨g1, g2, g3, g4⟩
        · rw [g2] at k1
          exact .inl (scalar_exists k1 (hz m typ raw g1))
        · refine .inr ⟨(opCont op d ids).vals, by rw [k1, ← g1, ← g2], g3, ?_⟩
          intro v hv
          rcases g4 v hv with hv | ⟨hv, hk⟩
          · exact .inl hv
          · obtain ⟨i, hi⟩ := List.mem_iff_getElem?.1 hv
            have hlt : i < ts.length := by rw [← k2]; exact (List.getElem?_eq_some_iff.1 hi).1
            exact .inr ⟨⟨_, k3 i _ _ (List.getElem?_eq_getElem hlt) hi⟩, hk⟩
    by_cases k1 : r = r1 ∧ j = n1
    · obtain ⟨rfl, rfl⟩ := k1
      rw [h1] at hc
      simp only [Option.some.injEq] at hc
      subst hc
      exact edit l1 z1 h1 e1
    by_cases k2 : r = r2 ∧ j = n2
    · obtain ⟨rfl, rfl⟩ := k2
      rw [h2] at hc
      simp only [Option.some.injEq] at hc
      subst hc
      exact edit l2 z2 h2 e2
    · exact .inr ⟨c.vals, by rw [o r j (reps_lt ht) k1 k2, hc], fun h => absurd rfl h, fun v hv => .inl hv⟩
  have leaf : ∀ {t : JVal} {j : Nat} {typ : Typ} {raw : Bytes}, Reps (A.cont a r) t j → A.cont a r j = some ⟨typ, raw, []⟩ → typ ≠ tArray → typ ≠ tObject →
      ((typ = tNull ∧ raw = b!"null") ∨ (typ = tBoolean ∧ (raw = b!"true" ∨ raw = b!"false")) ∨ typ = tNumber ∨ typ = tString) → ∃ t', Reps (A.cont b r) t' j := by
    intro t j typ raw ht hc na no hs
    rcases key ht hc with hx | ⟨ws, g1, g2, _⟩
    · exact hx
    · have : ws = [] := by
        by_contra hne
        rcases g2 hne with h | h
        · exact na h
        · exact no h
      subst this
      exact scalar_exists g1 hs
  refine (jval_ind (P := fun t => ∀ j, Reps (A.cont a r) t j → ∃ t', Reps (A.cont b r) t' j)
    (L := fun xs => ∀ vs, RepsElems (A.cont a r) xs vs → ∀ v ∈ vs, v.key = [] ∧ ∃ t', Reps (A.cont b r) t' v.id)
    (M := fun ms => ∀ vs, RepsMembers (A.cont a r) ms vs → ∀ v ∈ vs, ∃ t', Reps (A.cont b r) t' v.id) ?_ ?_ ?_ ?_ ?_ ?_ ?_ ?_ ?_ ?_).1
  · intro j h; exact leaf h h (by decide) (by decide) (by simp)
  · intro x j h; cases x <;> exact leaf h h (by decide) (by decide) (by simp)
  · intro x j h; exact leaf h h (by decide) (by decide) (by simp)
  · intro x j h; exact leaf h h (by decide) (by decide) (by simp)
  · rintro xs ih j ⟨vs, k1, k2⟩
    rcases key (t := .arr xs) ⟨vs, k1, k2⟩ k1 with hx | ⟨ws, g1, _, g3⟩
    · exact hx
    · refine arr_exists g1 fun v hv => ?_
      rcases g3 v hv with hv | ⟨hv, hk⟩
      · exact ih vs k2 v hv
      · exact ⟨hk rfl, hv⟩
  · rintro xs ih j ⟨vs, k1, k2⟩
    rcases key (t := .obj xs) ⟨vs, k1, k2⟩ k1 with hx | ⟨ws, g1, _, g3⟩
    · exact hx
    · refine obj_exists g1 fun v hv => ?_
      rcases g3 v hv with hv | ⟨hv, hk⟩
      · exact ih vs k2 v hv
      · exact hv
  · intro vs h v hv
    have : vs = [] := h
    subst this
    simp at hv
  · rintro x xs ih1 ih2 vs ⟨id, ws, rfl, k1, k2⟩ v hv
    rcases List.mem_cons.1 hv with rfl | hv
    · exact ⟨rfl, ih1 _ k1⟩
    · exact ih2 ws k2 v hv
  · intro vs h v hv
    have : vs = [] := h
    subst this
    simp at hv
  · rintro k x xs ih1 ih2 vs ⟨id, ws, rfl, k1, k2⟩ v hv
    rcases List.mem_cons.1 hv with rfl | hv
    · exact ih1 _ k1
    · exact ih2 ws k2 v hv

end Verif.Njson
