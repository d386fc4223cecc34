import Verif.Spec.New
import Verif.Props.Place
import Verif.Props.StrJson

/-!
# Properties C110 and C111: new values, and what inserting them does

C110: what the constructors of a document make. C111: an orphan of the same document is linked by an insertion,
everything else is copied.
-/

namespace Verif.Props
open Verif Verif.Spec Verif.Njson

theorem new_add (d : Doc) (c : New) : ∃ typ raw, c.run d = d.add typ raw ∧
    ∀ (g : Nat → Option Cont) (id : Nat), g id = some ⟨typ, raw, []⟩ → Reps g c.tree id := by
  cases c with
  | null => exact ⟨_, _, rfl, fun g id h => h⟩
  | false_ => exact ⟨_, _, rfl, fun g id h => h⟩
  | true_ => exact ⟨_, _, rfl, fun g id h => h⟩
  | textRaw s => exact ⟨_, _, rfl, fun g id h => h⟩
  | text s => exact ⟨_, _, rfl, fun g id h => h⟩
  | textHTML s => exact ⟨_, _, rfl, fun g id h => h⟩
  | number raw => exact ⟨_, _, rfl, fun g id h => h⟩
  | object => exact ⟨_, _, rfl, fun g id h => ⟨[], h, rfl⟩⟩
  | array => exact ⟨_, _, rfl, fun g id h => ⟨[], h, rfl⟩⟩

theorem new_abs {h : Heap} (hw : h.Wf) (r : Ref) (c : New) : ∃ typ raw,
    (c.call h r).1.abs = h.abs.set r { h.abs r with nodes := (h.abs r).nodes ++ [⟨typ, true, raw, []⟩] } ∧
    (c.call h r).2 = ⟨(h r).len, (h r).rev, some r⟩ ∧ (c.call h r).1.Wf ∧
    ∀ (g : Nat → Option Cont) (id : Nat), g id = some ⟨typ, raw, []⟩ → Reps g c.tree id := by
  obtain ⟨typ, raw, e, ht⟩ := new_add (h r) c
  obtain ⟨a1, a2⟩ := abs_add (hw r) typ raw
  unfold A.add at a2
  simp only [Prod.mk.injEq] at a2
  refine ⟨typ, raw, ?_, ?_, ?_, ht⟩
  · unfold New.call
    simp only
    rw [Heap.abs_set, e, a2.1]
    rfl
  · unfold New.call Heap.node
    simp only [Heap.set, if_true]
    rw [e, a2.2]
    have hr := congrArg AD.rev a2.1
    rw [show ((h r).add typ raw).1.rev = (h r).rev from hr]
    rw [show (h r).abs.nodes.length = (h r).len from view_length (hw r)]
  · unfold New.call
    simp only
    rw [e]
    exact hw.set r a1

/-- **C110**: a constructor of document `r` makes the value it names as a node that did not exist before; every tree of every
document stays as it was and does not contain the new node. -/
theorem C110_new (h : Heap) (hw : h.Wf) (r : Ref) (c : New) :
    Tree (c.call h r).1 (c.call h r).2 c.tree ∧ Dead h (c.call h r).2 ∧
    (∀ q, q ≠ r → (c.call h r).1 q = h q) ∧
    ∀ m t, Tree h m t → Tree (c.call h r).1 m t ∧ ¬ Contains (c.call h r).1 m (c.call h r).2 := by
  obtain ⟨typ, raw, e1, e2, e3, e4⟩ := new_abs hw r c
  have hl : (h.abs r).nodes.length = (h r).len := view_length (hw r)
  have hext := append_ext h.abs r [⟨typ, true, raw, []⟩]
  rw [← e1] at hext
  have hdoc : A.document h.abs (c.call h r).2 = some r := by
    rw [e2]; unfold A.document; simp only; rw [if_pos]; rfl
  refine ⟨?_, ?_, ?_, ?_⟩
  · rw [tree_abs]
    refine ⟨r, by rw [hext.document, hdoc], e4 _ _ ?_⟩
    rw [e1, e2]
    unfold A.cont lcont AH.set
    simp [← hl, ANode.cont]
  · unfold Dead
    have := abs_get h (c.call h r).2
    unfold A.get at this
    rw [hdoc] at this
    cases hg : (c.call h r).2.get h with
    | none => rfl
    | some x =>
      rw [hg, e2] at this
      simp only [A.getOf, Option.map_some] at this
      rw [List.getElem?_eq_none_iff.2 (by omega)] at this
      simp at this
  · intro q hq
    unfold New.call Heap.set
    simp only
    rw [if_neg hq]
  · intro m t ht
    rw [tree_abs] at ht
    obtain ⟨q, hq, hr⟩ := ht
    have ht1 : Reps (A.cont (c.call h r).1.abs q) t m.id := by
      by_cases hqr : q = r
      · subst hqr; exact hext.reps hr
      · apply reps_congr hr
        intro j _
        unfold A.cont; rw [hext.other q hqr]
    refine ⟨tree_abs.2 ⟨q, by rw [hext.document, hq], ht1⟩, ?_⟩
    rintro ⟨q', d1, d2, hreach⟩
    rw [abs_document, hext.document, hq] at d1
    rw [abs_document, hext.document, hdoc] at d2
    simp only [Option.some.injEq] at d1 d2
    subst d1 d2
    rw [abs_cont] at hreach
    have hlt := reach_lt hr (reach_back hreach (hext.agree hr))
    rw [e2] at hlt
    simp only at hlt
    omega

/-- **C110, reading**: the new node writes the text of the value, and `Text(s)` and `TextHTML(s)` read back as `s`. -/
theorem C110_reads (h : Heap) (hw : h.Wf) (r : Ref) (c : New) :
    (∀ dst fuel, 1 ≤ fuel → (c.call h r).2.appendJSON (c.call h r).1 fuel dst = some (dst ++ c.tree.ser, false)) ∧
    ∀ s, ValidUtf8 s → c = .text s ∨ c = .textHTML s → (c.call h r).2.unescaped (c.call h r).1 = s := by
  have ht := (C110_new h hw r c).1
  refine ⟨fun dst fuel hf => C21_appendJSON _ _ _ dst ht fuel (by cases c <;> exact hf), ?_⟩
  rintro s hs hc
  obtain ⟨q, d, _, _, hg, hg', hr⟩ := tree_cont ht
  have key : ∀ html, c.tree = .str (StrJson.escaped s html false) → (c.call h r).2.unescaped (c.call h r).1 = s := by
    intro html he
    rw [he] at hr
    obtain ⟨e1, e2, _⟩ := cont_get hr hg'
    unfold Node.unescaped
    rw [hg]
    simp only
    rw [if_pos e1, e2]
    exact C01_roundtrip s html hs
  rcases hc with rfl | rfl
  · exact key false rfl
  · exact key true rfl

/-- **C110, Root**: on an empty document `Root` is a dead node, and the first value made, by a constructor or by `Parse`, is
the root. -/
theorem C110_root (h : Heap) (hw : h.Wf) (r : Ref) (he : (h r).len = 0) :
    Dead h (h.root r) ∧ (∀ c : New, (c.call h r).1.root r = (c.call h r).2) ∧
    ∀ s id tail, (h.parse r s).2.2 = .ok id tail → (h.parse r s).1.root r = (h.parse r s).2.1 := by
  have hl : (h.abs r).nodes.length = (h r).len := view_length (hw r)
  refine ⟨?_, ?_, ?_⟩
  · unfold Dead Node.get Node.document Heap.root
    simp only [if_true]
    unfold Doc.get
    rw [if_neg (by omega)]
  · intro c
    obtain ⟨typ, raw, e1, e2, _, _⟩ := new_abs hw r c
    have hr : ((c.call h r).1 r).rev = (h r).rev := by
      have := congrArg (fun a : AH => (a r).rev) e1
      simp only [AH.set, if_true] at this
      exact this
    unfold Heap.root
    rw [hr, e2, he]
  · intro s id tail hp
    rcases C16_node (hw r) s with ⟨d', id', j, tail', hps, e⟩ | ⟨_, d', out, e, hne⟩
    · obtain ⟨b1, b2⟩ := abs_parse (hw r) s
      have hrev := (C17_parse_frame (h r) (hw r) s).2.2
      rw [e]
      have hid : id' = 0 := by
        have h1 : (h.parse r s).2.2 = ((h r).parse s).2 := by
          unfold Heap.parse; simp only
          split <;> simp_all
        have h2 := congrArg Prod.snd b2
        simp only at h2
        rw [← h1, e] at h2
        unfold A.parse at h2
        have hn : (h r).abs.nodes.length = 0 := by rw [← he]; exact hl
        split at h2 <;> simp at h2
        rw [h2.1, hn]
      have hd : d'.rev = (h r).rev := by rw [hps.1] at hrev; exact hrev
      unfold Heap.root
      simp only [Heap.set, if_true]
      rw [hd, hid]
    · rw [e] at hp
      exact absurd hp (hne id tail)

/-! ## C111 -/

theorem adopted_abs {h : Heap} {n v : Node} {r r' : Ref} (hd : n.document h = some r) (hdv : v.document h = some r') :
    Adopted h n v ↔ AdoptA h.abs r r' v.id n.id := by
  have hg := abs_getOf h (some r) v.id
  constructor
  · rintro ⟨q, d, h1, h2, h3, h4, h5, h6⟩
    rw [hd] at h1
    rw [hdv] at h2
    simp only [Option.some.injEq] at h1 h2
    subst h1 h2
    rw [show getOf h (some _) v.id = some d from h5] at hg
    exact ⟨rfl, h3, h4, d.abs, hg.symm, h6⟩
  · rintro ⟨rfl, h1, h2, x, hx, hx'⟩
    rw [show A.getOf h.abs (some r') v.id = some x from hx] at hg
    cases hg' : getOf h (some r') v.id with
    | none => rw [hg'] at hg; simp at hg
    | some d =>
      rw [hg'] at hg; simp only [Option.map_some, Option.some.injEq] at hg
      refine ⟨r', d, hd, hdv, h1, h2, hg', ?_⟩
      rw [← hg] at hx'; exact hx'

/-- the node that `copyOrAdopt` stores -/
theorem copyOrAdopt_id {a a1 : AH} {fuel : Nat} {r r' : Ref} {id to id1 : Nat} {x : ANode} (hx : A.getOf a (some r') id = some x)
    (hc : A.copyOrAdopt a fuel r (some r') id to = some (a1, id1)) :
    (AdoptA a r r' id to → id1 = id) ∧ (¬ AdoptA a r r' id to → id1 = (a r).nodes.length) := by
  unfold A.copyOrAdopt at hc
  rw [hx] at hc
  simp only at hc
  by_cases hcond : some r' = some r ∧ id ≠ to ∧ x.root = true ∧ id ≠ 0
  · rw [if_pos hcond] at hc
    simp only [Option.some.injEq, Prod.mk.injEq] at hc
    refine ⟨fun _ => hc.2.symm, fun hn => absurd ?_ hn⟩
    obtain ⟨he, h1, h2, h3⟩ := hcond
    simp only [Option.some.injEq] at he
    subst he
    exact ⟨rfl, h1, h3, x, hx, h2⟩
  · rw [if_neg hcond] at hc
    split at hc
    · simp at hc
    · rename_i d id2 he
      simp only [Option.some.injEq, Prod.mk.injEq] at hc
      refine ⟨?_, fun _ => ?_⟩
      · rintro ⟨rfl, h1, h2, y, hy, hy'⟩
        rw [show A.getOf a (some r') id = (a r').nodes[id]? from rfl, hy] at hx
        simp only [Option.some.injEq] at hx
        subst hx
        exact absurd ⟨rfl, h1, hy', h2⟩ hcond
      · rw [← hc.2]
        exact (ncopy_ext _ _ _ _ _ _ he).1

theorem findKey_setKeyV (k : Bytes) (id : Nat) : ∀ vs : List V, findKey k (setKeyV vs k id) = some id
  | [] => by simp [setKeyV, findKey]
  | v :: vs => by
    rw [setKeyV_cons]
    by_cases hk : v.key = k
    · rw [if_pos hk]; simp [findKey, hk]
    · rw [if_neg hk]; simp [findKey, hk, findKey_setKeyV k id vs]

theorem live_acont {h : Heap} {n : Node} (hl : ¬ Dead h n) : ∃ r x, A.document h.abs n = some r ∧ (h.abs r).nodes[n.id]? = some x ∧
    n.doc = some r ∧ A.get h.abs n = some x ∧ n.typ h = x.typ ∧ n.values h = x.vals := by
  cases hg : n.get h with
  | none => exact absurd hg hl
  | some d =>
    obtain ⟨r, h1, h2, h3⟩ := get_doc hg
    have hd : A.document h.abs n = some r := by
      unfold A.document; rw [h1]; simp only; rw [if_pos]; exact h2
    have ha := abs_get h n
    rw [hg] at ha
    simp only [Option.map_some] at ha
    have ha' := ha
    unfold A.get at ha'
    rw [hd] at ha'
    refine ⟨r, d.abs, hd, ha'.symm, h1, ha.symm, ?_, ?_⟩
    · unfold Node.typ; rw [hg]; rfl
    · unfold Node.values; rw [hg]; rfl

/-- what can be read from a node of which the abstract content is known -/
theorem reads_acont {h : Heap} {n : Node} {r : Ref} {c : Cont} (hd : A.document h.abs n = some r) (hc : A.cont h.abs r n.id = some c) :
    n.values h = c.vals ∧ (c.typ = tObject → ∀ k id, findKey k c.vals = some id → n.getKey h k = n.with_ id) ∧
    (c.typ = tArray → ∀ (i : Nat) v, c.vals[i]? = some v → n.index h i = n.with_ v.id) := by
  obtain ⟨x, hx, hxc⟩ := acont_some hc
  have hl : ¬ Dead h n := by
    intro hdead
    have := abs_get h n
    rw [aget_some hd hx, show n.get h = none from hdead] at this
    simp at this
  cases hg : n.get h with
  | none => exact absurd hg hl
  | some d =>
    have ha := abs_get h n
    rw [aget_some hd hx, hg] at ha
    simp only [Option.map_some, Option.some.injEq] at ha
    subst hxc
    subst ha
    refine ⟨by unfold Node.values; rw [hg]; rfl, ?_, ?_⟩
    · intro ht k id hk
      unfold Node.getKey
      rw [hg]
      simp only
      rw [if_pos (show d.typ = tObject from ht)]
      have hk' : findKey k d.values.vis = some id := hk
      rw [hk']
    · intro ht i v hv
      have hv' : d.values.vis[i]? = some v := hv
      unfold Node.index
      rw [hg]
      simp only
      have hlt := (List.getElem?_eq_some_iff.1 hv').1
      rw [if_pos ⟨ht, by omega, by omega⟩]
      simp only [Int.toNat_natCast]
      rw [hv']

theorem node_eq {a : AH} {n v : Node} {r : Ref} (hn : A.document a n = some r) (hv : A.document a v = some r) : n.with_ v.id = v := by
  unfold A.document at hn hv
  cases hd : n.doc with
  | none => rw [hd] at hn; simp at hn
  | some q =>
    cases he : v.doc with
    | none => rw [he] at hv; simp at hv
    | some q' =>
      rw [hd] at hn
      rw [he] at hv
      simp only at hn hv
      split at hn
      · split at hv
        · rename_i e1 e2
          simp only [Option.some.injEq] at hn hv
          subst hn hv
          cases v
          simp only at he e2
          unfold Node.with_
          simp only [Node.mk.injEq]
          exact ⟨trivial, by rw [← e1, e2], by rw [hd, he]⟩
        · simp at hv
      · simp at hn

theorem dead_fresh {h : Heap} {n : Node} {r : Ref} (hn : A.document h.abs n = some r) {id : Nat} (hid : (h.abs r).nodes.length ≤ id) :
    Dead h (n.with_ id) := by
  unfold Dead
  have ha := abs_get h (n.with_ id)
  unfold A.get at ha
  rw [show A.document h.abs (n.with_ id) = some r from hn] at ha
  simp only [A.getOf] at ha
  rw [show (n.with_ id).id = id from rfl, List.getElem?_eq_none_iff.2 hid] at ha
  cases hg : (n.with_ id).get h with
  | none => rfl
  | some x => rw [hg] at ha; simp at ha

/-- **C111, Set**: if the value is an orphan of the object's document, the member is that very node; otherwise it is a node that
did not exist before the call. -/
theorem C111_set (h : Heap) (hw : h.Wf) (fuel : Nat) (n v : Node) (k : Bytes) (hn : ¬ Dead h n) (ht : n.typ h = tObject) (hv : ¬ Dead h v)
    (hlen : ∀ r, (h r).len < maxUint) (h' : Heap) (hs : n.set h fuel k v = some h') :
    (Adopted h n v → n.getKey h' k = v) ∧ (¬ Adopted h n v → Dead h (n.getKey h' k)) := by
  obtain ⟨r, x, hd, hx, hdoc, hg, htyp, hvals⟩ := live_acont hn
  obtain ⟨r', y, hdv, hy, _, hgv, _, _⟩ := live_acont hv
  have hcom := (abs_nset hw fuel n k v).1
  rw [hs] at hcom
  simp only [Option.map_some] at hcom
  have hcom := hcom.symm
  unfold A.nset at hcom
  rw [hg, hdoc] at hcom
  simp only at hcom
  rw [if_pos (by rw [← htyp, ht]), hdv] at hcom
  split at hcom
  · simp at hcom
  · rename_i a1 id1 hc
    obtain ⟨k1, k2⟩ := copyOrAdopt_id (show A.getOf h.abs (some r') v.id = some y from hy) hc
    have hext := copyOrAdopt_ext hc
    have hl : (h.abs r).nodes.length = (h r).len := view_length (hw r)
    have hlt : id1 < maxUint := by
      have hr := hlen r
      by_cases had : AdoptA h.abs r r' v.id n.id
      · rw [k1 had]
        have := (List.getElem?_eq_some_iff.1 hy).1
        have h3 : r' = r := had.1
        subst h3
        omega
      · rw [k2 had]; omega
    rw [if_pos hlt] at hcom
    simp only [Option.some.injEq] at hcom
    have hnlt := (List.getElem?_eq_some_iff.1 hx).1
    have hc0 : A.cont h.abs r n.id = some x.cont := by unfold A.cont lcont; rw [hx]; rfl
    have hc1 : A.cont a1 r n.id = some x.cont := by rw [hext.old _ hnlt, hc0]
    obtain ⟨x1, hx1, hxc1⟩ := acont_some hc1
    have hd' : A.document h'.abs n = some r := by rw [← hcom, modify_document, hext.document, hd]
    have hc' : A.cont h'.abs r n.id = some (A.setF k id1 x1).cont := by rw [← hcom, modify_cont_eq hx1]
    have hty : (A.setF k id1 x1).cont.typ = tObject := by
      have := congrArg Cont.typ hxc1
      show x1.typ = tObject
      rw [show x1.typ = x.typ from this, ← htyp, ht]
    have hread := (reads_acont hd' hc').2.1 hty k id1 (findKey_setKeyV k id1 x1.vals)
    rw [hread, adopted_abs hd hdv]
    refine ⟨fun had => ?_, fun had => ?_⟩
    · rw [k1 had]
      have h3 : r' = r := had.1
      exact node_eq hd (h3 ▸ hdv)
    · rw [k2 had]
      exact dead_fresh hd (Nat.le_refl _)

/-- **C111, new values**: what a constructor returns is an orphan for every node that its document had before. -/
theorem C111_new (h : Heap) (hw : h.Wf) (r : Ref) (c : New) (n : Node) (hd : n.document h = some r) (hn : ¬ Dead h n) :
    ¬ Dead (c.call h r).1 n ∧ Adopted (c.call h r).1 n (c.call h r).2 := by
  obtain ⟨typ, raw, e1, e2, e3, _⟩ := new_abs hw r c
  have hl : (h.abs r).nodes.length = (h r).len := view_length (hw r)
  have hext := append_ext h.abs r [⟨typ, true, raw, []⟩]
  rw [← e1] at hext
  obtain ⟨q, x, hd', hx, _⟩ := live_acont hn
  rw [abs_document] at hd
  rw [hd] at hd'
  simp only [Option.some.injEq] at hd'
  subst hd'
  have hlt := (List.getElem?_eq_some_iff.1 hx).1
  have hdc : A.document h.abs (c.call h r).2 = some r := by
    rw [e2]; unfold A.document; simp only; rw [if_pos]; rfl
  have hd1 : A.document (c.call h r).1.abs n = some r := by rw [hext.document, hd]
  refine ⟨?_, (adopted_abs hd1 (by rw [abs_document, hext.document, hdc])).2 ⟨rfl, ?_, ?_, ⟨typ, true, raw, []⟩, ?_, rfl⟩⟩
  · intro hdead
    have ha := abs_get (c.call h r).1 n
    rw [show n.get (c.call h r).1 = none from hdead] at ha
    unfold A.get at ha
    rw [hd1, e1] at ha
    simp only [A.getOf, AH.set, if_true, Option.map_none] at ha
    rw [List.getElem?_append_left hlt, hx] at ha
    simp at ha
  · rw [e2]; simp only; omega
  · rw [e2]; simp only; omega
  · rw [e1, e2]
    simp [AH.set, ← hl]

/-- **C111, Replace**: the same for the element at position `i` of an array. -/
theorem C111_replace (h : Heap) (hw : h.Wf) (fuel : Nat) (n v : Node) (i : Nat) (hn : ¬ Dead h n) (ht : n.typ h = tArray) (hv : ¬ Dead h v)
    (hi : i < (n.values h).length) (hlen : ∀ r, (h r).len < maxUint) (h' : Heap) (hs : n.replace h fuel i v = some h') :
    (Adopted h n v → n.index h' i = v) ∧ (¬ Adopted h n v → Dead h (n.index h' i)) := by
  obtain ⟨r, x, hd, hx, hdoc, hg, htyp, hvals⟩ := live_acont hn
  obtain ⟨r', y, hdv, hy, _, hgv, _, _⟩ := live_acont hv
  have hcom := (abs_replace hw fuel n i v).1
  rw [hs] at hcom
  simp only [Option.map_some] at hcom
  have hcom := hcom.symm
  unfold A.replace at hcom
  rw [hg, hdoc] at hcom
  simp only at hcom
  rw [if_pos ⟨by rw [← htyp, ht], by omega, by rw [← hvals]; omega⟩, hdv] at hcom
  split at hcom
  · simp at hcom
  · rename_i a1 id1 hc
    obtain ⟨k1, k2⟩ := copyOrAdopt_id (show A.getOf h.abs (some r') v.id = some y from hy) hc
    have hext := copyOrAdopt_ext hc
    have hl : (h.abs r).nodes.length = (h r).len := view_length (hw r)
    have hlt : id1 < maxUint := by
      have hr := hlen r
      by_cases had : AdoptA h.abs r r' v.id n.id
      · rw [k1 had]
        have := (List.getElem?_eq_some_iff.1 hy).1
        have h3 : r' = r := had.1
        subst h3
        omega
      · rw [k2 had]; omega
    rw [if_pos hlt] at hcom
    simp only [Option.some.injEq] at hcom
    have hnlt := (List.getElem?_eq_some_iff.1 hx).1
    have hc0 : A.cont h.abs r n.id = some x.cont := by unfold A.cont lcont; rw [hx]; rfl
    have hc1 : A.cont a1 r n.id = some x.cont := by rw [hext.old _ hnlt, hc0]
    obtain ⟨x1, hx1, hxc1⟩ := acont_some hc1
    have hd' : A.document h'.abs n = some r := by rw [← hcom, modify_document, hext.document, hd]
    have hc' : A.cont h'.abs r n.id = some (A.replaceF i id1 x1).cont := by
      rw [← hcom, modify_cont_eq hx1, Int.toNat_natCast]
    have hty : (A.replaceF i id1 x1).cont.typ = tArray := by
      have := congrArg Cont.typ hxc1
      show x1.typ = tArray
      rw [show x1.typ = x.typ from this, ← htyp, ht]
    have hv1 : x1.vals = x.vals := congrArg Cont.vals hxc1
    have hget : (A.replaceF i id1 x1).cont.vals[i]? = some ⟨id1, []⟩ := by
      show (x1.vals.set i ⟨id1, []⟩)[i]? = _
      rw [List.getElem?_set_self (by rw [hv1, ← hvals]; exact hi)]
    have hread := (reads_acont hd' hc').2.2 hty i _ hget
    rw [hread, adopted_abs hd hdv]
    refine ⟨fun had => ?_, fun had => ?_⟩
    · simp only
      rw [k1 had]
      have h3 : r' = r := had.1
      exact node_eq hd (h3 ▸ hdv)
    · simp only
      rw [k2 had]
      exact dead_fresh hd (Nat.le_refl _)

/-- who is an orphan after one value was inserted -/
theorem adoptA_step {a a1 : AH} {fuel : Nat} {r r0 r' : Ref} {id0 to id1 id : Nat} {x0 x : ANode} (h0 : A.getOf a (some r0) id0 = some x0)
    (hx : A.getOf a (some r') id = some x) (hc : A.copyOrAdopt a fuel r (some r0) id0 to = some (a1, id1)) :
    AdoptA a1 r r' id to ↔ AdoptA a r r' id to ∧ ¬ (AdoptA a r r0 id0 to ∧ id = id0) := by
  have hext := copyOrAdopt_ext hc
  have hback : AdoptA a1 r r' id to → AdoptA a r r' id to := by
    rintro ⟨rfl, h1, h2, y, hy, hy'⟩
    have hlt := (List.getElem?_eq_some_iff.1 (show (a r').nodes[id]? = some x from hx)).1
    obtain ⟨z, hz, hz'⟩ := hext.root id y hlt hy hy'
    exact ⟨rfl, h1, h2, z, hz, hz'⟩
  unfold A.copyOrAdopt at hc
  rw [h0] at hc
  simp only at hc
  by_cases hcond : some r0 = some r ∧ id0 ≠ to ∧ x0.root = true ∧ id0 ≠ 0
  · rw [if_pos hcond] at hc
    simp only [Option.some.injEq, Prod.mk.injEq] at hc
    obtain ⟨rfl, rfl⟩ := hc
    obtain ⟨he, g1, g2, g3⟩ := hcond
    simp only [Option.some.injEq] at he
    subst he
    constructor
    · intro hh
      refine ⟨hback hh, ?_⟩
      rintro ⟨_, rfl⟩
      obtain ⟨rfl, _, _, y, hy, hy'⟩ := hh
      rw [modify_nodes, modify_eq] at hy
      rw [show A.getOf a (some r') id = (a r').nodes[id]? from rfl] at h0
      rw [h0] at hy
      simp only [Option.map_some, Option.some.injEq] at hy
      subst hy
      simp at hy'
    · rintro ⟨⟨rfl, h1, h2, y, hy, hy'⟩, hne⟩
      have hid : id ≠ id0 := fun e => hne ⟨⟨rfl, g1, g3, x0, h0, g2⟩, e⟩
      refine ⟨rfl, h1, h2, y, ?_, hy'⟩
      rw [modify_nodes, modify_ne _ _ hid]
      exact hy
  · rw [if_neg hcond] at hc
    split at hc
    · simp at hc
    · rename_i d id2 he
      simp only [Option.some.injEq, Prod.mk.injEq] at hc
      obtain ⟨_, z, ns, rfl, _⟩ := ncopy_ext _ _ _ _ _ _ he
      obtain ⟨rfl, _⟩ := hc
      constructor
      · intro hh
        refine ⟨hback hh, ?_⟩
        rintro ⟨⟨rfl, g1, g2, y, hy, hy'⟩, rfl⟩
        rw [show A.getOf a (some r0) id = (a r0).nodes[id]? from rfl, hy] at h0
        simp only [Option.some.injEq] at h0
        subst h0
        exact hcond ⟨rfl, g1, hy', g2⟩
      · rintro ⟨⟨rfl, h1, h2, y, hy, hy'⟩, _⟩
        refine ⟨rfl, h1, h2, y, ?_, hy'⟩
        simp only [AH.set, if_true]
        rw [List.getElem?_append_left (List.getElem?_eq_some_iff.1 hy).1]
        exact hy

/-- the nodes that the loop of `Append` stores -/
theorem appendLoop_ids {fuel : Nat} {r : Ref} {to : Nat} : ∀ (vs : List Node) (a : AH) (vv : List V) (a' : AH) (vv' : List V),
    A.appendLoop fuel r to vs a vv = some (a', vv') →
    (∀ v ∈ vs, ∃ q x, A.document a v = some q ∧ (a q).nodes[v.id]? = some x) →
    ∃ ws, vv' = vv ++ ws ∧ ws.length = vs.length ∧ Ext a a' r ∧ ∀ (i : Nat) (v : Node) (w : V) (q : Ref), vs[i]? = some v → ws[i]? = some w →
      A.document a v = some q →
      (AdoptA a r q v.id to ∧ (∀ j, j < i → vs[j]? ≠ some v) → w.id = v.id) ∧
      (¬ (AdoptA a r q v.id to ∧ (∀ j, j < i → vs[j]? ≠ some v)) → (a r).nodes.length ≤ w.id)
  | [], a, vv, a', vv', he, _ => by
    simp only [A.appendLoop, Option.some.injEq, Prod.mk.injEq] at he
    obtain ⟨rfl, rfl⟩ := he
    exact ⟨[], by simp, rfl, .refl _ _, fun i v w q hv => by simp at hv⟩
  | v0 :: vs, a, vv, a', vv', he, hl => by
    obtain ⟨q0, x0, hd0, hx0⟩ := hl v0 List.mem_cons_self
    unfold A.appendLoop at he
    rw [hd0] at he
    split at he
    · simp at he
    · rename_i a1 id1 hc
      have hext := copyOrAdopt_ext hc
      have hlive1 : ∀ v ∈ vs, ∃ q x, A.document a1 v = some q ∧ (a1 q).nodes[v.id]? = some x := by
        intro v hv
        obtain ⟨q, x, h1, h2⟩ := hl v (by simp [hv])
        by_cases hq : q = r
        · subst hq
          have hlt := (List.getElem?_eq_some_iff.1 h2).1
          exact ⟨q, _, by rw [hext.document, h1], List.getElem?_eq_getElem (Nat.lt_of_lt_of_le hlt hext.len)⟩
        · exact ⟨q, x, by rw [hext.document, h1], by rw [hext.other q hq]; exact h2⟩
      obtain ⟨ws, e1, e2, e3, e4⟩ := appendLoop_ids vs a1 _ a' vv' he hlive1
      refine ⟨⟨id1, []⟩ :: ws, by rw [e1]; simp, by simp [e2], hext.trans e3, ?_⟩
      intro i v w q hv hw hd
      obtain ⟨k1, k2⟩ := copyOrAdopt_id (show A.getOf a (some q0) v0.id = some x0 from hx0) hc
      cases i with
      | zero =>
        simp only [List.getElem?_cons_zero, Option.some.injEq] at hv hw
        subst hv hw
        rw [hd0] at hd
        simp only [Option.some.injEq] at hd
        subst hd
        refine ⟨fun h => k1 h.1, fun h => ?_⟩
        rw [k2 (fun had => h ⟨had, fun j hj => by omega⟩)]
        exact Nat.le_refl _
      | succ i =>
        simp only [List.getElem?_cons_succ] at hv hw
        obtain ⟨q', x, hdv, hx⟩ := hl v (by simp [List.mem_of_getElem? hv])
        rw [hd] at hdv
        simp only [Option.some.injEq] at hdv
        subst hdv
        obtain ⟨f1, f2⟩ := e4 i v w q hv hw (by rw [hext.document, hd])
        have hiff := adoptA_step (to := to) (show A.getOf a (some q0) v0.id = some x0 from hx0) (show A.getOf a (some q) v.id = some x from hx) hc
        have hsame : (AdoptA a1 r q v.id to ∧ (∀ j, j < i → vs[j]? ≠ some v)) ↔
            (AdoptA a r q v.id to ∧ (∀ j, j < i + 1 → (v0 :: vs)[j]? ≠ some v)) := by
          rw [hiff]
          constructor
          · rintro ⟨⟨g1, g2⟩, g3⟩
            refine ⟨g1, fun j hj => ?_⟩
            cases j with
            | zero =>
              simp only [List.getElem?_cons_zero, ne_eq, Option.some.injEq]
              rintro rfl
              rw [hd0] at hd
              simp only [Option.some.injEq] at hd
              subst hd
              exact g2 ⟨g1, rfl⟩
            | succ j =>
              simp only [List.getElem?_cons_succ]
              exact g3 j (by omega)
          · rintro ⟨g1, g3⟩
            refine ⟨⟨g1, ?_⟩, fun j hj => ?_⟩
            · rintro ⟨g4, g5⟩
              have g6 := g3 0 (by omega)
              simp only [List.getElem?_cons_zero, ne_eq, Option.some.injEq] at g6
              apply g6
              have q1 : q = r := g1.1
              have q2 : q0 = r := g4.1
              subst q1
              have hh := node_eq (show A.document a v = some q from hd) (show A.document a v0 = some q from q2 ▸ hd0)
              rw [← g5] at hh
              rw [← hh]
              rfl
            · have := g3 (j + 1) (by omega)
              simpa using this
        rw [← hsame]
        exact ⟨f1, fun hh => Nat.le_trans hext.len (f2 hh)⟩

/-- **C111, Append**: of the nodes that `Append` is given, the orphans of the array's document become elements themselves, each of
them at its first occurrence; the other elements are nodes that did not exist before. -/
theorem C111_append (h : Heap) (hw : h.Wf) (fuel : Nat) (n : Node) (vs : List Node) (hn : ¬ Dead h n) (ht : n.typ h = tArray)
    (hv : ∀ v ∈ vs, ¬ Dead h v) (h' : Heap) (hs : n.append h fuel vs = some h') (i : Nat) (v : Node) (hi : vs[i]? = some v) :
    (Adopted h n v ∧ (∀ j, j < i → vs[j]? ≠ some v) → n.index h' ((n.values h).length + i : Nat) = v) ∧
    (¬ (Adopted h n v ∧ (∀ j, j < i → vs[j]? ≠ some v)) → Dead h (n.index h' ((n.values h).length + i : Nat))) := by
  obtain ⟨r, x, hd, hx, hdoc, hg, htyp, hvals⟩ := live_acont hn
  obtain ⟨r', y, hdv, hy, _, hgv, _, _⟩ := live_acont (hv v (List.mem_of_getElem? hi))
  have hcom := (abs_append hw fuel n vs).1
  rw [hs] at hcom
  simp only [Option.map_some] at hcom
  have hcom := hcom.symm
  unfold A.append at hcom
  have hne : ¬ vs.length = 0 := by
    intro h0
    have := (List.getElem?_eq_some_iff.1 hi).1
    omega
  rw [if_neg hne, hg, hdoc] at hcom
  simp only at hcom
  rw [if_pos (by rw [← htyp, ht])] at hcom
  split at hcom
  · simp at hcom
  · rename_i a1 vv hc
    simp only [Option.some.injEq] at hcom
    obtain ⟨ws, e1, e2, hext, e4⟩ := appendLoop_ids vs _ _ _ _ hc (by
      intro v hm
      obtain ⟨q, z, z1, z2, _⟩ := live_acont (hv v hm)
      exact ⟨q, z, z1, z2⟩)
    have hilt := (List.getElem?_eq_some_iff.1 hi).1
    obtain ⟨w, hwi⟩ : ∃ w, ws[i]? = some w := ⟨_, List.getElem?_eq_getElem (by omega)⟩
    obtain ⟨f1, f2⟩ := e4 i v w r' hi hwi hdv
    have hnlt := (List.getElem?_eq_some_iff.1 hx).1
    have hc0 : A.cont h.abs r n.id = some x.cont := by unfold A.cont lcont; rw [hx]; rfl
    have hc1 : A.cont a1 r n.id = some x.cont := by rw [hext.old _ hnlt, hc0]
    obtain ⟨x1, hx1, hxc1⟩ := acont_some hc1
    have hd' : A.document h'.abs n = some r := by rw [← hcom, modify_document, hext.document, hd]
    have hc' : A.cont h'.abs r n.id = some ⟨x1.typ, x1.raw, vv⟩ := by
      rw [← hcom, modify_cont_eq hx1]; rfl
    have hty : x1.typ = tArray := by
      have := congrArg Cont.typ hxc1
      rw [show x1.typ = x.typ from this, ← htyp, ht]
    have hget : vv[(n.values h).length + i]? = some w := by
      rw [e1, hvals, List.getElem?_append_right (by omega)]
      rw [show x.vals.length + i - x.vals.length = i by omega]
      exact hwi
    have hread := (reads_acont hd' hc').2.2 hty _ _ hget
    rw [hread, adopted_abs hd hdv]
    refine ⟨fun had => ?_, fun had => ?_⟩
    · rw [f1 had]
      have h3 : r' = r := had.1.1
      exact node_eq hd (h3 ▸ hdv)
    · exact dead_fresh hd (f2 had)

-- a text made in the document of the object is the member itself: setting it afterwards shows in the object; the parsed root of
-- another document is copied: setting it afterwards does not show
example : (runOps 9 [.parse 0 b!"{}", .add 0 tString b!"x", .set ⟨0, 0, some 0⟩ b!"k" ⟨1, 0, some 0⟩, .parse 1 b!"7",
      .set ⟨0, 0, some 0⟩ b!"l" ⟨0, 0, some 1⟩, .setScalar ⟨1, 0, some 0⟩ tNull b!"null", .setScalar ⟨0, 0, some 1⟩ tNull b!"null",
      .json ⟨0, 0, some 0⟩ [], .get ⟨0, 0, some 0⟩ b!"k", .get ⟨0, 0, some 0⟩ b!"l"] (fun _ => Doc.empty)).map (fun p => p.2.drop 7) =
    some [.json (b!"{\"k\":null,\"l\":7}", false), .node ⟨1, 0, some 0⟩, .node ⟨2, 0, some 0⟩] := by decide +kernel
-- one orphan appended twice: linked the first time, copied the second time
example : (runOps 9 [.parse 0 b!"[]", .add 0 tString b!"x", .append ⟨0, 0, some 0⟩ [⟨1, 0, some 0⟩, ⟨1, 0, some 0⟩],
      .index ⟨0, 0, some 0⟩ 0, .index ⟨0, 0, some 0⟩ 1] (fun _ => Doc.empty)).map (fun p => p.2.drop 3) =
    some [.node ⟨1, 0, some 0⟩, .node ⟨2, 0, some 0⟩] := by decide +kernel
-- the constructors on a document with one value
example : ((New.textHTML b!"<a>").call (fun _ => (Doc.empty.parse b!"1").1) 0).2 = ⟨1, 0, some 0⟩ ∧
    ((New.textHTML b!"<a>").call (fun _ => (Doc.empty.parse b!"1").1) 0).2.appendJSON
      ((New.textHTML b!"<a>").call (fun _ => (Doc.empty.parse b!"1").1) 0).1 1 [] = some (b!"\"\\u003ca\\u003e\"", false) := by
  decide +kernel

end Verif.Props
