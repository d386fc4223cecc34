import Verif.Proofs.Invar
import Verif.Props.Edit

/-!
# Properties C28, C29, C30: what call sequences can build

The three properties are false of the code in general: `copyOrAdopt` links a node that carries the root flag
instead of copying it, and does not look whether the target lies below that node (C28) or whether the node already
has a parent (C29); `Append` stores the id `maxUint` for a dead value (C30). Each negation is proved with a call
sequence. The `_partial` theorems name the calls that have to be avoided and prove the property for every call
sequence without them.
-/

namespace Verif.Props
open Verif Verif.Spec Verif.Njson

/-! ## lifting to call sequences -/

theorem live_abs {h : Heap} {op : Op} (hl : LiveAppends h op) : ALive h.abs op := by
  intro n vs he v hv
  have := hl n vs he v hv
  unfold Dead at this
  rw [← abs_get]
  cases hg : v.get h with
  | none => exact absurd hg this
  | some x => exact ⟨x.abs, rfl⟩

/-- an invariant of single documents, kept by every call that satisfies `P`, holds after a call sequence -/
theorem steps_inv {P : Heap → Op → Prop} {I : List ANode → Prop} {fuel : Nat}
    (hstep : ∀ h h' op res, h.Wf → P h op → op.run fuel h = some (h', res) → (∀ r, I (h.abs r).nodes) → ∀ r, I (h'.abs r).nodes) :
    ∀ (ops : List Op) (h h' : Heap) (rs : List Res), h.Wf → AllSteps P fuel ops h → runOps fuel ops h = some (h', rs) →
      (∀ r, I (h.abs r).nodes) → ∀ r, I (h'.abs r).nodes
  | [], h, h', rs, _, _, hr, hi => by simp [runOps] at hr; rw [← hr.1]; exact hi
  | op :: ops, h, h', rs, hw, hs, hr, hi => by
    unfold runOps at hr
    split at hr
    · simp at hr
    · rename_i h1 res he
      split at hr
      · simp at hr
      · rename_i h2 rs' hr'
        simp at hr
        rw [← hr.1]
        exact steps_inv hstep ops h1 h2 rs' (run_wf hw he) (hs.2 h1 res he) hr' (hstep h h1 op res hw hs.1 he hi)

theorem blank_nodes {h : Heap} (hb : Blank h) (r : Ref) : (h.abs r).nodes = [] := by
  show (h r).view = []
  unfold Doc.view; rw [hb r]; simp

theorem closed_nil : Closed [] := by intro x hx; simp [refs] at hx

theorem closed_live {h : Heap} (hc : ∀ r, Closed (h.abs r).nodes) {r : Ref} {i : Nat} {c : Cont} {v : V}
    (hi : (h r).cont i = some c) (hv : v ∈ c.vals) : ∃ c', (h r).cont v.id = some c' := by
  rw [abs_cont] at *
  have hlt : v.id < (h.abs r).nodes.length := hc r _ (lcont_refs (l := (h.abs r).nodes) hi hv)
  exact ⟨_, by unfold A.cont lcont; rw [List.getElem?_eq_getElem hlt]; rfl⟩

/-! ## C30 -/

/-- serialisation of a node all of whose descendants exist -/
theorem appendJSON_ok {get : Nat → Option NodeD} (hc : ∀ i n, get i = some n → ∀ v ∈ n.values.vis, ∃ m, get v.id = some m) :
    ∀ (fuel : Nat) (dst : Bytes) (i : Nat) (out : Bytes) (e : Bool), (∃ n, get i = some n) → appendJSON get fuel dst i = some (out, e) → e = false := by
  intro fuel
  induction fuel with
  | zero => intro dst i out e _ h; simp [appendJSON] at h
  | succ fuel ih =>
    have helems : ∀ (vs : List V) (first : Bool) (dst out : Bytes) (e : Bool), (∀ v ∈ vs, ∃ m, get v.id = some m) →
        appendElems (appendJSON get fuel) vs first dst = some (out, e) → e = false := by
      intro vs
      induction vs with
      | nil => intro first dst out e _ h; simp [appendElems] at h; exact h.2
      | cons v vs ihv =>
        intro first dst out e hl h
        unfold appendElems at h
        split at h
        · simp at h
        · rename_i hr; have := ih _ _ _ _ (hl v (by simp)) hr; simp at this
        · exact ihv _ _ _ _ (fun w hw => hl w (by simp [hw])) h
    have hmembers : ∀ (vs : List V) (first : Bool) (dst out : Bytes) (e : Bool), (∀ v ∈ vs, ∃ m, get v.id = some m) →
        appendMembers (appendJSON get fuel) vs first dst = some (out, e) → e = false := by
      intro vs
      induction vs with
      | nil => intro first dst out e _ h; simp [appendMembers] at h; exact h.2
      | cons v vs ihv =>
        intro first dst out e hl h
        unfold appendMembers at h
        split at h
        · simp at h
        · rename_i hr; have := ih _ _ _ _ (hl v (by simp)) hr; simp at this
        · exact ihv _ _ _ _ (fun w hw => hl w (by simp [hw])) h
    rintro dst i out e ⟨n, hn⟩ h
    unfold appendJSON at h
    rw [hn] at h
    simp only at h
    split at h
    · split at h
      · simp at h; exact h.2
      · exact hmembers _ _ _ _ _ (hc i n hn) h
    · split at h
      · split at h
        · simp at h; exact h.2
        · exact helems _ _ _ _ _ (hc i n hn) h
      · split at h <;> (simp at h; exact h.2)

/-- **C30 (partial)**: after any sequence of calls starting from empty documents in which `Append` is never given a dead
node, `AppendJSON` of a live node never reports an error: whenever it returns, the error is nil. `Set` and `Replace` may
be given dead nodes, and all nodes may be stale or invalid elsewhere. Missing: calls of `Append` with a dead value
(`C30_false`). -/
theorem C30_serialises_partial (fuel : Nat) (ops : List Op) (h0 h : Heap) (rs : List Res) (hw : h0.Wf) (hb : Blank h0)
    (hs : AllSteps LiveAppends fuel ops h0) (hr : runOps fuel ops h0 = some (h, rs)) (n : Node) (hn : ¬ Dead h n)
    (fuel' : Nat) (dst out : Bytes) (err : Bool) (he : n.appendJSON h fuel' dst = some (out, err)) : err = false := by
  have hc := steps_inv (I := Closed) (P := LiveAppends) (fuel := fuel) (by
    intro h h' op res hw hp hrun hi r
    exact eff_closed (run_eff (abs_run hw hrun) (live_abs hp) r) (hi r)) ops h0 h rs hw hs hr
    (fun r => by rw [blank_nodes hb]; exact closed_nil)
  unfold Node.appendJSON at he
  cases hg : n.get h with
  | none => exact absurd hg hn
  | some x =>
    rw [hg] at he
    simp only at he
    obtain ⟨r, h1, h2, h3⟩ := get_doc hg
    refine appendJSON_ok ?_ fuel' dst n.id out err ⟨x, ?_⟩ he
    · intro i m hm v hv
      rw [h1] at hm ⊢
      have hm' : (h r).get i = some m := hm
      obtain ⟨c', hc'⟩ := closed_live hc (r := r) (i := i) (c := ⟨m.typ, m.raw, m.values.vis⟩) (by unfold Doc.cont; rw [hm']; rfl) hv
      rw [doc_cont] at hc'
      obtain ⟨m', e1, _⟩ := contOf_some hc'
      exact ⟨m', e1⟩
    · rw [h1]; exact h3

/-- A heap of new documents. -/
def newHeap : Heap := fun _ => Doc.empty

theorem newHeap_wf : newHeap.Wf := fun _ => Nat.zero_le _
theorem newHeap_blank : Blank newHeap := fun _ => rfl

/-- **C30 is false** when `Append` is given the zero Node: serialising the array then fails. -/
theorem C30_false : ¬ ∀ (fuel : Nat) (ops : List Op) (h0 h : Heap) (rs : List Res) (n : Node) (dst out : Bytes) (err : Bool),
    h0.Wf → Blank h0 → runOps fuel ops h0 = some (h, rs) → ¬ Dead h n → n.appendJSON h fuel dst = some (out, err) → err = false := by
  intro hall
  have hr := hall 9 [.add 0 tArray [], .append ⟨0, 0, some 0⟩ [Node.zero]] newHeap _ _ ⟨0, 0, some 0⟩ [] b!"[" true
    newHeap_wf newHeap_blank rfl (by unfold Dead; decide +kernel) (by decide +kernel)
  simp at hr

-- a sequence within C30_serialises_partial: parse, build, edit with a stale node passed to Set, serialise
example : AllSteps LiveAppends 20
    [.parse 0 b!"{\"a\":[1]}", .add 0 tArray [], .append ⟨3, 0, some 0⟩ [⟨2, 0, some 0⟩, ⟨1, 0, some 0⟩], .set ⟨0, 0, some 0⟩ b!"b" Node.zero,
      .set ⟨0, 0, some 0⟩ b!"b" ⟨3, 0, some 0⟩] newHeap ∧
    (runOps 20 [.parse 0 b!"{\"a\":[1]}", .add 0 tArray [], .append ⟨3, 0, some 0⟩ [⟨2, 0, some 0⟩, ⟨1, 0, some 0⟩], .set ⟨0, 0, some 0⟩ b!"b" Node.zero,
      .set ⟨0, 0, some 0⟩ b!"b" ⟨3, 0, some 0⟩, .json ⟨0, 0, some 0⟩ []] newHeap).map (·.2.getLast?) =
      some (some (.json (b!"{\"a\":[1],\"b\":[1,[1]]}", false))) := by
  refine ⟨?_, by decide +kernel⟩
  refine ⟨by intro n vs he; simp at he, ?_⟩
  rintro h1 _ e1; simp only [Op.run, Option.some.injEq, Prod.mk.injEq] at e1; obtain ⟨rfl, _⟩ := e1
  refine ⟨by intro n vs he; simp at he, ?_⟩
  rintro h2 _ e2; simp only [Op.run, Option.some.injEq, Prod.mk.injEq] at e2; obtain ⟨rfl, _⟩ := e2
  refine ⟨?_, ?_⟩
  · intro n vs he v hv
    simp at he
    obtain ⟨rfl, rfl⟩ := he
    unfold Dead
    simp at hv
    rcases hv with rfl | rfl <;> decide +kernel
  · intro h3 _ _
    exact ⟨by intro n vs he; simp at he, fun _ _ _ => ⟨by intro n vs he; simp at he, fun _ _ _ => trivial⟩⟩

/-! ## C28 -/

/-- serialisation of a node without infinite chains returns for all large enough fuel -/
theorem appendJSON_terminates {get : Nat → Option NodeD} {i : Nat} (hf : FiniteAt (contOf get) i) :
    ∃ F, ∀ fuel, F ≤ fuel → ∀ dst, (appendJSON get fuel dst i).isSome = true := by
  induction hf with
  | mk i hyp ih =>
    cases hg : get i with
    | none =>
      refine ⟨1, fun fuel hF dst => ?_⟩
      obtain ⟨k, rfl⟩ : ∃ k, fuel = k + 1 := ⟨fuel - 1, by omega⟩
      unfold appendJSON; rw [hg]; rfl
    | some n =>
      have hc : contOf get i = some ⟨n.typ, n.raw, n.values.vis⟩ := by unfold contOf; rw [hg]; rfl
      have hyp' := ih _ hc
      simp only at hyp'
      have hF : ∀ vs : List V, (∀ v ∈ vs, ∃ F, ∀ fuel, F ≤ fuel → ∀ dst, (appendJSON get fuel dst v.id).isSome = true) →
          ∃ F, ∀ fuel, F ≤ fuel → ∀ v ∈ vs, ∀ dst, (appendJSON get fuel dst v.id).isSome = true := by
        intro vs
        induction vs with
        | nil => intro _; exact ⟨0, by simp⟩
        | cons v vs ihv =>
          intro h
          obtain ⟨F1, h1⟩ := h v (by simp)
          obtain ⟨F2, h2⟩ := ihv fun w hw => h w (by simp [hw])
          refine ⟨max F1 F2, fun fuel hF w hw dst => ?_⟩
          rcases List.mem_cons.1 hw with rfl | hw
          · exact h1 fuel (by omega) dst
          · exact h2 fuel (by omega) w hw dst
      obtain ⟨F, hF⟩ := hF n.values.vis hyp'
      have helems : ∀ (rec : Bytes → Nat → Option (Bytes × Bool)) (vs : List V), (∀ v ∈ vs, ∀ dst, (rec dst v.id).isSome = true) →
          ∀ first dst, (appendElems rec vs first dst).isSome = true := by
        intro rec vs
        induction vs with
        | nil => intro _ first dst; rfl
        | cons v vs ihv =>
          intro h first dst
          unfold appendElems
          have := h v (by simp) (if first = true then dst else dst ++ [44])
          split
          · rename_i hn; rw [hn] at this; simp at this
          · rfl
          · exact ihv (fun w hw => h w (by simp [hw])) _ _
      have hmem : ∀ (rec : Bytes → Nat → Option (Bytes × Bool)) (vs : List V), (∀ v ∈ vs, ∀ dst, (rec dst v.id).isSome = true) →
          ∀ first dst, (appendMembers rec vs first dst).isSome = true := by
        intro rec vs
        induction vs with
        | nil => intro _ first dst; rfl
        | cons v vs ihv =>
          intro h first dst
          unfold appendMembers
          have := h v (by simp) ((if first = true then dst else dst ++ [44]) ++ [34] ++ v.key ++ [34, 58])
          split
          · rename_i hn; rw [hn] at this; simp at this
          · rfl
          · exact ihv (fun w hw => h w (by simp [hw])) _ _
      refine ⟨F + 1, fun fuel hfuel dst => ?_⟩
      obtain ⟨k, rfl⟩ : ∃ k, fuel = k + 1 := ⟨fuel - 1, by omega⟩
      have hk := hF k (by omega)
      unfold appendJSON
      rw [hg]
      simp only
      split
      · split
        · rfl
        · exact hmem _ _ hk _ _
      · split
        · split
          · rfl
          · exact helems _ _ hk _ _
        · split <;> rfl

/-- adoptions on the abstract machine are adoptions -/
theorem adopt_conc {h : Heap} {r : Ref} {p : Node × Node} {w to : Nat} (h1 : A.document h.abs p.1 = some r) (h2 : p.1.id = to)
    (h3 : A.document h.abs p.2 = some r) (h4 : p.2.id = w) (h5 : AdoptA h.abs r r w to) : Adopted h p.1 p.2 := by
  subst h2; subst h4
  obtain ⟨_, h6, h7, x, hx, hx'⟩ := h5
  have hg := abs_getOf h (some r) p.2.id
  rw [show A.getOf h.abs (some r) p.2.id = some x from hx] at hg
  cases hg' : getOf h (some r) p.2.id with
  | none => rw [hg'] at hg; simp at hg
  | some d =>
    rw [hg'] at hg; simp at hg
    refine ⟨r, d, h1, h3, h6, h7, hg', ?_⟩
    rw [← hg] at hx'; exact hx'

/-- **C28 (partial)**: after any sequence of calls starting from empty documents in which no orphan is inserted below
itself and `Append` is not given dead nodes, every chain of child references ends, so `AppendJSON` of every node of
every document terminates. Missing: insertions of an orphan below itself (`C28_false`). -/
theorem C28_no_cycles_partial (fuel : Nat) (ops : List Op) (h0 h : Heap) (rs : List Res) (hw : h0.Wf) (hb : Blank h0)
    (hs : AllSteps (fun h op => LiveAppends h op ∧ NoLoops h op) fuel ops h0) (hr : runOps fuel ops h0 = some (h, rs)) :
    (∀ r id, FiniteAt (h r).cont id) ∧
    ∀ n : Node, ∃ F, ∀ fuel', F ≤ fuel' → ∀ dst, (n.appendJSON h fuel' dst).isSome = true := by
  have hc := steps_inv (I := fun l => Closed l ∧ AllFinite l) (P := fun h op => LiveAppends h op ∧ NoLoops h op) (fuel := fuel) (by
    intro h h' op res hw hp hrun hi r
    have heff := run_eff (abs_run hw hrun) (live_abs hp.1) r
    refine ⟨eff_closed heff (hi r).1, eff_finite heff (hi r).1 (hi r).2 ?_⟩
    rintro to w ⟨p, hm, h1, h2, h3, h4, h5⟩ hreach
    refine hp.2 p hm ⟨adopt_conc h1 h2 h3 h4 h5, r, h3, h1, ?_⟩
    rw [abs_cont, h2, h4]; exact hreach) ops h0 h rs hw hs hr
    (fun r => by rw [blank_nodes hb]; exact ⟨closed_nil, fun i => ⟨i, fun c hc => by simp [lcont] at hc⟩⟩)
  have hfin : ∀ r id, FiniteAt (h r).cont id := fun r id => by rw [abs_cont]; exact (hc r).2 id
  refine ⟨hfin, fun n => ?_⟩
  unfold Node.appendJSON
  cases hg : n.get h with
  | none => exact ⟨0, fun _ _ _ => rfl⟩
  | some x =>
    obtain ⟨r, h1, h2, h3⟩ := get_doc hg
    simp only
    rw [h1]
    exact appendJSON_terminates (hfin r n.id)

/-- two arrays that contain each other -/
theorem cycle_none {get : Nat → Option NodeD} {i j : Nat} {r r' : Bytes} {k k' : Bytes} (hi : contOf get i = some ⟨tArray, r, [⟨j, k⟩]⟩)
    (hj : contOf get j = some ⟨tArray, r', [⟨i, k'⟩]⟩) : ∀ fuel dst, appendJSON get fuel dst i = none ∧ appendJSON get fuel dst j = none := by
  intro fuel
  obtain ⟨n, n1, n2, n3, n4⟩ := contOf_some hi
  obtain ⟨m, m1, m2, m3, m4⟩ := contOf_some hj
  simp only at n2 n4 m2 m4
  induction fuel with
  | zero => intro dst; exact ⟨rfl, rfl⟩
  | succ fuel ih =>
    intro dst
    constructor
    · unfold appendJSON
      rw [n1]; simp only
      rw [if_neg (by rw [n2]; decide), if_pos n2, n4]
      simp only [appendElems]
      rw [(ih _).2]
    · unfold appendJSON
      rw [m1]; simp only
      rw [if_neg (by rw [m2]; decide), if_pos m2, m4]
      simp only [appendElems]
      rw [(ih _).1]

/-- three arrays in a document, `a` (1) appended to `b` (2) and `b` to `a` -/
def cycleOps : List Op :=
  [.add 0 tArray [], .add 0 tArray [], .add 0 tArray [], .append ⟨1, 0, some 0⟩ [⟨2, 0, some 0⟩], .append ⟨2, 0, some 0⟩ [⟨1, 0, some 0⟩]]

/-- **C28 is false**: after `a := d.Array(); b := d.Array(); a.Append(b); b.Append(a)` (in a document that has a root
already) `a` contains itself and `AppendJSON` never returns. -/
theorem C28_false : ¬ ∀ (fuel : Nat) (ops : List Op) (h0 h : Heap) (rs : List Res), h0.Wf → Blank h0 → runOps fuel ops h0 = some (h, rs) →
    ∀ n : Node, ∃ F dst, (n.appendJSON h F dst).isSome = true := by
  intro hall
  obtain ⟨F, dst, hF⟩ := hall 9 cycleOps newHeap _ _ newHeap_wf newHeap_blank rfl ⟨1, 0, some 0⟩
  revert hF
  unfold Node.appendJSON
  split
  · rw [(cycle_none (i := 1) (j := 2) (r := []) (r' := []) (k := []) (k' := []) (by decide +kernel) (by decide +kernel) F dst).1]
    simp
  · rename_i hg
    revert hg
    decide +kernel

/-! ## C29 -/

theorem nodup_refs_pos : ∀ {l : List ANode}, (refs l).Nodup → ∀ (i j a b : Nat) (x y : ANode) (v w : V), l[i]? = some x → l[j]? = some y →
    x.vals[a]? = some v → y.vals[b]? = some w → v.id = w.id → i = j ∧ a = b
  | [], _, i, j, a, b, x, y, v, w, hx, _, _, _, _ => by simp at hx
  | z :: l, hn, i, j, a, b, x, y, v, w, hx, hy, hv, hw, he => by
    rw [refs_cons, List.nodup_append] at hn
    obtain ⟨h1, h2, h3⟩ := hn
    have hin : ∀ (k : Nat) (y : ANode) (b : Nat) (w : V), l[k]? = some y → y.vals[b]? = some w → w.id ∈ refs l := fun k y b w hy hw =>
      mem_refs.2 ⟨y, List.mem_of_getElem? hy, w, List.mem_of_getElem? hw, rfl⟩
    have hz : ∀ (b : Nat) (w : V), z.vals[b]? = some w → w.id ∈ z.vals.map V.id := fun b w hw => List.mem_map.2 ⟨w, List.mem_of_getElem? hw, rfl⟩
    cases i with
    | zero =>
      simp at hx; subst hx
      cases j with
      | zero =>
        simp at hy; subst hy
        refine ⟨rfl, ?_⟩
        have ha := (List.getElem?_eq_some_iff.1 hv).1
        have hb := (List.getElem?_eq_some_iff.1 hw).1
        refine (List.getElem_inj (xs := z.vals.map V.id) (i := a) (j := b) (h₀ := by simpa using ha) (h₁ := by simpa using hb) h1).1 ?_
        rw [List.getElem_map, List.getElem_map]
        rw [List.getElem?_eq_getElem ha] at hv
        rw [List.getElem?_eq_getElem hb] at hw
        simp at hv hw
        rw [hv, hw, he]
      | succ j =>
        simp at hy
        exact absurd he (h3 _ (hz a v hv) _ (hin j y b w hy hw))
    | succ i =>
      simp at hx
      cases j with
      | zero =>
        simp at hy; subst hy
        exact absurd he.symm (h3 _ (hz b w hw) _ (hin i x a v hx hv))
      | succ j =>
        simp at hy
        obtain ⟨e1, e2⟩ := nodup_refs_pos h2 i j a b x y v w hx hy hv hw he
        exact ⟨by omega, e2⟩

/-- **C29 (partial)**: after any sequence of calls starting from empty documents in which every orphan that gets linked
has no parent yet and `Append` is not given dead nodes, no two child slots of a document refer to the same node.
Missing: orphans that have a parent (`C29_false`). -/
theorem C29_no_sharing_partial (fuel : Nat) (ops : List Op) (h0 h : Heap) (rs : List Res) (hw : h0.Wf) (hb : Blank h0)
    (hs : AllSteps (fun h op => LiveAppends h op ∧ TrueOrphans h op) fuel ops h0) (hr : runOps fuel ops h0 = some (h, rs)) (r : Ref) :
    NoSharing (h r) := by
  have hc := steps_inv (I := fun l => Closed l ∧ (refs l).Nodup) (P := fun h op => LiveAppends h op ∧ TrueOrphans h op) (fuel := fuel) (by
    intro h h' op res hw hp hrun hi r
    have heff := run_eff (abs_run hw hrun) (live_abs hp.1) r
    refine ⟨eff_closed heff (hi r).1, eff_nodup heff (hi r).1 (hi r).2 ?_⟩
    rintro to w ⟨p, hm, h1, h2, h3, h4, h5⟩ hmem
    refine hp.2 p hm (adopt_conc h1 h2 h3 h4 h5) r h3 ?_
    obtain ⟨x, hx, v, hv, he⟩ := mem_refs.1 hmem
    obtain ⟨i, hi⟩ := List.mem_iff_getElem?.1 hx
    refine ⟨i, x.cont, v, ?_, hv, by rw [h4, he]⟩
    rw [abs_cont]; unfold A.cont lcont; rw [hi]; rfl) ops h0 h rs hw hs hr
    (fun r => by rw [blank_nodes hb]; exact ⟨closed_nil, by simp [refs]⟩) r
  intro i j ci cj a b v w h1 h2 h3 h4 he
  rw [abs_cont] at h1 h2
  obtain ⟨x, hx, rfl⟩ := acont_some h1
  obtain ⟨y, hy, rfl⟩ := acont_some h2
  exact nodup_refs_pos hc.2 i j a b x y v w hx hy h3 h4 he

/-- **C29, consequence**: in a document without sharing two trees that have a node in common are nested, so a mutation below
one of two disjoint nodes is not below the other (and leaves its tree alone by C26). -/
theorem C29_disjoint (d : Doc) (hd : NoSharing d) (a b c : Nat) (h1 : Reach d.cont a c) (h2 : Reach d.cont b c) :
    Reach d.cont a b ∨ Reach d.cont b a := by
  -- follow the unique parents upwards from `c`
  have hlast : ∀ {x y : Nat}, Reach d.cont x y → x = y ∨ ∃ (z : Nat) (k : Cont) (s : Nat) (v : V), Reach d.cont x z ∧ d.cont z = some k ∧ k.vals[s]? = some v ∧ v.id = y := by
    intro x y h
    induction h with
    | refl => exact Or.inl rfl
    | @step x y k v h1 h2 h3 ih =>
      obtain ⟨s, hs⟩ := List.mem_iff_getElem?.1 h2
      rcases ih with he | ⟨z, k', s', v', e1, e2, e3, e4⟩
      · exact Or.inr ⟨x, k, s, v, .refl _, h1, hs, he⟩
      · exact Or.inr ⟨z, k', s', v', .step h1 h2 e1, e2, e3, e4⟩
  induction h1 with
  | refl a => exact Or.inr h2
  | @step a c k v e1 e2 e3 ih =>
    rcases ih h2 with h | h
    · exact Or.inl (.step e1 e2 h)
    · obtain ⟨s, hs⟩ := List.mem_iff_getElem?.1 e2
      rcases hlast h with he | ⟨z, k', s', v', f1, f2, f3, f4⟩
      · left; rw [he]; exact .step e1 e2 (.refl _)
      · obtain ⟨hz, _⟩ := hd z a k' k s' s v' v f2 e1 f3 hs f4
        right; rw [← hz]; exact f1

/-- A parsed root of another document is copied with its root flag; the copy is then linked a second time. -/
def shareOps : List Op :=
  [.add 0 tArray [], .add 0 tArray [], .parse 1 b!"[7]", .append ⟨0, 0, some 0⟩ [⟨0, 0, some 1⟩], .append ⟨1, 0, some 0⟩ [⟨2, 0, some 0⟩],
   .append ⟨2, 0, some 0⟩ [⟨1, 0, some 1⟩], .json ⟨0, 0, some 0⟩ [], .json ⟨1, 0, some 0⟩ []]

/-- **C29 is false**: `a.Append(other.Root()); b.Append(a.Index(0))` leaves one node with two parents, and a mutation
through it (the third append of `shareOps`) changes both `a` and `b`. -/
theorem C29_false : (¬ ∀ (fuel : Nat) (ops : List Op) (h0 h : Heap) (rs : List Res) (r : Ref), h0.Wf → Blank h0 →
      runOps fuel ops h0 = some (h, rs) → NoSharing (h r)) ∧
    (runOps 9 shareOps newHeap).map (fun p => p.2.drop 6) = some [.json (b!"[[7,7]]", false), .json (b!"[[7,7]]", false)] := by
  refine ⟨?_, by decide +kernel⟩
  intro hall
  have hc : (runOps 9 shareOps newHeap).map (fun p => ((p.1 0).cont 0, (p.1 0).cont 1)) =
      some (some ⟨tArray, [], [⟨2, []⟩]⟩, some ⟨tArray, [], [⟨2, []⟩]⟩) := by decide +kernel
  cases hr : runOps 9 shareOps newHeap with
  | none => rw [hr] at hc; simp at hc
  | some p =>
    rw [hr] at hc
    simp only [Option.map_some, Option.some.injEq, Prod.mk.injEq] at hc
    have hs := hall 9 shareOps newHeap p.1 p.2 0 newHeap_wf newHeap_blank hr 0 1 _ _ 0 0 ⟨2, []⟩ ⟨2, []⟩ hc.1 hc.2 rfl rfl rfl
    simp at hs

end Verif.Props
