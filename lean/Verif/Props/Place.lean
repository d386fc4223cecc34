import Verif.Proofs.Place
import Verif.Props.History

/-!
# Property C109: an edit changes a document exactly where the edited node is

C26 says which trees a mutation of `n` leaves alone: those without `n`. The theorems here say what becomes of the
others. The tree that the edit gives to `n` itself is stated by C22–C25 and C31.
-/

namespace Verif.Props
open Verif Verif.Spec Verif.Njson

theorem place_abs {h : Heap} {m n : Node} {p : List Nat} :
    Place h m p n ↔ ∃ r, A.document h.abs m = some r ∧ A.document h.abs n = some r ∧ LeadsTo (A.cont h.abs r) m.id p n.id := by
  unfold Place
  simp only [abs_document, abs_cont]

/-- what changes in the document of the edited node -/
theorem mutation_cont {h : Heap} (hw : h.Wf) {fuel : Nat} {op : Op} {n : Node} (hop : op.mutates n) (hns : ∀ k, op ≠ .strip n k)
    {h1 : Heap} {res : Res} (hrun : op.run fuel h = some (h1, res)) {m : Node} {t : JVal} {r : Ref}
    (hm : A.document h.abs m = some r) (hn : A.document h.abs n = some r) (ht : Reps (A.cont h.abs r) t m.id) :
    A.document h1.abs m = some r ∧ A.document h1.abs n = some r ∧
      ∀ j, Reach (A.cont h.abs r) m.id j → j ≠ n.id → A.cont h1.abs r j = A.cont h.abs r j := by
  rcases mutation_local hw hop hns hrun with he | ⟨r', hd, hl⟩
  · rw [he]; exact ⟨hm, hn, fun _ _ _ => rfl⟩
  · rw [hn] at hd
    simp only [Option.some.injEq] at hd
    subst hd
    exact ⟨by rw [hl.document, hm], by rw [hl.document, hn], fun j hj hne => hl.old j (reach_lt ht hj) hne⟩

/-- **C109**: if node `n` is at exactly one place of the tree of `m`, then after any single mutation of `n` (the setters,
Set, Append, Replace, Slice, Remove, Del) that gives `n` the tree `s`, the tree of `m` is its old tree with `s` at that
place and nothing else changed. -/
theorem C109_place (h : Heap) (hw : h.Wf) (fuel : Nat) (op : Op) (n : Node) (hop : op.mutates n) (hns : ∀ k, op ≠ .strip n k)
    (h1 : Heap) (res : Res) (hrun : op.run fuel h = some (h1, res)) (m : Node) (t s : JVal) (ht : Tree h m t) (hs : Tree h1 n s)
    (p : List Nat) (hp : Place h m p n) (hu : ∀ q, Place h m q n → q = p) : Tree h1 m (t.setAt p s) := by
  rw [tree_abs] at ht hs ⊢
  rw [place_abs] at hp
  obtain ⟨r, hm, hn, hat⟩ := hp
  obtain ⟨r1, hm1, ht⟩ := ht
  rw [hm] at hm1
  simp only [Option.some.injEq] at hm1
  subst hm1
  obtain ⟨k1, k2, k3⟩ := mutation_cont hw hop hns hrun hm hn ht
  obtain ⟨r2, hn1, hs⟩ := hs
  rw [k2] at hn1
  simp only [Option.some.injEq] at hn1
  subst hn1
  exact ⟨r, k1, reps_setAt hs p m.id t ht k3 hat fun q hq => hu q (place_abs.2 ⟨r, hm, hn, hq⟩)⟩

/-- **C109, shared nodes**: with any number of places of `n` in the tree of `m`, the new tree of `m` has `s` at each of them
and shows what it showed before at every place that is not at or below one of them. -/
theorem C109_places (h : Heap) (hw : h.Wf) (fuel : Nat) (op : Op) (n : Node) (hop : op.mutates n) (hns : ∀ k, op ≠ .strip n k)
    (h1 : Heap) (res : Res) (hrun : op.run fuel h = some (h1, res)) (m : Node) (t s : JVal) (ht : Tree h m t) (hs : Tree h1 n s) :
    ∃ t' : JVal, Tree h1 m t' ∧ (∀ p, Place h m p n → t'.at p = some s) ∧
      ∀ p, (∀ q, q <+: p → ¬ Place h m q n) → (t'.at p).map JVal.top = (t.at p).map JVal.top := by
  by_cases hc : Contains h m n
  · obtain ⟨r, hm, hn, hreach⟩ := hc
    rw [tree_abs] at ht hs
    obtain ⟨r1, hm1, ht⟩ := ht
    rw [abs_document] at hm hn
    rw [hm] at hm1
    simp only [Option.some.injEq] at hm1
    subst hm1
    obtain ⟨k1, k2, k3⟩ := mutation_cont hw hop hns hrun hm hn ht
    obtain ⟨r2, hn1, hs⟩ := hs
    rw [k2] at hn1
    simp only [Option.some.injEq] at hn1
    subst hn1
    obtain ⟨t', e1, e2, e3⟩ := (reps_places _ _ n.id s hs).1 t m.id ht k3
    refine ⟨t', tree_abs.2 ⟨r, k1, e1⟩, ?_, ?_⟩
    · intro p hp
      obtain ⟨r3, hm3, _, hat⟩ := place_abs.1 hp
      rw [hm] at hm3
      simp only [Option.some.injEq] at hm3
      subst hm3
      exact e2 p hat
    · intro p hp
      exact e3 p fun q hq hat => hp q hq (place_abs.2 ⟨r, hm, hn, hat⟩)
  · refine ⟨t, C26_frame h hw fuel op n hop hns h1 res hrun m t ht hc, ?_, fun _ _ => rfl⟩
    rintro p ⟨r, hm, hn, hat⟩
    exact absurd ⟨r, hm, hn, leads_reach hat⟩ hc

/-- **C109, trees**: in a document without sharing (C29) a node of a tree has exactly one place in it. -/
theorem C109_unique (h : Heap) (m n : Node) (t : JVal) (ht : Tree h m t) (hd : ∀ r, NoSharing (h r)) (hc : Contains h m n) :
    ∃ p, Place h m p n ∧ ∀ q, Place h m q n → q = p := by
  obtain ⟨r, hm, hn, hreach⟩ := hc
  obtain ⟨r1, hm1, ht⟩ := ht
  rw [hm] at hm1
  simp only [Option.some.injEq] at hm1
  subst hm1
  have loop : ∀ {a : Nat} {c : Cont} {v : V}, Reach (h r).cont m.id a → (h r).cont a = some c → v ∈ c.vals → ¬ Reach (h r).cont v.id a := by
    intro a c v ha hc hv
    obtain ⟨t', h1, _⟩ := (reps_reach_all _).1 t m.id ht a ha
    exact reps_child_no_loop h1 hc hv
  -- two children of one node below `m`, one of them below the other
  have sib : ∀ {a i j : Nat} {c : Cont} {v w : V}, Reach (h r).cont m.id a → (h r).cont a = some c → c.vals[i]? = some v → c.vals[j]? = some w →
      Reach (h r).cont v.id w.id → i = j := by
    intro a i j c v w ha hc hv hw hvw
    have hlast : ∀ {x y : Nat}, Reach (h r).cont x y → x = y ∨ ∃ (z : Nat) (k : Cont) (s : Nat) (u : V), Reach (h r).cont x z ∧ (h r).cont z = some k ∧ k.vals[s]? = some u ∧ u.id = y := by
      intro x y h
      induction h with
      | refl => exact Or.inl rfl
      | @step x y k v h1 h2 h3 ih =>
        obtain ⟨s, hs⟩ := List.mem_iff_getElem?.1 h2
        rcases ih with he | ⟨z, k', s', v', e1, e2, e3, e4⟩
        · exact Or.inr ⟨x, k, s, v, .refl _, h1, hs, he⟩
        · exact Or.inr ⟨z, k', s', v', .step h1 h2 e1, e2, e3, e4⟩
    rcases hlast hvw with he | ⟨z, k, s, u, e1, e2, e3, e4⟩
    · exact (hd r a a c c i j v w hc hc hv hw he).2
    · obtain ⟨hz, _⟩ := hd r z a k c s j u w e2 hc e3 hw e4
      subst hz
      exact absurd e1 (loop ha hc (List.mem_of_getElem? hv))
  have uniq : ∀ (p q : List Nat) (a : Nat), Reach (h r).cont m.id a → LeadsTo (h r).cont a p n.id → LeadsTo (h r).cont a q n.id → q = p := by
    intro p
    induction p with
    | nil =>
      intro q a ha hp hq
      cases hp
      cases hq with
      | here => rfl
      | child h1 h2 h3 => exact absurd (leads_reach h3) (loop ha h1 (List.mem_of_getElem? h2))
    | cons i p ih =>
      intro q a ha hp hq
      cases hq with
      | here =>
        cases hp with
        | child h1 h2 h3 => exact absurd (leads_reach h3) (loop ha h1 (List.mem_of_getElem? h2))
      | @child _ _ j q c w k1 k2 k3 =>
        cases hp with
        | @child _ _ _ _ c' v h1 h2 h3 =>
          rw [k1] at h1
          simp only [Option.some.injEq] at h1
          subst h1
          have hij : i = j := by
            rcases C29_disjoint (h r) (hd r) _ _ _ (leads_reach h3) (leads_reach k3) with hh | hh
            · exact sib ha k1 h2 k2 hh
            · exact (sib ha k1 k2 h2 hh).symm
          subst hij
          rw [k2] at h2
          simp only [Option.some.injEq] at h2
          subst h2
          rw [ih q w.id (ha.trans (.step k1 (List.mem_of_getElem? k2) (.refl _))) h3 k3]
  obtain ⟨p, hp⟩ := reach_leads hreach
  refine ⟨p, ⟨r, hm, hn, hp⟩, ?_⟩
  rintro q ⟨r', hm', _, hq⟩
  rw [hm] at hm'
  simp only [Option.some.injEq] at hm'
  subst hm'
  exact uniq p q m.id (.refl _) hp hq

/-- **C109, on the wire**: build documents by any call sequence that shares no node (C29), take a node `m` with tree `t` and
a node `n` in it, and edit `n` once so that its tree becomes `s`. Then there is one place, the place of `n` in `m`, such
that `m` now writes the text of `t` with `s` there. -/
theorem C109_json (fuel : Nat) (ops : List Op) (h0 h : Heap) (rs : List Res) (hw0 : h0.Wf) (hb : Blank h0)
    (hs0 : AllSteps (fun h op => LiveAppends h op ∧ TrueOrphans h op) fuel ops h0) (hr0 : runOps fuel ops h0 = some (h, rs))
    (op : Op) (n : Node) (hop : op.mutates n) (hns : ∀ k, op ≠ .strip n k) (h1 : Heap) (res : Res) (hrun : op.run fuel h = some (h1, res))
    (m : Node) (t s : JVal) (ht : Tree h m t) (hc : Contains h m n) (hs : Tree h1 n s) :
    ∃ p, (∀ q, Place h m q n ↔ q = p) ∧ ∀ (dst : Bytes) (k : Nat), (t.setAt p s).size ≤ k →
      m.appendJSON h1 k dst = some (dst ++ (t.setAt p s).ser, false) := by
  obtain ⟨p, hp, hu⟩ := C109_unique h m n t ht (C29_no_sharing_partial fuel ops h0 h rs hw0 hb hs0 hr0) hc
  refine ⟨p, fun q => ⟨hu q, fun e => e ▸ hp⟩, fun dst k hk => ?_⟩
  exact C21_appendJSON h1 m _ dst (C109_place h (runOps_wf hw0 hr0) fuel op n hop hns h1 res hrun m t s ht hs p hp hu) k hk

-- appending to the array at place [0, 1] of `{"a":[1,[2],3],"b":4}`
example : ((JVal.obj [(b!"a", .arr [.num b!"1", .arr [.num b!"2"], .num b!"3"]), (b!"b", .num b!"4")]).setAt [0, 1]
      (.arr [.num b!"2", .null])).ser = b!"{\"a\":[1,[2,null],3],\"b\":4}" ∧
    (runOps 9 [.parse 0 b!"{\"a\":[1,[2],3],\"b\":4}", .add 0 tNull b!"null", .append ⟨3, 0, some 0⟩ [⟨7, 0, some 0⟩], .json ⟨0, 0, some 0⟩ []]
      (fun _ => Doc.empty)).map (fun p => p.2.drop 3) = some [.json (b!"{\"a\":[1,[2,null],3],\"b\":4}", false)] := by
  decide +kernel

end Verif.Props
