import Verif.Props.New

/-! # How many nodes a call adds -/

namespace Verif.Njson
open Verif Verif.Spec Verif.Props

theorem copyOrAdopt_len {a a1 : AH} {fuel : Nat} {r r' : Ref} {id tgt id1 : Nat} {t : JVal} (ht : Reps (A.cont a r') t id) (hf : t.size ≤ fuel)
    (hc : A.copyOrAdopt a fuel r (some r') id tgt = some (a1, id1)) :
    (AdoptA a r r' id tgt → (a1 r).nodes.length = (a r).nodes.length) ∧
    (¬ AdoptA a r r' id tgt → (a1 r).nodes.length = (a r).nodes.length + t.size) := by
  obtain ⟨c, hcc⟩ := reps_some ht
  have hget : ∃ x, A.getOf a (some r') id = some x ∧ x.cont = c := by
    unfold A.cont lcont at hcc
    cases hx : (a r').nodes[id]? with
    | none => rw [hx] at hcc; simp at hcc
    | some x => rw [hx] at hcc; simp at hcc; exact ⟨x, hx, hcc⟩
  obtain ⟨x, hx, rfl⟩ := hget
  unfold A.copyOrAdopt at hc
  rw [hx] at hc
  simp only at hc
  by_cases hcond : some r' = some r ∧ id ≠ tgt ∧ x.root = true ∧ id ≠ 0
  · rw [if_pos hcond] at hc
    simp only [Option.some.injEq, Prod.mk.injEq] at hc
    obtain ⟨rfl, rfl⟩ := hc
    obtain ⟨he, h1, h2, h3⟩ := hcond
    simp at he; subst he
    exact ⟨fun _ => by rw [modify_nodes]; simp, fun hn => absurd ⟨rfl, h1, h3, x, hx, h2⟩ hn⟩
  · rw [if_neg hcond] at hc
    have hg : ∀ (ns : List ANode) id c, A.cont a r' id = some c → ∃ y,
        (if some r' = some r then ((a r).nodes ++ ns)[id]? else A.getOf a (some r') id) = some y ∧ y.cont = c := by
      intro ns id c h
      unfold A.cont lcont at h
      cases hy : (a r').nodes[id]? with
      | none => rw [hy] at h; simp at h
      | some y =>
        rw [hy] at h; simp at h
        refine ⟨y, ?_, h⟩
        split
        · rename_i he
          simp at he; subst he
          rw [List.getElem?_append_left (List.getElem?_eq_some_iff.1 hy).1, hy]
        · exact hy
    obtain ⟨ms, h1, h2⟩ := (ncopy_reps_all (A.cont a r') (fun d id => if some r' = some r then d[id]? else A.getOf a (some r') id) (a r).nodes hg).1 t id ht fuel hf [] x hcc
    simp only [List.append_nil] at h1 h2
    rw [h1] at hc
    simp only [Option.some.injEq, Prod.mk.injEq] at hc
    obtain ⟨rfl, _⟩ := hc
    refine ⟨?_, fun _ => ?_⟩
    · rintro ⟨rfl, g1, g2, y, hy, hy'⟩
      rw [show A.getOf a (some r') id = (a r').nodes[id]? from rfl, hy] at hx
      simp at hx; subst hx
      exact absurd ⟨rfl, g1, hy', g2⟩ hcond
    · have := congrArg List.length h2
      simp only [List.length_map, flat_length] at this
      simp [AH.set, this]

/-- the costs of the values of Append -/
theorem appendLoop_len {fuel : Nat} {r : Ref} {tgt : Nat} : ∀ (vs : List Node) (ts : List JVal) (cs : List Nat) (a : AH) (vv : List V) (a' : AH) (vv' : List V),
    A.appendLoop fuel r tgt vs a vv = some (a', vv') → ts.length = vs.length → cs.length = vs.length →
    (∀ (i : Nat) (v : Node) (t : JVal), vs[i]? = some v → ts[i]? = some t → t.size ≤ fuel ∧ ∃ q, A.document a v = some q ∧ Reps (A.cont a q) t v.id) →
    (∀ (i : Nat) (v : Node) (t : JVal) (c : Nat) (q : Ref), vs[i]? = some v → ts[i]? = some t → cs[i]? = some c → A.document a v = some q →
      (AdoptA a r q v.id tgt ∧ (∀ j, j < i → vs[j]? ≠ some v) → c = 0) ∧
      (¬ (AdoptA a r q v.id tgt ∧ (∀ j, j < i → vs[j]? ≠ some v)) → c = t.size)) →
    (a' r).nodes.length = (a r).nodes.length + cs.sum
  | [], ts, cs, a, vv, a', vv', he, hl, hl', _, _ => by
    simp only [A.appendLoop, Option.some.injEq, Prod.mk.injEq] at he
    obtain ⟨rfl, rfl⟩ := he
    have : cs = [] := List.length_eq_zero_iff.1 hl'
    subst this; simp
  | v0 :: vs, [], cs, a, vv, a', vv', he, hl, hl', _, _ => by simp at hl
  | v0 :: vs, t :: ts, [], a, vv, a', vv', he, hl, hl', _, _ => by simp at hl'
  | v0 :: vs, t0 :: ts, c0 :: cs, a, vv, a', vv', he, hl, hl', hyp, hcost => by
    obtain ⟨hf0, q0, hd0, hr0⟩ := hyp 0 v0 t0 rfl rfl
    obtain ⟨x0, hx0⟩ := reps_some hr0
    obtain ⟨x0, hx0, _⟩ := acont_some hx0
    unfold A.appendLoop at he
    rw [hd0] at he
    split at he
    · simp at he
    · rename_i a1 id1 hc
      have hext := copyOrAdopt_ext hc
      obtain ⟨l1, l2⟩ := copyOrAdopt_len hr0 hf0 hc
      have hrec := appendLoop_len vs ts cs a1 _ a' vv' he (by simpa using hl) (by simpa using hl') (by
          intro i v t hv ht
          obtain ⟨hf, q, h1, h2⟩ := hyp (i + 1) v t (by simpa using hv) (by simpa using ht)
          exact ⟨hf, q, by rw [hext.document, h1], hext.reps h2⟩) (by
          intro i v t c q hv ht hcc hd
          rw [hext.document] at hd
          obtain ⟨f1, f2⟩ := hcost (i + 1) v t c q (by simpa using hv) (by simpa using ht) (by simpa using hcc) hd
          obtain ⟨_, q', h1, h2⟩ := hyp (i + 1) v t (by simpa using hv) (by simpa using ht)
          rw [hd] at h1
          simp only [Option.some.injEq] at h1
          subst h1
          obtain ⟨x, hx⟩ := reps_some h2
          obtain ⟨x, hx, _⟩ := acont_some hx
          have hiff := adoptA_step («to» := tgt) (show A.getOf a (some q0) v0.id = some x0 from hx0) (show A.getOf a (some q) v.id = some x from hx) hc
          have hsame : (AdoptA a1 r q v.id tgt ∧ (∀ j, j < i → vs[j]? ≠ some v)) ↔
              (AdoptA a r q v.id tgt ∧ (∀ j, j < i + 1 → (v0 :: vs)[j]? ≠ some v)) := by
            rw [hiff]
            constructor
            · rintro ⟨⟨g1, g2⟩, g3⟩
              refine ⟨g1, fun j hj => ?_⟩
              cases j with
              | zero =>
                simp only [List.getElem?_cons_zero, ne_eq, Option.some.injEq]
                rintro rfl
                rw [hd0] at hd
                simp only [Option.some.injEq] at hd
                subst hd
                exact g2 ⟨g1, rfl⟩
              | succ j =>
                simp only [List.getElem?_cons_succ]
                exact g3 j (by omega)
            · rintro ⟨g1, g3⟩
              refine ⟨⟨g1, ?_⟩, fun j hj => ?_⟩
              · rintro ⟨g4, g5⟩
                have g6 := g3 0 (by omega)
                simp only [List.getElem?_cons_zero, ne_eq, Option.some.injEq] at g6
                apply g6
                have q1 : q = r := g1.1
                have q2 : q0 = r := g4.1
                subst q1
                have hh := Props.node_eq (show A.document a v = some q from hd) (show A.document a v0 = some q from q2 ▸ hd0)
                rw [← g5] at hh
                rw [← hh]
                rfl
              · have := g3 (j + 1) (by omega)
                simpa using this
          rw [hsame]
          exact ⟨f1, f2⟩)
      obtain ⟨c1, c2⟩ := hcost 0 v0 t0 c0 q0 rfl rfl rfl hd0
      rw [hrec, List.sum_cons]
      by_cases had : AdoptA a r q0 v0.id tgt
      · rw [l1 had, c1 ⟨had, fun j hj => by omega⟩]; omega
      · rw [l2 had, c2 (fun h => had h.1)]; omega

/-! ## calls that add no node -/

theorem stripFrom_len {rec : List ANode → Nat → Option (List ANode)} (hrec : ∀ d i d', rec d i = some d' → d'.length = d.length) (id : Nat) :
    ∀ k j d d', A.stripFrom rec id k j d = some d' → d'.length = d.length
  | 0, j, d, d', h => by simp [A.stripFrom] at h; rw [h]
  | k + 1, j, d, d', h => by
    unfold A.stripFrom at h
    split at h
    · simp at h
    · split at h
      · simp at h; rw [h]
      · split at h
        · simp at h
        · rename_i d1 h1
          rw [stripFrom_len hrec id k _ _ _ h, hrec _ _ _ h1]

theorem stripLoop_len {rec : List ANode → Nat → Option (List ANode)} (hrec : ∀ d i d', rec d i = some d' → d'.length = d.length) (id : Nat) (key : Bytes) :
    ∀ k i d d', A.stripLoop rec id key k i d = some d' → d'.length = d.length
  | 0, j, d, d', h => by simp [A.stripLoop] at h; rw [h]
  | k + 1, j, d, d', h => by
    unfold A.stripLoop at h
    split at h
    · simp at h
    · split at h
      · simp at h
      · split at h
        · rw [stripFrom_len hrec id _ _ _ _ h]; simp
        · split at h
          · simp at h
          · rename_i d1 h1
            rw [stripLoop_len hrec id key k _ _ _ h, hrec _ _ _ h1]

theorem strip_len (key : Bytes) : ∀ fuel d id d', A.strip key fuel d id = some d' → d'.length = d.length
  | 0, d, id, d', h => by simp [A.strip] at h
  | fuel + 1, d, id, d', h => by
    unfold A.strip at h
    split at h
    · simp at h; rw [h]
    · split at h
      · exact stripLoop_len (fun d i d' => strip_len key fuel d i d') id key _ _ _ _ h
      · simp at h; rw [h]

theorem modify_len (a : AH) (r : Ref) (id : Nat) (f : ANode → ANode) (q : Ref) : (A.modify a r id f q).nodes.length = (a q).nodes.length := by
  unfold A.modify AH.set
  split
  · rename_i he; subst he; simp
  · rfl

theorem update_len (a : AH) (n : Node) (f : ANode → ANode) (q : Ref) : (A.update a n f q).nodes.length = (a q).nodes.length := by
  unfold A.update
  cases A.get a n with
  | none => rfl
  | some x =>
    cases n.doc with
    | none => rfl
    | some r => exact modify_len a r n.id f q

theorem nstrip_len {a a' : AH} {fuel : Nat} {n : Node} {key : Bytes} (h : A.nstrip a fuel n key = some a') (q : Ref) :
    (a' q).nodes.length = (a q).nodes.length := by
  unfold A.nstrip at h
  split at h
  · rename_i r hr
    split at h
    · rename_i d hd
      simp at h
      rw [← h]
      unfold AH.set
      split
      · rename_i he; subst he; exact strip_len _ _ _ _ _ hd
      · rfl
    · simp at h
  · simp at h; rw [h]

end Verif.Njson
