import Verif.Proofs.Copy

/-! What each mutation does to the trees of the heap, on the abstract machine. -/

namespace Verif.Njson
open Verif Verif.Spec

theorem reach_back {g g' : Nat → Option Cont} {a b : Nat} (h : Reach g' a b) (h' : ∀ j, Reach g a j → g' j = g j) : Reach g a b := by
  induction h with
  | refl => exact .refl _
  | @step a b c v h1 h2 h3 ih =>
    have hg : g a = some c := by rw [← h' a (.refl a), h1]
    exact .step hg h2 (ih fun j hj => h' j (.step hg h2 hj))

/-- `a'` is `a` with new nodes at the end of document `r`; old nodes keep their content. -/
structure Ext (a a' : AH) (r : Ref) : Prop where
  other : ∀ q, q ≠ r → a' q = a q
  rev : (a' r).rev = (a r).rev
  len : (a r).nodes.length ≤ (a' r).nodes.length
  old : ∀ j, j < (a r).nodes.length → A.cont a' r j = A.cont a r j
  root : ∀ j x', j < (a r).nodes.length → (a' r).nodes[j]? = some x' → x'.root = true → ∃ x, (a r).nodes[j]? = some x ∧ x.root = true

theorem Ext.refl (a : AH) (r : Ref) : Ext a a r := ⟨fun _ _ => rfl, rfl, Nat.le_refl _, fun _ _ => rfl, fun _ x' _ h h' => ⟨x', h, h'⟩⟩

theorem Ext.trans {a b c : AH} {r : Ref} (h : Ext a b r) (h' : Ext b c r) : Ext a c r where
  other q hq := by rw [h'.other q hq, h.other q hq]
  rev := by rw [h'.rev, h.rev]
  len := Nat.le_trans h.len h'.len
  old j hj := by rw [h'.old j (Nat.lt_of_lt_of_le hj h.len), h.old j hj]
  root j x' hj h1 h2 := by
    obtain ⟨x, h3, h4⟩ := h'.root j x' (Nat.lt_of_lt_of_le hj h.len) h1 h2
    exact h.root j x hj h3 h4

theorem Ext.document {a a' : AH} {r : Ref} (h : Ext a a' r) (n : Node) : A.document a' n = A.document a n := by
  unfold A.document
  cases n.doc with
  | none => rfl
  | some q =>
    simp only
    by_cases hq : q = r
    · subst hq; rw [h.rev]
    · rw [h.other q hq]

theorem acont_lt {a : AH} {q : Ref} {j : Nat} {c : Cont} (h : A.cont a q j = some c) : j < (a q).nodes.length := lcont_lt h

theorem reps_lt {a : AH} {q : Ref} {t : JVal} {j : Nat} (h : Reps (A.cont a q) t j) : j < (a q).nodes.length := by
  obtain ⟨c, hc⟩ := reps_some h; exact acont_lt hc

theorem reach_lt {a : AH} {q : Ref} {t : JVal} {j k : Nat} (h : Reps (A.cont a q) t j) (hr : Reach (A.cont a q) j k) :
    k < (a q).nodes.length := by
  obtain ⟨t', h', _⟩ := reps_reach h hr; exact reps_lt h'

theorem Ext.agree {a a' : AH} {r q : Ref} (h : Ext a a' r) {t : JVal} {j : Nat} (ht : Reps (A.cont a q) t j) :
    ∀ k, Reach (A.cont a q) j k → A.cont a' q k = A.cont a q k := by
  intro k hk
  by_cases hq : q = r
  · subst hq; exact h.old k (reach_lt ht hk)
  · unfold A.cont; rw [h.other q hq]

theorem Ext.reps {a a' : AH} {r q : Ref} (h : Ext a a' r) {t : JVal} {j : Nat} (ht : Reps (A.cont a q) t j) :
    Reps (A.cont a' q) t j := reps_congr ht (h.agree ht)

theorem modify_cont_ne {a : AH} {r q : Ref} {id : Nat} {f : ANode → ANode} {j : Nat} (h : q = r → j ≠ id) :
    A.cont (A.modify a r id f) q j = A.cont a q j := by
  unfold A.cont A.modify AH.set lcont
  by_cases hq : q = r
  · rw [if_pos hq]; subst hq; simp only; rw [modify_ne _ _ (h rfl)]
  · rw [if_neg hq]

theorem modify_nodes (a : AH) (r : Ref) (id : Nat) (f : ANode → ANode) : (A.modify a r id f r).nodes = (a r).nodes.modify id f := by
  simp [A.modify, AH.set]

theorem modify_cont_eq {a : AH} {r : Ref} {id : Nat} {f : ANode → ANode} {x : ANode} (h : (a r).nodes[id]? = some x) :
    A.cont (A.modify a r id f) r id = some (f x).cont := by
  unfold A.cont lcont
  rw [modify_nodes, modify_eq, h]; rfl

theorem modify_document (a : AH) (r : Ref) (id : Nat) (f : ANode → ANode) (n : Node) :
    A.document (A.modify a r id f) n = A.document a n := by
  unfold A.document A.modify AH.set
  cases n.doc with
  | none => rfl
  | some q =>
    simp only
    by_cases hq : q = r
    · subst hq; simp
    · simp [hq]

theorem modify_reps {a : AH} {r q : Ref} {id : Nat} {f : ANode → ANode} {t : JVal} {j : Nat} (ht : Reps (A.cont a q) t j)
    (hr : q = r → ¬ Reach (A.cont a r) j id) : Reps (A.cont (A.modify a r id f) q) t j := by
  apply reps_congr ht
  intro k hk
  apply modify_cont_ne
  intro hq he
  subst hq; subst he
  exact hr rfl hk

theorem modify_repsElems {a : AH} {r : Ref} {id : Nat} {f : ANode → ANode} {xs : List JVal} {vs : List V} (ht : RepsElems (A.cont a r) xs vs)
    (hr : ∀ v ∈ vs, ¬ Reach (A.cont a r) v.id id) : RepsElems (A.cont (A.modify a r id f) r) xs vs := by
  apply repsElems_congr ht
  intro v hv k hk
  apply modify_cont_ne
  intro _ he
  subst he
  exact hr v hv hk

theorem modify_repsMembers {a : AH} {r : Ref} {id : Nat} {f : ANode → ANode} {xs : List (Bytes × JVal)} {vs : List V}
    (ht : RepsMembers (A.cont a r) xs vs)
    (hr : ∀ v ∈ vs, ¬ Reach (A.cont a r) v.id id) : RepsMembers (A.cont (A.modify a r id f) r) xs vs := by
  apply repsMembers_congr ht
  intro v hv k hk
  apply modify_cont_ne
  intro _ he
  subst he
  exact hr v hv hk

/-! ## copyOrAdopt -/

theorem adopt_ext (a : AH) (r : Ref) (id : Nat) : Ext a (A.modify a r id fun n => { n with root := false }) r where
  other q hq := by simp [A.modify, AH.set, hq]
  rev := by simp [A.modify, AH.set]
  len := by rw [modify_nodes]; simp
  old j hj := by
    by_cases hji : j = id
    · subst hji
      cases hx : (a r).nodes[j]? with
      | none => simp at hx; omega
      | some x =>
        rw [modify_cont_eq hx]
        unfold A.cont lcont
        rw [hx]; rfl
    · exact modify_cont_ne fun _ => hji
  root j x' hj h1 h2 := by
    rw [modify_nodes] at h1
    by_cases hji : j = id
    · subst hji
      rw [modify_eq] at h1
      cases hx : (a r).nodes[j]? with
      | none => rw [hx] at h1; simp at h1
      | some x => rw [hx] at h1; simp at h1; rw [← h1] at h2; simp at h2
    · rw [modify_ne _ _ hji] at h1; exact ⟨x', h1, h2⟩

theorem append_ext (a : AH) (r : Ref) (ns : List ANode) : Ext a (AH.set a r { a r with nodes := (a r).nodes ++ ns }) r where
  other q hq := by simp [AH.set, hq]
  rev := by simp [AH.set]
  len := by simp [AH.set]
  old j hj := by unfold A.cont AH.set; simp only [if_true]; exact lcont_append hj
  root j x' hj h1 h2 := by
    simp only [AH.set, if_true] at h1
    rw [List.getElem?_append_left hj] at h1
    exact ⟨x', h1, h2⟩

theorem copyOrAdopt_ext {a a' : AH} {fuel : Nat} {r : Ref} {o : Option Ref} {id to id' : Nat}
    (h : A.copyOrAdopt a fuel r o id to = some (a', id')) : Ext a a' r := by
  unfold A.copyOrAdopt at h
  split at h
  · simp at h; rw [← h.1]; exact .refl _ _
  · split at h
    · simp at h; rw [← h.1]; exact adopt_ext _ _ _
    · split at h
      · simp at h
      · rename_i d id1 hc
        obtain ⟨_, x, ns, rfl, _⟩ := ncopy_ext _ _ _ _ _ _ hc
        simp at h; rw [← h.1]; exact append_ext _ _ _

/-- the adopting branch of `copyOrAdopt` -/
def AdoptA (a : AH) (r r' : Ref) (id to : Nat) : Prop :=
  r' = r ∧ id ≠ to ∧ id ≠ 0 ∧ ∃ x, (a r).nodes[id]? = some x ∧ x.root = true

theorem copyOrAdopt_tree {a : AH} {fuel : Nat} {r r' : Ref} {id to : Nat} {t : JVal} (ht : Reps (A.cont a r') t id)
    (hf : t.size ≤ fuel) :
    ∃ a' id', A.copyOrAdopt a fuel r (some r') id to = some (a', id') ∧ Ext a a' r ∧ Reps (A.cont a' r) t id' ∧
      id' ≤ (a r).nodes.length ∧
      ∀ j, Reach (A.cont a' r) id' j → j < (a r).nodes.length → AdoptA a r r' id to ∧ Reach (A.cont a r) id j := by
  obtain ⟨c, hc⟩ := reps_some ht
  have hget : ∃ x, A.getOf a (some r') id = some x ∧ x.cont = c := by
    unfold A.cont lcont at hc
    cases hx : (a r').nodes[id]? with
    | none => rw [hx] at hc; simp at hc
    | some x => rw [hx] at hc; simp at hc; exact ⟨x, hx, hc⟩
  obtain ⟨x, hx, rfl⟩ := hget
  unfold A.copyOrAdopt
  rw [hx]
  simp only
  by_cases hcond : some r' = some r ∧ id ≠ to ∧ x.root = true ∧ id ≠ 0
  · rw [if_pos hcond]
    obtain ⟨he, h1, h2, h3⟩ := hcond
    simp at he; subst he
    have hext := adopt_ext a r' id
    refine ⟨_, id, rfl, hext, hext.reps ht, Nat.le_of_lt (reps_lt ht), fun j hj _ => ?_⟩
    exact ⟨⟨rfl, h1, h3, x, hx, h2⟩, reach_back hj (hext.agree ht)⟩
  · rw [if_neg hcond]
    have hg : ∀ (ns : List ANode) id c, A.cont a r' id = some c → ∃ y,
        (if some r' = some r then ((a r).nodes ++ ns)[id]? else A.getOf a (some r') id) = some y ∧ y.cont = c := by
      intro ns id c h
      unfold A.cont lcont at h
      cases hy : (a r').nodes[id]? with
      | none => rw [hy] at h; simp at h
      | some y =>
        rw [hy] at h; simp at h
        refine ⟨y, ?_, h⟩
        split
        · rename_i he
          simp at he; subst he
          rw [List.getElem?_append_left (List.getElem?_eq_some_iff.1 hy).1, hy]
        · exact hy
    obtain ⟨ms, h1, h2⟩ := (ncopy_reps_all (A.cont a r') (fun d id => if some r' = some r then d[id]? else A.getOf a (some r') id) (a r).nodes hg).1 t id ht fuel hf [] x hc
    simp only [List.append_nil] at h1 h2
    rw [h1]
    refine ⟨_, _, rfl, append_ext a r ms, ?_, Nat.le_refl _, ?_⟩
    · unfold A.cont AH.set; simp only [if_true]; exact flat_reps_append h2
    · intro j hj hlt
      unfold A.cont AH.set at hj; simp only [if_true] at hj
      have := flat_reach_append h2 (Nat.le_refl _) hj
      omega

/-! ## lists of values -/

theorem setKeyV_cons (v : V) (vs : List V) (k : Bytes) (id : Nat) :
    setKeyV (v :: vs) k id = if v.key = k then { v with id := id } :: vs else v :: setKeyV vs k id := by
  unfold setKeyV
  rw [List.findIdx?_cons]
  by_cases h : v.key = k
  · simp [h]
  · simp only [h, decide_false, Bool.false_eq_true, if_false]
    cases vs.findIdx? (fun v => decide (v.key = k)) <;> simp

theorem repsMembers_set {g : Nat → Option Cont} {t : JVal} {id : Nat} (ht : Reps g t id) (k : Bytes) :
    ∀ {ms : List (Bytes × JVal)} {vs : List V}, RepsMembers g ms vs → RepsMembers g (assocSet ms k t) (setKeyV vs k id)
  | [], vs, h => by
    simp only [RepsMembers] at h; subst h
    exact ⟨id, [], rfl, ht, rfl⟩
  | (k', x) :: ms, vs, h => by
    obtain ⟨i, vs', rfl, h1, h2⟩ := h
    rw [setKeyV_cons, assocSet]
    simp only
    split
    · exact ⟨id, vs', rfl, ht, h2⟩
    · exact ⟨i, _, rfl, h1, repsMembers_set ht k h2⟩

theorem repsElems_iff {g : Nat → Option Cont} : ∀ {xs : List JVal} {vs : List V}, RepsElems g xs vs ↔
    xs.length = vs.length ∧ ∀ (i : Nat) (x : JVal) (v : V), xs[i]? = some x → vs[i]? = some v → v.key = [] ∧ Reps g x v.id
  | [], vs => by
    simp only [RepsElems]
    constructor
    · rintro rfl; simp
    · rintro ⟨h, _⟩; exact List.length_eq_zero_iff.1 (by simpa using h.symm)
  | x :: xs, vs => by
    simp only [RepsElems]
    constructor
    · rintro ⟨id, vs', rfl, h1, h2⟩
      obtain ⟨h3, h4⟩ := repsElems_iff.1 h2
      refine ⟨by simp [h3], ?_⟩
      intro i y v hy hv
      cases i with
      | zero => simp at hy hv; subst hy; subst hv; exact ⟨rfl, h1⟩
      | succ i => simp at hy hv; exact h4 i y v hy hv
    · rintro ⟨h1, h2⟩
      cases vs with
      | nil => simp at h1
      | cons v vs' =>
        obtain ⟨h3, h4⟩ := h2 0 x v rfl rfl
        refine ⟨v.id, vs', by cases v; simp_all, h4, repsElems_iff.2 ⟨by simpa using h1, ?_⟩⟩
        intro i y w hy hw
        exact h2 (i + 1) y w (by simpa using hy) (by simpa using hw)

theorem repsMembers_iff {g : Nat → Option Cont} : ∀ {ms : List (Bytes × JVal)} {vs : List V}, RepsMembers g ms vs ↔
    ms.length = vs.length ∧ ∀ (i : Nat) (m : Bytes × JVal) (v : V), ms[i]? = some m → vs[i]? = some v → v.key = m.1 ∧ Reps g m.2 v.id
  | [], vs => by
    simp only [RepsMembers]
    constructor
    · rintro rfl; simp
    · rintro ⟨h, _⟩; exact List.length_eq_zero_iff.1 (by simpa using h.symm)
  | (k, x) :: ms, vs => by
    simp only [RepsMembers]
    constructor
    · rintro ⟨id, vs', rfl, h1, h2⟩
      obtain ⟨h3, h4⟩ := repsMembers_iff.1 h2
      refine ⟨by simp [h3], ?_⟩
      intro i y v hy hv
      cases i with
      | zero => simp at hy hv; subst hy; subst hv; exact ⟨rfl, h1⟩
      | succ i => simp at hy hv; exact h4 i y v hy hv
    · rintro ⟨h1, h2⟩
      cases vs with
      | nil => simp at h1
      | cons v vs' =>
        obtain ⟨h3, h4⟩ := h2 0 (k, x) v rfl rfl
        refine ⟨v.id, vs', by cases v; simp_all, h4, repsMembers_iff.2 ⟨by simpa using h1, ?_⟩⟩
        intro i y w hy hw
        exact h2 (i + 1) y w (by simpa using hy) (by simpa using hw)

theorem repsElems_append {g : Nat → Option Cont} {xs ys : List JVal} {vs ws : List V} (h : RepsElems g xs vs) (h' : RepsElems g ys ws) :
    RepsElems g (xs ++ ys) (vs ++ ws) := by
  induction xs generalizing vs with
  | nil => simp only [RepsElems] at h; subst h; exact h'
  | cons x xs ih =>
    obtain ⟨id, vs', rfl, h1, h2⟩ := h
    exact ⟨id, vs' ++ ws, rfl, h1, ih h2⟩

/-- moving the last entry into slot `i` -/
def swapRm {α : Type} (l : List α) (i : Nat) : List α :=
  match l.getLast? with
  | some z => (l.set i z).take (l.length - 1)
  | none => []

theorem swapRm_perm {α : Type} (l : List α) {i : Nat} (h : i < l.length) : (swapRm l i).Perm (l.eraseIdx i) := by
  have hne : l ≠ [] := by intro h'; simp [h'] at h
  obtain ⟨l', z, rfl⟩ : ∃ l' z, l = l' ++ [z] := ⟨l.dropLast, l.getLast hne, (List.dropLast_concat_getLast hne).symm⟩
  unfold swapRm
  simp only [List.getLast?_append, List.getLast?_singleton, Option.some_or, List.length_append, List.length_singleton, Nat.add_sub_cancel]
  simp at h
  by_cases hi : i = l'.length
  · subst hi
    rw [List.take_set_of_le (Nat.le_refl _), List.eraseIdx_append_of_length_le (Nat.le_refl _)]
    simp
  · rw [List.set_append_left _ _ (by omega), List.take_append_of_le_length (by simp), List.take_of_length_le (by simp),
      List.eraseIdx_append_of_lt_length (by omega)]
    obtain ⟨p, x, q, rfl, hp⟩ : ∃ p x q, l' = p ++ x :: q ∧ p.length = i := by
      refine ⟨l'.take i, l'[i]'(by omega), l'.drop (i + 1), ?_, ?_⟩
      · rw [← List.drop_eq_getElem_cons, List.take_append_drop]
      · simp; omega
    subst hp
    simp [List.eraseIdx_append_of_length_le]
    exact List.Perm.append_left p (List.perm_append_singleton z q).symm

theorem swapRemoveV_eq (vs : List V) (i : Nat) : swapRemoveV vs i = swapRm vs i := by
  unfold swapRemoveV swapRm
  cases h : vs.getLast? with
  | none => simp at h; subst h; rfl
  | some z =>
    simp only
    rw [List.getLast?_eq_getElem?] at h
    simp [List.getD, h]

theorem repsMembers_swapRm {g : Nat → Option Cont} {ms : List (Bytes × JVal)} {vs : List V} (h : RepsMembers g ms vs) (i : Nat) :
    RepsMembers g (swapRm ms i) (swapRm vs i) := by
  obtain ⟨hl, hp⟩ := repsMembers_iff.1 h
  unfold swapRm
  cases hm : ms.getLast? with
  | none =>
    simp at hm; subst hm
    simp at hl
    have : vs = [] := List.length_eq_zero_iff.1 hl.symm
    subst this
    simp [RepsMembers]
  | some z =>
    cases hv : vs.getLast? with
    | none => simp at hv; subst hv; simp at hl; subst hl; simp at hm
    | some w =>
      simp only
      rw [List.getLast?_eq_getElem?] at hm hv
      have hz := hp _ z w hm (by rw [← hl] at hv; exact hv)
      rw [repsMembers_iff]
      refine ⟨by simp [hl], ?_⟩
      intro j m v h1 h2
      rw [List.getElem?_take] at h1 h2
      split at h1
      · rename_i hlt
        rw [if_pos (by omega)] at h2
        by_cases hj : i = j
        · subst hj
          rw [List.getElem?_set_self (by omega)] at h1 h2
          simp at h1 h2; subst h1; subst h2
          exact hz
        · rw [List.getElem?_set_ne hj] at h1 h2
          exact hp j m v h1 h2
      · simp at h1

/-! ## the mutations -/

def ATree (a : AH) (n : Node) (t : JVal) : Prop := ∃ r, A.document a n = some r ∧ Reps (A.cont a r) t n.id

theorem tree_abs {h : Heap} {n : Node} {t : JVal} : Tree h n t ↔ ATree h.abs n t := by
  unfold Tree ATree
  simp only [abs_document, abs_cont]

theorem document_doc {a : AH} {n : Node} {r : Ref} (h : A.document a n = some r) : n.doc = some r := by
  unfold A.document at h
  cases hd : n.doc with
  | none => rw [hd] at h; simp at h
  | some q =>
    rw [hd] at h
    simp only at h
    split at h
    · simp at h; rw [h]
    · simp at h

theorem acont_some {a : AH} {r : Ref} {id : Nat} {c : Cont} (h : A.cont a r id = some c) : ∃ x, (a r).nodes[id]? = some x ∧ x.cont = c := by
  unfold A.cont lcont at h
  cases hx : (a r).nodes[id]? with
  | none => rw [hx] at h; simp at h
  | some x => rw [hx] at h; simp at h; exact ⟨x, rfl, h⟩

theorem aget_some {a : AH} {n : Node} {r : Ref} (hd : A.document a n = some r) {x : ANode} (hx : (a r).nodes[n.id]? = some x) :
    A.get a n = some x := by unfold A.get; rw [hd]; exact hx

/-- the side condition of insertions, on the abstract machine -/
def AInsertable (a : AH) (r : Ref) (to : Nat) (r' : Ref) (id : Nat) : Prop :=
  ¬ (AdoptA a r r' id to ∧ Reach (A.cont a r) id to)

theorem nset_tree {a : AH} {fuel : Nat} {n v : Node} {r r' : Ref} {ms : List (Bytes × JVal)} {t : JVal} (k : Bytes)
    (hd : A.document a n = some r) (hn : Reps (A.cont a r) (.obj ms) n.id)
    (hdv : A.document a v = some r') (hv : Reps (A.cont a r') t v.id) (hins : AInsertable a r n.id r' v.id)
    (hlen : (a r).nodes.length < maxUint) (hf : t.size ≤ fuel) :
    ∃ a' a1 id1 f, A.nset a fuel n k v = some a' ∧ Ext a a1 r ∧ a' = A.modify a1 r n.id f ∧
      ∃ vs, A.cont a r n.id = some ⟨tObject, [], vs⟩ ∧ A.cont a' r n.id = some ⟨tObject, [], setKeyV vs k id1⟩ ∧
      Reps (A.cont a' r) (.obj (assocSet ms k t)) n.id := by
  obtain ⟨a1, id1, h1, hext, h2, h3, h4⟩ := copyOrAdopt_tree (r := r) (to := n.id) hv hf
  obtain ⟨vs, hc, hms⟩ := hn
  obtain ⟨x, hx, hxc⟩ := acont_some hc
  simp only [ANode.cont, Cont.mk.injEq] at hxc
  obtain ⟨e1, e2, e3⟩ := hxc
  have hnlt := acont_lt hc
  have hc1 : A.cont a1 r n.id = some ⟨tObject, [], vs⟩ := by rw [hext.old _ hnlt, hc]
  obtain ⟨x1, hx1, hxc1⟩ := acont_some hc1
  simp only [ANode.cont, Cont.mk.injEq] at hxc1
  obtain ⟨f1, f2, f3⟩ := hxc1
  have hn1 : Reps (A.cont a1 r) (.obj ms) n.id := hext.reps ⟨vs, hc, hms⟩
  have hc' : A.cont (A.modify a1 r n.id (A.setF k id1)) r n.id = some ⟨tObject, [], setKeyV vs k id1⟩ := by
    rw [modify_cont_eq hx1]; simp [A.setF, ANode.cont, f1, f2, f3]
  refine ⟨_, a1, id1, A.setF k id1, ?_, hext, rfl, vs, hc, hc', ?_⟩
  · unfold A.nset
    rw [aget_some hd hx, document_doc hd]
    simp only
    rw [if_pos e1, hdv, h1]
    simp only
    rw [if_pos (by omega)]
  · refine ⟨_, hc', ?_⟩
    have hms1 : RepsMembers (A.cont a1 r) ms vs := by
      obtain ⟨vs1, g1, g2⟩ := hn1
      rw [hc1] at g1; simp at g1; subst g1; exact g2
    have hms' := modify_repsMembers (f := A.setF k id1) hms1 (fun v hv => reps_child_no_loop hn1 hc1 hv)
    have ht' := modify_reps (f := A.setF k id1) h2 (fun _ hr => hins (h4 _ hr hnlt))
    exact repsMembers_set ht' k hms'

theorem appendLoop_tree {fuel : Nat} {r : Ref} {to : Nat} : ∀ (vals : List Node) (ts : List JVal) (a : AH) (vv : List V),
    to < (a r).nodes.length → vals.length = ts.length →
    (∀ (i : Nat) (v : Node) (t : JVal), vals[i]? = some v → ts[i]? = some t → t.size ≤ fuel ∧ ∃ r', A.document a v = some r' ∧ Reps (A.cont a r') t v.id ∧
      AInsertable a r to r' v.id) →
    ∃ a' ws, A.appendLoop fuel r to vals a vv = some (a', vv ++ ws) ∧ Ext a a' r ∧ RepsElems (A.cont a' r) ts ws ∧
      ∀ w ∈ ws, ¬ Reach (A.cont a' r) w.id to
  | [], ts, a, vv, _, hl, _ => by
    have : ts = [] := List.length_eq_zero_iff.1 hl.symm
    subst this
    exact ⟨a, [], by simp [A.appendLoop], .refl _ _, rfl, by simp⟩
  | v :: vals, [], a, vv, _, hl, _ => by simp at hl
  | v :: vals, t :: ts, a, vv, hto, hl, hyp => by
    obtain ⟨hf, r', hdv, hv, hins⟩ := hyp 0 v t rfl rfl
    obtain ⟨a1, id1, h1, hext, h2, h3, h4⟩ := copyOrAdopt_tree (r := r) (to := to) hv hf
    obtain ⟨a2, ws, e1, e2, e3, e4⟩ := appendLoop_tree (r := r) (fuel := fuel) (to := to) vals ts a1 (vv ++ [⟨id1, []⟩])
      (Nat.lt_of_lt_of_le hto hext.len) (by simpa using hl) (by
        intro i w t' hw ht'
        obtain ⟨hf', q, g1, g2, g3⟩ := hyp (i + 1) w t' (by simpa using hw) (by simpa using ht')
        refine ⟨hf', q, by rw [hext.document, g1], hext.reps g2, ?_⟩
        rintro ⟨⟨rfl, b1, b2, x, b3, b4⟩, hr⟩
        obtain ⟨y, c1, c2⟩ := hext.root _ x (reps_lt g2) b3 b4
        exact g3 ⟨⟨rfl, b1, b2, y, c1, c2⟩, reach_back hr (hext.agree g2)⟩)
    refine ⟨a2, ⟨id1, []⟩ :: ws, ?_, hext.trans e2, ⟨id1, ws, rfl, e2.reps h2, e3⟩, ?_⟩
    · unfold A.appendLoop
      rw [hdv, h1]
      simp only
      rw [e1]; simp
    · intro w hw hr
      rcases List.mem_cons.1 hw with rfl | hw
      · exact hins (h4 _ (reach_back hr (e2.agree h2)) hto)
      · exact e4 w hw hr

theorem append_tree {a : AH} {fuel : Nat} {n : Node} {r : Ref} {xs : List JVal} {vals : List Node} {ts : List JVal}
    (hd : A.document a n = some r) (hn : Reps (A.cont a r) (.arr xs) n.id) (hl : vals.length = ts.length)
    (hyp : ∀ (i : Nat) (v : Node) (t : JVal), vals[i]? = some v → ts[i]? = some t → t.size ≤ fuel ∧ ∃ r', A.document a v = some r' ∧ Reps (A.cont a r') t v.id ∧
      AInsertable a r n.id r' v.id) :
    ∃ a' a1 f, A.append a fuel n vals = some a' ∧ Ext a a1 r ∧ a' = A.modify a1 r n.id f ∧
      ∃ vs ws, A.cont a r n.id = some ⟨tArray, [], vs⟩ ∧ A.cont a' r n.id = some ⟨tArray, [], vs ++ ws⟩ ∧
      Reps (A.cont a' r) (.arr (xs ++ ts)) n.id := by
  obtain ⟨vs, hc, hxs⟩ := hn
  obtain ⟨x, hx, hxc⟩ := acont_some hc
  have hxc' := hxc
  simp only [ANode.cont, Cont.mk.injEq] at hxc
  obtain ⟨e1, e2, e3⟩ := hxc
  have hnlt := acont_lt hc
  obtain ⟨a1, ws, h1, hext, h2, h3⟩ := appendLoop_tree (fuel := fuel) (r := r) (to := n.id) vals ts a vs hnlt hl hyp
  have hc1 : A.cont a1 r n.id = some ⟨tArray, [], vs⟩ := by rw [hext.old _ hnlt, hc]
  obtain ⟨x1, hx1, hxc1⟩ := acont_some hc1
  simp only [ANode.cont, Cont.mk.injEq] at hxc1
  obtain ⟨f1, f2, f3⟩ := hxc1
  have hn1 : Reps (A.cont a1 r) (.arr xs) n.id := hext.reps ⟨vs, hc, hxs⟩
  have hxs1 : RepsElems (A.cont a1 r) xs vs := by
    obtain ⟨vs1, g1, g2⟩ := hn1
    rw [hc1] at g1; simp at g1; subst g1; exact g2
  have hc' : A.cont (A.modify a1 r n.id fun n => { n with vals := vs ++ ws }) r n.id = some ⟨tArray, [], vs ++ ws⟩ := by
    rw [modify_cont_eq hx1]; simp [ANode.cont, f1, f2]
  have hrep : Reps (A.cont (A.modify a1 r n.id fun n => { n with vals := vs ++ ws }) r) (.arr (xs ++ ts)) n.id :=
    ⟨_, hc', repsElems_append (modify_repsElems hxs1 fun v hv => reps_child_no_loop hn1 hc1 hv) (modify_repsElems h2 h3)⟩
  by_cases hz : vals.length = 0
  · have : vals = [] := List.length_eq_zero_iff.1 hz
    subst this
    have : ts = [] := List.length_eq_zero_iff.1 hl.symm
    subst this
    refine ⟨a, a, id, by simp [A.append], .refl _ _, ?_, vs, [], hc, by simpa using hc, by simpa using ⟨vs, hc, hxs⟩⟩
    funext q
    unfold A.modify AH.set
    by_cases hq : q = r
    · subst hq; simp
    · simp [hq]
  · refine ⟨_, a1, _, ?_, hext, rfl, vs, ws, hc, hc', hrep⟩
    unfold A.append
    rw [if_neg hz, aget_some hd hx, document_doc hd]
    simp only
    rw [if_pos e1, e3, h1]

theorem replace_tree {a : AH} {fuel : Nat} {n v : Node} {r r' : Ref} {xs : List JVal} {t : JVal} {i : Nat}
    (hd : A.document a n = some r) (hn : Reps (A.cont a r) (.arr xs) n.id) (hi : i < xs.length)
    (hdv : A.document a v = some r') (hv : Reps (A.cont a r') t v.id) (hins : AInsertable a r n.id r' v.id)
    (hlen : (a r).nodes.length < maxUint) (hf : t.size ≤ fuel) :
    ∃ a' a1 id1 f, A.replace a fuel n i v = some a' ∧ Ext a a1 r ∧ a' = A.modify a1 r n.id f ∧
      ∃ vs, A.cont a r n.id = some ⟨tArray, [], vs⟩ ∧ A.cont a' r n.id = some ⟨tArray, [], vs.set i ⟨id1, []⟩⟩ ∧
      Reps (A.cont a' r) (.arr (xs.set i t)) n.id := by
  obtain ⟨a1, id1, h1, hext, h2, h3, h4⟩ := copyOrAdopt_tree (r := r) (to := n.id) hv hf
  obtain ⟨vs, hc, hxs⟩ := hn
  obtain ⟨x, hx, hxc⟩ := acont_some hc
  simp only [ANode.cont, Cont.mk.injEq] at hxc
  obtain ⟨e1, e2, e3⟩ := hxc
  have hnlt := acont_lt hc
  have hc1 : A.cont a1 r n.id = some ⟨tArray, [], vs⟩ := by rw [hext.old _ hnlt, hc]
  obtain ⟨x1, hx1, hxc1⟩ := acont_some hc1
  simp only [ANode.cont, Cont.mk.injEq] at hxc1
  obtain ⟨f1, f2, f3⟩ := hxc1
  have hn1 : Reps (A.cont a1 r) (.arr xs) n.id := hext.reps ⟨vs, hc, hxs⟩
  have hc' : A.cont (A.modify a1 r n.id (A.replaceF i id1)) r n.id = some ⟨tArray, [], vs.set i ⟨id1, []⟩⟩ := by
    rw [modify_cont_eq hx1]; simp [A.replaceF, ANode.cont, f1, f2, f3]
  have hlen' := (repsElems_iff.1 hxs).1
  refine ⟨_, a1, id1, A.replaceF i id1, ?_, hext, rfl, vs, hc, hc', ?_⟩
  · unfold A.replace
    rw [aget_some hd hx, document_doc hd]
    simp only
    rw [if_pos ⟨e1, by omega, by rw [e3]; omega⟩, hdv, h1]
    simp only [Int.toNat_natCast]
    rw [if_pos (by omega)]
  · refine ⟨_, hc', ?_⟩
    have hxs1 : RepsElems (A.cont a1 r) xs vs := by
      obtain ⟨vs1, g1, g2⟩ := hn1
      rw [hc1] at g1; simp at g1; subst g1; exact g2
    have hxs' := modify_repsElems (f := A.replaceF i id1) hxs1 (fun v hv => reps_child_no_loop hn1 hc1 hv)
    have ht' := modify_reps (f := A.replaceF i id1) h2 (fun _ hr => hins (h4 _ hr hnlt))
    obtain ⟨l1, l2⟩ := repsElems_iff.1 hxs'
    rw [repsElems_iff]
    refine ⟨by simp [l1], ?_⟩
    intro j y w hy hw
    by_cases hj : i = j
    · subst hj
      rw [List.getElem?_set_self (by omega)] at hy hw
      simp at hy hw; subst hy; subst hw
      exact ⟨rfl, ht'⟩
    · rw [List.getElem?_set_ne hj] at hy hw
      exact l2 j y w hy hw

/-- a mutation that only rewrites the node's own values, keeping a selection of them -/
theorem update_tree {a : AH} {n : Node} {r : Ref} {t t' : JVal} {typ : Typ} {vs vs' : List V} {f : ANode → ANode}
    (hd : A.document a n = some r) (hn : Reps (A.cont a r) t n.id) (hc : A.cont a r n.id = some ⟨typ, [], vs⟩)
    (hf : ∀ x : ANode, x.cont = ⟨typ, [], vs⟩ → (f x).cont = ⟨typ, [], vs'⟩)
    (hsub : ∀ g, (∀ v ∈ vs, ∀ j, Reach (A.cont a r) v.id j → g j = A.cont a r j) → g n.id = some ⟨typ, [], vs'⟩ → Reps g t' n.id) :
    A.update a n f = A.modify a r n.id f ∧ A.cont (A.update a n f) r n.id = some ⟨typ, [], vs'⟩ ∧ Reps (A.cont (A.update a n f) r) t' n.id := by
  obtain ⟨x, hx, hxc⟩ := acont_some hc
  have hu : A.update a n f = A.modify a r n.id f := by
    unfold A.update
    rw [aget_some hd hx, document_doc hd]
  have hc' : A.cont (A.modify a r n.id f) r n.id = some ⟨typ, [], vs'⟩ := by rw [modify_cont_eq hx, hf x hxc]
  rw [hu]
  refine ⟨rfl, hc', hsub _ ?_ hc'⟩
  intro v hv j hj
  apply modify_cont_ne
  rintro _ rfl
  exact reps_child_no_loop hn hc hv hj

/-! ## what a mutation leaves alone -/

/-- `a'` differs from `a` only by node `id` of document `r` and by new nodes of `r` -/
structure Local (a a' : AH) (r : Ref) (id : Nat) : Prop where
  other : ∀ q, q ≠ r → a' q = a q
  rev : (a' r).rev = (a r).rev
  len : (a r).nodes.length ≤ (a' r).nodes.length
  old : ∀ j, j < (a r).nodes.length → j ≠ id → A.cont a' r j = A.cont a r j

theorem Local.refl (a : AH) (r : Ref) (id : Nat) : Local a a r id := ⟨fun _ _ => rfl, rfl, Nat.le_refl _, fun _ _ _ => rfl⟩

theorem Ext.local_ {a a' : AH} {r : Ref} (h : Ext a a' r) (id : Nat) : Local a a' r id :=
  ⟨h.other, h.rev, h.len, fun j hj _ => h.old j hj⟩

theorem local_modify {a a1 : AH} {r : Ref} {id : Nat} (h : Ext a a1 r) (f : ANode → ANode) : Local a (A.modify a1 r id f) r id where
  other q hq := by rw [← h.other q hq]; simp [A.modify, AH.set, hq]
  rev := by rw [← h.rev]; simp [A.modify, AH.set]
  len := by rw [modify_nodes]; simp; exact h.len
  old j hj hne := by rw [modify_cont_ne (fun _ => hne), h.old j hj]

theorem Local.document {a a' : AH} {r : Ref} {id : Nat} (h : Local a a' r id) (n : Node) : A.document a' n = A.document a n := by
  unfold A.document
  cases n.doc with
  | none => rfl
  | some q =>
    simp only
    by_cases hq : q = r
    · subst hq; rw [h.rev]
    · rw [h.other q hq]

theorem Local.reps {a a' : AH} {r q : Ref} {id : Nat} (h : Local a a' r id) {t : JVal} {j : Nat} (ht : Reps (A.cont a q) t j)
    (hr : q = r → ¬ Reach (A.cont a r) j id) : Reps (A.cont a' q) t j := by
  apply reps_congr ht
  intro k hk
  by_cases hq : q = r
  · subst hq
    exact h.old k (reach_lt ht hk) (fun he => by subst he; exact hr rfl hk)
  · unfold A.cont; rw [h.other q hq]

theorem local_update (a : AH) (n : Node) (f : ANode → ANode) : A.update a n f = a ∨ ∃ r, A.document a n = some r ∧ Local a (A.update a n f) r n.id := by
  unfold A.update
  cases hg : A.get a n with
  | none => exact Or.inl rfl
  | some x =>
    cases hd : n.doc with
    | none => exact Or.inl rfl
    | some r =>
      refine Or.inr ⟨r, ?_, local_modify (.refl _ _) f⟩
      unfold A.get at hg
      cases hdd : A.document a n with
      | none => rw [hdd] at hg; simp [A.getOf] at hg
      | some r' => have := document_doc hdd; rw [hd] at this; simp at this; rw [this]

theorem aget_doc {a : AH} {n : Node} {x : ANode} (h : A.get a n = some x) : ∃ r, A.document a n = some r ∧ n.doc = some r := by
  unfold A.get at h
  cases hdd : A.document a n with
  | none => rw [hdd] at h; simp [A.getOf] at h
  | some r => exact ⟨r, rfl, document_doc hdd⟩

theorem local_nset {a a' : AH} {fuel : Nat} {n v : Node} {k : Bytes} (h : A.nset a fuel n k v = some a') :
    a' = a ∨ ∃ r, A.document a n = some r ∧ Local a a' r n.id := by
  unfold A.nset at h
  cases hg : A.get a n with
  | none => rw [hg] at h; simp at h; exact Or.inl h.symm
  | some x =>
    obtain ⟨r, h1, h2⟩ := aget_doc hg
    rw [hg, h2] at h
    simp only at h
    split at h
    · split at h
      · simp at h
      · rename_i a1 id1 hc
        have hext := copyOrAdopt_ext hc
        split at h
        · simp at h; exact Or.inr ⟨r, h1, by rw [← h]; exact local_modify hext _⟩
        · simp at h; exact Or.inr ⟨r, h1, by rw [← h]; exact hext.local_ _⟩
    · simp at h; exact Or.inl h.symm

theorem local_replace {a a' : AH} {fuel : Nat} {n v : Node} {i : Int} (h : A.replace a fuel n i v = some a') :
    a' = a ∨ ∃ r, A.document a n = some r ∧ Local a a' r n.id := by
  unfold A.replace at h
  cases hg : A.get a n with
  | none => rw [hg] at h; simp at h; exact Or.inl h.symm
  | some x =>
    obtain ⟨r, h1, h2⟩ := aget_doc hg
    rw [hg, h2] at h
    simp only at h
    split at h
    · split at h
      · simp at h
      · rename_i a1 id1 hc
        have hext := copyOrAdopt_ext hc
        split at h
        · simp at h; exact Or.inr ⟨r, h1, by rw [← h]; exact local_modify hext _⟩
        · simp at h; exact Or.inr ⟨r, h1, by rw [← h]; exact hext.local_ _⟩
    · simp at h; exact Or.inl h.symm

theorem appendLoop_ext {fuel : Nat} {r : Ref} {to : Nat} : ∀ {vals : List Node} {a a' : AH} {vv vv' : List V},
    A.appendLoop fuel r to vals a vv = some (a', vv') → Ext a a' r
  | [], a, a', vv, vv', h => by simp [A.appendLoop] at h; rw [← h.1]; exact .refl _ _
  | v :: vals, a, a', vv, vv', h => by
    unfold A.appendLoop at h
    split at h
    · simp at h
    · rename_i a1 id1 hc
      exact (copyOrAdopt_ext hc).trans (appendLoop_ext h)

theorem local_append {a a' : AH} {fuel : Nat} {n : Node} {vals : List Node} (h : A.append a fuel n vals = some a') :
    a' = a ∨ ∃ r, A.document a n = some r ∧ Local a a' r n.id := by
  unfold A.append at h
  split at h
  · simp at h; exact Or.inl h.symm
  · cases hg : A.get a n with
    | none => rw [hg] at h; simp at h; exact Or.inl h.symm
    | some x =>
      obtain ⟨r, h1, h2⟩ := aget_doc hg
      rw [hg, h2] at h
      simp only at h
      split at h
      · split at h
        · simp at h
        · rename_i a1 vv hc
          simp at h
          exact Or.inr ⟨r, h1, by rw [← h]; exact local_modify (appendLoop_ext hc) _⟩
      · simp at h; exact Or.inl h.symm

end Verif.Njson
