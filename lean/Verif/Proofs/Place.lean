import Verif.Spec.Place
import Verif.Spec.History
import Verif.Proofs.Mut

/-! # Lemmas about places -/

namespace Verif.Njson
open Verif Verif.Spec

theorem leads_reach {g : Nat → Option Cont} {a b : Nat} {p : List Nat} (h : LeadsTo g a p b) : Reach g a b := by
  induction h with
  | here a => exact .refl a
  | child h1 h2 _ ih => exact .step h1 (List.mem_of_getElem? h2) ih

theorem reach_leads {g : Nat → Option Cont} {a b : Nat} (h : Reach g a b) : ∃ p, LeadsTo g a p b := by
  induction h with
  | refl a => exact ⟨[], .here a⟩
  | step h1 h2 _ ih =>
    obtain ⟨p, hp⟩ := ih
    obtain ⟨i, hi⟩ := List.mem_iff_getElem?.1 h2
    exact ⟨i :: p, .child h1 hi hp⟩

/-- the tree of a node with one place of `b` below it, after the content of `b` changed -/
theorem reps_setAt {g g' : Nat → Option Cont} {b : Nat} {s : JVal} (hs : Reps g' s b) : ∀ (p : List Nat) (a : Nat) (t : JVal),
    Reps g t a → (∀ j, Reach g a j → j ≠ b → g' j = g j) → LeadsTo g a p b → (∀ q, LeadsTo g a q b → q = p) → Reps g' (t.setAt p s) a
  | [], a, t, ht, hg, hp, _ => by
    cases hp
    unfold JVal.setAt
    exact hs
  | i :: p, a, t, ht, hg, hp, hu => by
    have hne : a ≠ b := by
      rintro rfl
      have := hu [] (.here a)
      simp at this
    have hga := hg a (.refl a) hne
    cases hp with
    | @child _ _ _ _ c v h1 h2 h3 =>
    have other : ∀ (j : Nat) (w : V), c.vals[j]? = some w → j ≠ i → ∀ k, Reach g w.id k → g' k = g k := by
      intro j w hw hj k hk
      refine hg k (.step h1 (List.mem_of_getElem? hw) hk) ?_
      rintro rfl
      obtain ⟨q, hq⟩ := reach_leads hk
      have := hu (j :: q) (.child h1 hw hq)
      simp at this
      exact hj this.1
    have below : ∀ x : JVal, Reps g x v.id → Reps g' (x.setAt p s) v.id := fun x hx =>
      reps_setAt hs p v.id x hx (fun j hj hjb => hg j (.step h1 (List.mem_of_getElem? h2) hj) hjb) h3 (by
        intro q hq
        have := hu (i :: q) (.child h1 h2 hq)
        simpa using this)
    have scalar : ∀ {typ : Typ} {raw : Bytes}, g a = some ⟨typ, raw, []⟩ → False := by
      intro typ raw h
      rw [h1] at h
      simp only [Option.some.injEq] at h
      subst h
      simp at h2
    cases t with
    | null => exact (scalar ht).elim
    | bool x => cases x <;> exact (scalar ht).elim
    | num x => exact (scalar ht).elim
    | str x => exact (scalar ht).elim
    | arr xs =>
      obtain ⟨vs, e1, e2⟩ := ht
      rw [h1] at e1
      simp only [Option.some.injEq] at e1
      subst e1
      obtain ⟨l1, l2⟩ := repsElems_iff.1 e2
      unfold JVal.setAt
      refine ⟨vs, by rw [hga, h1], repsElems_iff.2 ⟨by simpa using l1, ?_⟩⟩
      intro j x w hx hw
      rw [List.getElem?_modify] at hx
      cases hy : xs[j]? with
      | none => rw [hy] at hx; simp at hx
      | some y =>
        rw [hy] at hx
        simp only [Option.map_eq_map, Option.map_some, Option.some.injEq] at hx
        obtain ⟨k1, k2⟩ := l2 j y w hy hw
        refine ⟨k1, ?_⟩
        by_cases hj : i = j
        · subst hj
          rw [h2] at hw
          simp only [Option.some.injEq] at hw
          subst hw
          rw [if_pos rfl] at hx
          subst hx
          exact below y k2
        · rw [if_neg hj] at hx
          subst hx
          exact reps_congr k2 (other j w hw (Ne.symm hj))
    | obj ms =>
      obtain ⟨vs, e1, e2⟩ := ht
      rw [h1] at e1
      simp only [Option.some.injEq] at e1
      subst e1
      obtain ⟨l1, l2⟩ := repsMembers_iff.1 e2
      unfold JVal.setAt
      refine ⟨vs, by rw [hga, h1], repsMembers_iff.2 ⟨by simpa using l1, ?_⟩⟩
      intro j x w hx hw
      rw [List.getElem?_modify] at hx
      cases hy : ms[j]? with
      | none => rw [hy] at hx; simp at hx
      | some y =>
        rw [hy] at hx
        simp only [Option.map_eq_map, Option.map_some, Option.some.injEq] at hx
        obtain ⟨k1, k2⟩ := l2 j y w hy hw
        by_cases hj : i = j
        · subst hj
          rw [h2] at hw
          simp only [Option.some.injEq] at hw
          subst hw
          rw [if_pos rfl] at hx
          subst hx
          exact ⟨k1, below y.2 k2⟩
        · rw [if_neg hj] at hx
          subst hx
          exact ⟨k1, reps_congr k2 (other j w hw (Ne.symm hj))⟩

/-- the tree of a node with any number of places of `b` below it, after the content of `b` changed -/
theorem reps_places (g g' : Nat → Option Cont) (b : Nat) (s : JVal) (hs : Reps g' s b) :
    (∀ t : JVal, ∀ a, Reps g t a → (∀ j, Reach g a j → j ≠ b → g' j = g j) → ∃ t' : JVal, Reps g' t' a ∧
      (∀ p, LeadsTo g a p b → t'.at p = some s) ∧
      ∀ p, (∀ q, q <+: p → ¬ LeadsTo g a q b) → (t'.at p).map JVal.top = (t.at p).map JVal.top) ∧
    (∀ xs : List JVal, ∀ vs, RepsElems g xs vs → (∀ v ∈ vs, ∀ j, Reach g v.id j → j ≠ b → g' j = g j) → ∃ xs' : List JVal,
      RepsElems g' xs' vs ∧ ∀ (i : Nat) (v : V), vs[i]? = some v →
        (∀ p, LeadsTo g v.id p b → xs'[i]?.bind (JVal.at p) = some s) ∧
        ∀ p, (∀ q, q <+: p → ¬ LeadsTo g v.id q b) → (xs'[i]?.bind (JVal.at p)).map JVal.top = (xs[i]?.bind (JVal.at p)).map JVal.top) ∧
    (∀ ms : List (Bytes × JVal), ∀ vs, RepsMembers g ms vs → (∀ v ∈ vs, ∀ j, Reach g v.id j → j ≠ b → g' j = g j) →
      ∃ ms' : List (Bytes × JVal), RepsMembers g' ms' vs ∧ ms'.map (·.1) = ms.map (·.1) ∧ ∀ (i : Nat) (v : V), vs[i]? = some v →
        (∀ p, LeadsTo g v.id p b → ms'[i]?.bind (fun m => JVal.at p m.2) = some s) ∧
        ∀ p, (∀ q, q <+: p → ¬ LeadsTo g v.id q b) →
          (ms'[i]?.bind (fun m => JVal.at p m.2)).map JVal.top = (ms[i]?.bind (fun m => JVal.at p m.2)).map JVal.top) := by
  have here : ∀ {t : JVal}, Reps g t b → ∃ t' : JVal, Reps g' t' b ∧
      (∀ p, LeadsTo g b p b → t'.at p = some s) ∧
      ∀ p, (∀ q, q <+: p → ¬ LeadsTo g b q b) → (t'.at p).map JVal.top = (t.at p).map JVal.top := by
    intro t ht
    refine ⟨s, hs, ?_, fun p hp => absurd (.here b) (hp [] List.nil_prefix)⟩
    intro p hp
    cases hp with
    | here => rfl
    | child h1 h2 h3 => exact absurd (leads_reach h3) (reps_child_no_loop ht h1 (List.mem_of_getElem? h2))
  have leaf : ∀ {t : JVal} {a : Nat} {typ : Typ} {raw : Bytes}, Reps g t a → g a = some ⟨typ, raw, []⟩ →
      (g' a = g a → Reps g' t a) → (∀ j, Reach g a j → j ≠ b → g' j = g j) → ∃ t' : JVal, Reps g' t' a ∧
      (∀ p, LeadsTo g a p b → t'.at p = some s) ∧
      ∀ p, (∀ q, q <+: p → ¬ LeadsTo g a q b) → (t'.at p).map JVal.top = (t.at p).map JVal.top := by
    intro t a typ raw ht hc hk hg
    by_cases hab : a = b
    · subst hab; exact here ht
    · refine ⟨t, hk (hg a (.refl a) hab), ?_, fun p _ => rfl⟩
      intro p hp
      cases hp with
      | here => exact absurd rfl hab
      | child h1 h2 h3 => rw [hc] at h1; simp only [Option.some.injEq] at h1; subst h1; simp at h2
  apply jval_ind
  · intro a h hg; exact leaf h h (fun e => by show g' a = _; rw [e]; exact h) hg
  · intro x a h hg; cases x <;> exact leaf h h (fun e => by show g' a = _; rw [e]; exact h) hg
  · intro x a h hg; exact leaf h h (fun e => by show g' a = _; rw [e]; exact h) hg
  · intro x a h hg; exact leaf h h (fun e => by show g' a = _; rw [e]; exact h) hg
  · intro xs ih a h hg
    by_cases hab : a = b
    · subst hab; exact here h
    obtain ⟨vs, h1, h2⟩ := h
    obtain ⟨xs', e1, e2⟩ := ih vs h2 fun v hv j hj => hg j (.step h1 hv hj)
    refine ⟨.arr xs', ⟨vs, by rw [hg a (.refl a) hab, h1], e1⟩, ?_, ?_⟩
    · intro p hp
      cases hp with
      | here => exact absurd rfl hab
      | child k1 k2 k3 =>
        rw [h1] at k1
        simp only [Option.some.injEq] at k1
        subst k1
        exact (e2 _ _ k2).1 _ k3
    · intro p hp
      cases p with
      | nil =>
        have l1 := (repsElems_iff.1 h2).1
        have l2 := (repsElems_iff.1 e1).1
        simp only [JVal.at, Option.map_some, JVal.top, Option.some.injEq, JVal.arr.injEq]
        simp only [List.map_const', l1, l2]
      | cons i p =>
        cases hv : vs[i]? with
        | none =>
          have hv' := List.getElem?_eq_none_iff.1 hv
          have l1 := (repsElems_iff.1 h2).1
          have l2 := (repsElems_iff.1 e1).1
          simp only [JVal.at]
          rw [List.getElem?_eq_none_iff.2 (by omega), List.getElem?_eq_none_iff.2 (by omega)]
        | some v => exact (e2 i v hv).2 p fun q hq hat => hp (i :: q) (by simpa using hq) (.child h1 hv hat)
  · intro ms ih a h hg
    by_cases hab : a = b
    · subst hab; exact here h
    obtain ⟨vs, h1, h2⟩ := h
    obtain ⟨ms', e1, e3, e2⟩ := ih vs h2 fun v hv j hj => hg j (.step h1 hv hj)
    refine ⟨.obj ms', ⟨vs, by rw [hg a (.refl a) hab, h1], e1⟩, ?_, ?_⟩
    · intro p hp
      cases hp with
      | here => exact absurd rfl hab
      | child k1 k2 k3 =>
        rw [h1] at k1
        simp only [Option.some.injEq] at k1
        subst k1
        exact (e2 _ _ k2).1 _ k3
    · intro p hp
      cases p with
      | nil =>
        have hm : ∀ l : List (Bytes × JVal), l.map (fun m => (m.1, JVal.null)) = (l.map (·.1)).map fun k => (k, JVal.null) := by
          intro l; simp
        simp only [JVal.at, Option.map_some, JVal.top, Option.some.injEq, JVal.obj.injEq]
        rw [hm, hm, e3]
      | cons i p =>
        cases hv : vs[i]? with
        | none =>
          have hv' := List.getElem?_eq_none_iff.1 hv
          have l1 := (repsMembers_iff.1 h2).1
          have l2 := (repsMembers_iff.1 e1).1
          simp only [JVal.at]
          rw [List.getElem?_eq_none_iff.2 (by omega), List.getElem?_eq_none_iff.2 (by omega)]
        | some v => exact (e2 i v hv).2 p fun q hq hat => hp (i :: q) (by simpa using hq) (.child h1 hv hat)
  · intro vs h _
    have hvs : vs = [] := h
    subst hvs
    exact ⟨[], h, fun i v hv => by simp at hv⟩
  · intro x xs i1 i2 vs h hg
    obtain ⟨id, vs', rfl, e1, e2⟩ := h
    obtain ⟨x', a1, a2, a3⟩ := i1 id e1 (hg _ List.mem_cons_self)
    obtain ⟨xs', b1, b2⟩ := i2 vs' e2 fun v hv => hg v (by simp [hv])
    refine ⟨x' :: xs', ⟨id, vs', rfl, a1, b1⟩, ?_⟩
    intro i v hv
    cases i with
    | zero =>
      simp only [List.getElem?_cons_zero, Option.some.injEq] at hv
      subst hv
      exact ⟨a2, a3⟩
    | succ i => exact b2 i v (by simpa using hv)
  · intro vs h _
    have hvs : vs = [] := h
    subst hvs
    exact ⟨[], h, rfl, fun i v hv => by simp at hv⟩
  · intro k x xs i1 i2 vs h hg
    obtain ⟨id, vs', rfl, e1, e2⟩ := h
    obtain ⟨x', a1, a2, a3⟩ := i1 id e1 (hg _ List.mem_cons_self)
    obtain ⟨xs', b1, b3, b2⟩ := i2 vs' e2 fun v hv => hg v (by simp [hv])
    refine ⟨(k, x') :: xs', ⟨id, vs', rfl, a1, b1⟩, by simp [b3], ?_⟩
    intro i v hv
    cases i with
    | zero =>
      simp only [List.getElem?_cons_zero, Option.some.injEq] at hv
      subst hv
      exact ⟨a2, a3⟩
    | succ i => exact b2 i v (by simpa using hv)

end Verif.Njson
