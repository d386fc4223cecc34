import Verif.Model.UnCache

/-! # The invariant of the codec cache -/

namespace Verif.UnCache
open Verif Verif.Unjson

/-- What a goroutine's position says about the shared state. -/
def PcOk (fails : Kind → Ty → Option UErr) (s : St) (i : Nat) : PC → Prop
  | .idle => i ∉ s.readers ∧ s.writer ≠ some i
  | .start _ _ => i ∉ s.readers ∧ s.writer ≠ some i
  | .reading _ _ => i ∈ s.readers ∧ s.writer ≠ some i
  | .read k t v => i ∈ s.readers ∧ s.writer ≠ some i ∧ ∀ x, v = some x → lookup (s.table k) t = some x
  | .checked k t v => i ∉ s.readers ∧ s.writer ≠ some i ∧ ∀ x, v = some x → lookup (s.table k) t = some x
  | .built k t v => i ∉ s.readers ∧ s.writer ≠ some i ∧ s.made[v]? = some (k, t) ∧ fails k t = none
  | .locked k t v => i ∉ s.readers ∧ s.writer = some i ∧ s.made[v]? = some (k, t) ∧ fails k t = none
  | .found k t d => i ∉ s.readers ∧ s.writer = some i ∧ lookup (s.table k) t = some d
  | .making k t v => i ∉ s.readers ∧ s.writer = some i ∧ s.made[v]? = some (k, t) ∧ lookup (s.table k) t = none ∧ fails k t = none
  | .storing k t v => i ∉ s.readers ∧ s.writer = some i ∧ s.made[v]? = some (k, t) ∧ lookup (s.table k) t = none ∧ s.table k ≠ none ∧ fails k t = none
  | .stored k t v => i ∉ s.readers ∧ s.writer = some i ∧ lookup (s.table k) t = some v
  | .panicked => False

structure Inv (fails : Kind → Ty → Option UErr) (s : St) : Prop where
  pcs : ∀ i, PcOk fails s i (s.pcs i)
  excl : s.writer ≠ none → s.readers = []
  nodup : s.readers.Nodup
  table : ∀ k t v, lookup (s.table k) t = some v → s.made[v]? = some (k, t) ∧ fails k t = none
  ok : ∀ k t v, (k, t, .ok v) ∈ s.log → lookup (s.table k) t = some v
  err : ∀ k t e, (k, t, .error e) ∈ s.log → fails k t = some e

/-- The table only grows. -/
def Grows (s s' : St) : Prop := (∀ k t v, lookup (s.table k) t = some v → lookup (s'.table k) t = some v) ∧
  (∀ (i : Nat) (m : Kind × Ty), s.made[i]? = some m → s'.made[i]? = some m)

theorem Grows.refl (s : St) : Grows s s := ⟨fun _ _ _ h => h, fun _ _ h => h⟩
theorem Grows.trans {s s' s'' : St} (h : Grows s s') (h' : Grows s' s'') : Grows s s'' :=
  ⟨fun k t v h1 => h'.1 k t v (h.1 k t v h1), fun i m h1 => h'.2 i m (h.2 i m h1)⟩

/-- The position of another goroutine stays right when the table grows and that goroutine's locks are untouched; those
that know of an absent entry hold the lock. -/
theorem pcOk_mono {fails : Kind → Ty → Option UErr} {s s' : St} {j : Nat} {p : PC} (h : PcOk fails s j p) (hg : Grows s s') (hr : j ∈ s'.readers ↔ j ∈ s.readers)
    (hw : s'.writer = some j ↔ s.writer = some j) (ht : s.writer = some j → s'.table = s.table) : PcOk fails s' j p := by
  cases p <;> simp only [PcOk, ne_eq, hr, hw] at h ⊢
  case read => exact ⟨h.1, h.2.1, fun x hx => hg.1 _ _ _ (h.2.2 x hx)⟩
  case checked => exact ⟨h.1, h.2.1, fun x hx => hg.1 _ _ _ (h.2.2 x hx)⟩
  case built => exact ⟨h.1, h.2.1, hg.2 _ _ h.2.2.1, h.2.2.2⟩
  case locked => exact ⟨h.1, h.2.1, hg.2 _ _ h.2.2.1, h.2.2.2⟩
  case found => exact ⟨h.1, h.2.1, hg.1 _ _ _ h.2.2⟩
  case making => rw [ht h.2.1]; exact ⟨h.1, h.2.1, hg.2 _ _ h.2.2.1, h.2.2.2⟩
  case storing => rw [ht h.2.1]; exact ⟨h.1, h.2.1, hg.2 _ _ h.2.2.1, h.2.2.2⟩
  case stored => exact ⟨h.1, h.2.1, hg.1 _ _ _ h.2.2⟩
  all_goals exact h

theorem setPc_pcs {s : St} {i j : Nat} {p : PC} : (setPc s i p).pcs j = if j = i then p else s.pcs j := rfl

theorem step_grows {fails : Kind → Ty → Option UErr} {i : Nat} {s s' : St} (hi : Inv fails s) (h : Step fails i s s') : Grows s s' := by
  cases h with
  | build h1 h2 =>
    refine ⟨fun _ _ _ h => h, fun j m hm => ?_⟩
    simp only [setPc]
    rw [List.getElem?_append_left (List.getElem?_eq_some_iff.1 hm).1]; exact hm
  | @make k t v h1 =>
    refine ⟨fun k' t' v' h => ?_, fun _ _ h => h⟩
    simp only [setPc]
    by_cases hk : k' = k
    · subst hk
      rw [if_pos rfl]
      cases hs : s.table k' with
      | none => rw [hs] at h; cases h
      | some f => rw [hs] at h; exact h
    · rw [if_neg hk]; exact h
  | @store k t v f h1 h2 =>
    refine ⟨fun k' t' v' h => ?_, fun _ _ h => h⟩
    simp only [setPc]
    by_cases hk : k' = k
    · subst hk
      rw [if_pos rfl]
      rw [h2] at h
      simp only [lookup] at h ⊢
      by_cases ht : t' = t
      · have := hi.pcs i
        rw [h1] at this
        have := this.2.2.2.1
        rw [h2] at this
        subst ht
        simp only [lookup] at this
        rw [this] at h; cases h
      · rw [if_neg ht]; exact h
    · rw [if_neg hk]; exact h
  | _ => exact ⟨fun _ _ _ h => h, fun _ _ h => h⟩

theorem inv_init (fails : Kind → Ty → Option UErr) : Inv fails St.init :=
  ⟨fun i => ⟨by simp [St.init], by simp [St.init]⟩, fun h => rfl, List.nodup_nil, by simp [St.init, lookup], by simp [St.init], by simp [St.init]⟩

theorem inv_step {fails : Kind → Ty → Option UErr} {i : Nat} {s s' : St} (hi : Inv fails s) (h : Step fails i s s') : Inv fails s' := by
  have hg := step_grows hi h
  have hpi := hi.pcs i
  -- the others
  have others : (∀ j, j ≠ i → s'.pcs j = s.pcs j) → (∀ j, j ≠ i → (j ∈ s'.readers ↔ j ∈ s.readers)) →
      (∀ j, j ≠ i → (s'.writer = some j ↔ s.writer = some j)) → (∀ j, j ≠ i → s.writer = some j → s'.table = s.table) →
      PcOk fails s' i (s'.pcs i) → ∀ j, PcOk fails s' j (s'.pcs j) := by
    intro h1 h2 h3 h4 h5 j
    by_cases hj : j = i
    · subst hj; exact h5
    · rw [h1 j hj]; exact pcOk_mono (hi.pcs j) hg (h2 j hj) (h3 j hj) (h4 j hj)
  have pcsj : ∀ {t : St} {p : PC}, t.pcs = s.pcs → ∀ j, j ≠ i → (setPc t i p).pcs j = s.pcs j := by
    intro t p ht j hj; rw [setPc_pcs, if_neg hj, ht]
  have pcsi : ∀ {t : St} {p : PC}, (setPc t i p).pcs i = p := by intro t p; rw [setPc_pcs, if_pos rfl]
  cases h with
  | call k t h1 =>
    rw [h1] at hpi
    refine ⟨others (pcsj rfl) (fun _ _ => Iff.rfl) (fun _ _ => Iff.rfl) (fun _ _ _ => rfl) ?_, hi.excl, hi.nodup, hi.table, hi.ok, hi.err⟩
    rw [pcsi]; exact hpi
  | @rlock k t h1 h2 =>
    rw [h1] at hpi
    refine ⟨others (pcsj rfl) (fun j hj => ?_) (fun _ _ => Iff.rfl) (fun _ _ _ => rfl) ?_, fun h => absurd h2 h, List.nodup_cons.2 ⟨hpi.1, hi.nodup⟩, hi.table, hi.ok, hi.err⟩
    · simp [setPc, hj]
    · rw [pcsi]; exact ⟨by simp [setPc], hpi.2⟩
  | @get k t h1 =>
    rw [h1] at hpi
    refine ⟨others (pcsj rfl) (fun _ _ => Iff.rfl) (fun _ _ => Iff.rfl) (fun _ _ _ => rfl) ?_, hi.excl, hi.nodup, hi.table, hi.ok, hi.err⟩
    rw [pcsi]; exact ⟨hpi.1, hpi.2, fun x hx => hx⟩
  | @runlock k t v h1 =>
    rw [h1] at hpi
    refine ⟨others (pcsj rfl) (fun j hj => ?_) (fun _ _ => Iff.rfl) (fun _ _ _ => rfl) ?_, fun h => ?_, hi.nodup.erase i, hi.table, hi.ok, hi.err⟩
    · exact List.mem_erase_of_ne hj
    · rw [pcsi]
      refine ⟨?_, hpi.2⟩
      simp only [setPc]
      exact fun h => absurd rfl (hi.nodup.mem_erase_iff.1 h).1
    · simp only [setPc] at h ⊢
      rw [hi.excl h]; rfl
  | @hit k t v h1 =>
    rw [h1] at hpi
    refine ⟨others (pcsj rfl) (fun _ _ => Iff.rfl) (fun _ _ => Iff.rfl) (fun _ _ _ => rfl) ?_, hi.excl, hi.nodup, hi.table, ?_, ?_⟩
    · rw [pcsi]; exact ⟨hpi.1, hpi.2.1⟩
    · intro k' t' v' hm
      rcases List.mem_cons.1 hm with hm | hm
      · cases hm; exact hpi.2.2 v rfl
      · exact hi.ok _ _ _ hm
    · intro k' t' e' hm
      rcases List.mem_cons.1 hm with hm | hm
      · cases hm
      · exact hi.err _ _ _ hm
  | @fail k t e h1 h2 =>
    rw [h1] at hpi
    refine ⟨others (pcsj rfl) (fun _ _ => Iff.rfl) (fun _ _ => Iff.rfl) (fun _ _ _ => rfl) ?_, hi.excl, hi.nodup, hi.table, ?_, ?_⟩
    · rw [pcsi]; exact ⟨hpi.1, hpi.2.1⟩
    · intro k' t' v' hm
      rcases List.mem_cons.1 hm with hm | hm
      · cases hm
      · exact hi.ok _ _ _ hm
    · intro k' t' e' hm
      rcases List.mem_cons.1 hm with hm | hm
      · cases hm; exact h2
      · exact hi.err _ _ _ hm
  | @build k t h1 h2 =>
    rw [h1] at hpi
    refine ⟨others (pcsj rfl) (fun _ _ => Iff.rfl) (fun _ _ => Iff.rfl) (fun _ _ _ => rfl) ?_, hi.excl, hi.nodup, ?_, hi.ok, hi.err⟩
    · rw [pcsi]; exact ⟨hpi.1, hpi.2.1, by simp [setPc], h2⟩
    · intro k' t' v' h
      exact ⟨hg.2 _ _ (hi.table k' t' v' h).1, (hi.table k' t' v' h).2⟩
  | @lock k t v h1 h2 h3 =>
    rw [h1] at hpi
    refine ⟨others (pcsj rfl) (fun _ _ => Iff.rfl) (fun j hj => ?_) (fun j hj h => ?_) ?_, fun _ => h3, hi.nodup, hi.table, hi.ok, hi.err⟩
    · simp only [setPc, h2]
      constructor
      · intro h; cases h; exact absurd rfl hj
      · intro h; cases h
    · rw [h2] at h; cases h
    · rw [pcsi]; exact ⟨hpi.1, rfl, hpi.2.2⟩
  | @recheck k t v d h1 h2 =>
    rw [h1] at hpi
    refine ⟨others (pcsj rfl) (fun _ _ => Iff.rfl) (fun _ _ => Iff.rfl) (fun _ _ _ => rfl) ?_, hi.excl, hi.nodup, hi.table, hi.ok, hi.err⟩
    rw [pcsi]; exact ⟨hpi.1, hpi.2.1, h2⟩
  | @miss k t v h1 h2 =>
    rw [h1] at hpi
    refine ⟨others (pcsj rfl) (fun _ _ => Iff.rfl) (fun _ _ => Iff.rfl) (fun _ _ _ => rfl) ?_, hi.excl, hi.nodup, hi.table, hi.ok, hi.err⟩
    rw [pcsi]; exact ⟨hpi.1, hpi.2.1, hpi.2.2.1, h2, hpi.2.2.2⟩
  | @leave k t d h1 =>
    rw [h1] at hpi
    refine ⟨others (pcsj rfl) (fun _ _ => Iff.rfl) (fun j hj => ?_) (fun _ _ _ => rfl) ?_, fun h => absurd rfl h, hi.nodup, hi.table, ?_, ?_⟩
    · simp only [setPc, hpi.2.1]
      constructor
      · intro h; cases h
      · intro h; cases h; exact absurd rfl hj
    · rw [pcsi]; exact ⟨hpi.1, by simp [setPc]⟩
    · intro k' t' v' hm
      rcases List.mem_cons.1 hm with hm | hm
      · cases hm; exact hpi.2.2
      · exact hi.ok _ _ _ hm
    · intro k' t' e' hm
      rcases List.mem_cons.1 hm with hm | hm
      · cases hm
      · exact hi.err _ _ _ hm
  | @make k t v h1 =>
    rw [h1] at hpi
    have hsame : ∀ k' t', lookup ((fun k' => if k' = k then some ((s.table k).getD fun _ => none) else s.table k') k') t' = lookup (s.table k') t' := by
      intro k' t'
      simp only
      by_cases hk : k' = k
      · subst hk; rw [if_pos rfl]; cases s.table k' <;> rfl
      · rw [if_neg hk]
    refine ⟨others (pcsj rfl) (fun _ _ => Iff.rfl) (fun _ _ => Iff.rfl) (fun j hj h => ?_) ?_, hi.excl, hi.nodup, ?_, ?_, hi.err⟩
    · rw [hpi.2.1] at h; cases h; exact absurd rfl hj
    · rw [pcsi]
      refine ⟨hpi.1, hpi.2.1, hpi.2.2.1, ?_, by simp [setPc], hpi.2.2.2.2⟩
      exact (hsame k t).trans hpi.2.2.2.1
    · intro k' t' v' h
      simp only [setPc] at h
      exact hi.table k' t' v' ((hsame k' t').symm.trans h)
    · intro k' t' v' hm
      exact (hsame k' t').trans (hi.ok _ _ _ hm)
  | @store k t v f h1 h2 =>
    rw [h1] at hpi
    refine ⟨others (pcsj rfl) (fun _ _ => Iff.rfl) (fun _ _ => Iff.rfl) (fun j hj h => ?_) ?_, hi.excl, hi.nodup, ?_, ?_, hi.err⟩
    · rw [hpi.2.1] at h; cases h; exact absurd rfl hj
    · rw [pcsi]
      exact ⟨hpi.1, hpi.2.1, by simp [setPc, lookup]⟩
    · intro k' t' v' h
      simp only [setPc] at h
      by_cases hk : k' = k
      · subst hk
        rw [if_pos rfl] at h
        simp only [lookup] at h
        by_cases ht : t' = t
        · subst ht; rw [if_pos rfl] at h; cases h; exact ⟨hpi.2.2.1, hpi.2.2.2.2.2⟩
        · rw [if_neg ht] at h; exact hi.table k' t' v' (by rw [h2]; exact h)
      · rw [if_neg hk] at h; exact hi.table k' t' v' h
    · intro k' t' v' hm
      exact hg.1 _ _ _ (hi.ok _ _ _ hm)
  | @panic k t v h1 h2 =>
    rw [h1] at hpi
    exact absurd h2 hpi.2.2.2.2.1
  | @unlock k t v h1 =>
    rw [h1] at hpi
    refine ⟨others (pcsj rfl) (fun _ _ => Iff.rfl) (fun j hj => ?_) (fun _ _ _ => rfl) ?_, fun h => absurd rfl h, hi.nodup, hi.table, ?_, ?_⟩
    · simp only [setPc, hpi.2.1]
      constructor
      · intro h; cases h
      · intro h; cases h; exact absurd rfl hj
    · rw [pcsi]; exact ⟨hpi.1, by simp [setPc]⟩
    · intro k' t' v' hm
      rcases List.mem_cons.1 hm with hm | hm
      · cases hm; exact hpi.2.2
      · exact hi.ok _ _ _ hm
    · intro k' t' e' hm
      rcases List.mem_cons.1 hm with hm | hm
      · cases hm
      · exact hi.err _ _ _ hm

theorem inv_run {fails : Kind → Ty → Option UErr} {s s' : St} (h : Run fails s s') : Inv fails s → Inv fails s' ∧ Grows s s' := by
  induction h with
  | refl => exact fun hi => ⟨hi, .refl _⟩
  | step _ hs ih => exact fun hi => ⟨inv_step (ih hi).1 hs, (ih hi).2.trans (step_grows (ih hi).1 hs)⟩

end Verif.UnCache
