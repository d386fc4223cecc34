import Verif.Model.BufPool

/-! # Ownership of the buffers -/

namespace Verif.BufPool
open Verif

/-- The arrays that somebody has -/
def State.arrs (s : State) : List Nat := s.calls.map (·.buf.arr) ++ (s.pool.map (·.arr) ++ s.own)

/-- What is in the buffer of a call -/
def Call.Right (h : Nat → Bytes) (c : Call) : Prop :=
  c.buf.len ≤ (h c.buf.arr).length ∧
  (∀ n, c.phase = .appending n → n ≤ c.chunks.length ∧ (h c.buf.arr).take c.buf.len = (c.chunks.take n).flatten) ∧
  (c.phase = .handed → (h c.buf.arr).take c.buf.len = c.chunks.flatten)

structure Inv (s : State) : Prop where
  fresh : ∀ a ∈ s.arrs, a < s.next
  nodup : s.arrs.Nodup
  right : ∀ c ∈ s.calls, c.Right s.heap

theorem Call.Right.frame {h h' : Nat → Bytes} {c : Call} (hr : c.Right h) (he : h' c.buf.arr = h c.buf.arr) : c.Right h' := by
  unfold Call.Right at hr ⊢
  rw [he]
  exact hr

theorem update_ne {h : Nat → Bytes} {a b : Nat} {s : Bytes} (hb : b ≠ a) : update h a s b = h b := by
  unfold update
  rw [if_neg hb]

theorem update_eq {h : Nat → Bytes} {a : Nat} {s : Bytes} : update h a s a = s := by
  unfold update
  rw [if_pos rfl]

theorem arrs_split {s : State} {l r : List Call} {c : Call} (e : s.calls = l ++ c :: r) :
    s.arrs.Perm (c.buf.arr :: ((l ++ r).map (·.buf.arr) ++ (s.pool.map (·.arr) ++ s.own))) := by
  unfold State.arrs
  rw [e, List.map_append, List.map_cons, List.map_append, List.append_assoc, List.append_assoc, List.cons_append]
  exact List.perm_middle

/-- what others have is another array -/
theorem other_ne {s : State} (hi : Inv s) {l r : List Call} {c : Call} (e : s.calls = l ++ c :: r) :
    ∀ a ∈ (l ++ r).map (·.buf.arr) ++ (s.pool.map (·.arr) ++ s.own), a ≠ c.buf.arr := by
  have := (arrs_split e).nodup_iff.1 hi.nodup
  rw [List.nodup_cons] at this
  intro a ha e
  exact this.1 (e ▸ ha)

theorem overwrite_take (s : Bytes) (i : Nat) (c : Bytes) (h : i + c.length ≤ s.length) :
    (overwrite s i c).take (i + c.length) = s.take i ++ c ∧ (overwrite s i c).length = s.length := by
  unfold overwrite
  constructor
  · rw [List.take_append_of_le_length (by simp; omega), List.take_of_length_le (by simp; omega)]
  · simp; omega

/-- the changes of one call: its array, and one new array at most -/
theorem step_call {s : State} (hi : Inv s) {l r : List Call} {c : Call} (e : s.calls = l ++ c :: r) {heap : Nat → Bytes} {next : Nat} {c' : Call}
    (hn : s.next ≤ next) (hc : c'.buf.arr = c.buf.arr ∨ (c'.buf.arr = s.next ∧ s.next < next))
    (hh : ∀ a, a < s.next → a ≠ c.buf.arr → heap a = s.heap a) (hr : c'.Right heap) :
    Inv { s with heap := heap, next := next, calls := l ++ c' :: r } := by
  have hp := arrs_split e
  have hp' := arrs_split (s := { s with heap := heap, next := next, calls := l ++ c' :: r }) (l := l) (r := r) (c := c') rfl
  have hne := other_ne hi e
  have hnd := hp.nodup_iff.1 hi.nodup
  rw [List.nodup_cons] at hnd
  have hlt : ∀ a ∈ (l ++ r).map (·.buf.arr) ++ (s.pool.map (·.arr) ++ s.own), a < s.next := fun a ha => hi.fresh a (hp.mem_iff.2 (List.mem_cons_of_mem _ ha))
  have hlc : c.buf.arr < s.next := hi.fresh _ (hp.mem_iff.2 List.mem_cons_self)
  refine ⟨fun a ha => ?_, ?_, fun x hx => ?_⟩
  · rcases List.mem_cons.1 (hp'.mem_iff.1 ha) with rfl | ha
    · show c'.buf.arr < next
      omega
    · have := hlt a ha
      show a < next
      omega
  · rw [hp'.nodup_iff, List.nodup_cons]
    refine ⟨fun hm => ?_, hnd.2⟩
    rcases hc with hc | ⟨hc, _⟩
    · rw [hc] at hm
      exact hnd.1 hm
    · have := hlt _ hm
      omega
  · rcases List.mem_append.1 hx with hx | hx
    · have hm : x.buf.arr ∈ (l ++ r).map (·.buf.arr) ++ (s.pool.map (·.arr) ++ s.own) :=
        List.mem_append_left _ (List.mem_map.2 ⟨x, List.mem_append_left _ hx, rfl⟩)
      exact (hi.right x (by rw [e]; exact List.mem_append_left _ hx)).frame (hh _ (hlt _ hm) (hne _ hm))
    · rcases List.mem_cons.1 hx with rfl | hx
      · exact hr
      · have hm : x.buf.arr ∈ (l ++ r).map (·.buf.arr) ++ (s.pool.map (·.arr) ++ s.own) :=
          List.mem_append_left _ (List.mem_map.2 ⟨x, List.mem_append_right _ hx, rfl⟩)
        exact (hi.right x (by rw [e]; exact List.mem_append_right _ (List.mem_cons_of_mem _ hx))).frame (hh _ (hlt _ hm) (hne _ hm))

theorem take_flatten {cs : List Bytes} {n : Nat} {x : Bytes} (h : cs[n]? = some x) : (cs.take (n + 1)).flatten = (cs.take n).flatten ++ x := by
  rw [List.take_add_one, h]
  simp

theorem inv_step {s s' : State} (hi : Inv s) (h : Step s s') : Inv s' := by
  cases h with
  | @reuse b chunks ok hb =>
    have hp : ((s.pool.erase b).map (·.arr)).Perm _ := List.Perm.refl _
    have hpool : (s.pool.map (·.arr)).Perm (b.arr :: (s.pool.erase b).map (·.arr)) := (List.perm_cons_erase hb).map _
    have hperm : s.arrs.Perm (State.arrs { s with pool := s.pool.erase b, calls := ⟨chunks, ok, .appending 0, ⟨b.arr, 0⟩⟩ :: s.calls }) := by
      unfold State.arrs
      simp only [List.map_cons]
      refine List.Perm.trans (List.Perm.append_left _ (List.Perm.append_right _ hpool)) ?_
      exact List.perm_middle
    refine ⟨fun a ha => hi.fresh a (hperm.mem_iff.2 ha), hperm.nodup_iff.1 hi.nodup, fun c hc => ?_⟩
    rcases List.mem_cons.1 hc with rfl | hc
    · refine ⟨Nat.zero_le _, fun n hn => ?_, fun h => by cases h⟩
      cases hn
      exact ⟨Nat.zero_le _, by simp⟩
    · exact hi.right c hc
  | @new chunks ok =>
    have hne : ∀ a ∈ s.arrs, a ≠ s.next := fun a ha e => Nat.lt_irrefl _ (e ▸ hi.fresh a ha)
    refine ⟨fun a ha => ?_, ?_, fun c hc => ?_⟩
    · rcases List.mem_cons.1 (show a ∈ s.next :: s.arrs from ha) with rfl | ha
      · exact Nat.lt_succ_self _
      · exact Nat.lt_succ_of_lt (hi.fresh a ha)
    · show (s.next :: s.arrs).Nodup
      exact List.nodup_cons.2 ⟨fun hm => hne _ hm rfl, hi.nodup⟩
    · rcases List.mem_cons.1 hc with rfl | hc
      · refine ⟨Nat.zero_le _, fun n hn => ?_, fun h => by cases h⟩
        cases hn
        exact ⟨Nat.zero_le _, rfl⟩
      · refine (hi.right c hc).frame (update_ne (hne _ ?_))
        exact List.mem_append_left _ (List.mem_map.2 ⟨c, hc, rfl⟩)
  | @chunk l r c n room x e hph hx =>
    have hr := hi.right c (by rw [e]; simp)
    obtain ⟨h1, h2, _⟩ := hr
    obtain ⟨h3, h4⟩ := h2 n hph
    have hlt : n < c.chunks.length := by
      rcases Nat.lt_or_ge n c.chunks.length with h | h
      · exact h
      · rw [List.getElem?_eq_none h] at hx; cases hx
    unfold State.append
    split
    · rename_i hfit
      obtain ⟨o1, o2⟩ := overwrite_take (s.heap c.buf.arr) c.buf.len x hfit
      refine step_call hi e (Nat.le_refl _) (.inl rfl) (fun a _ ha => update_ne ha) ⟨?_, fun m hm => ?_, fun h => by cases h⟩
      · simp only [update_eq, o2]; exact hfit
      · cases hm
        refine ⟨hlt, ?_⟩
        simp only [update_eq]
        rw [o1, h4, take_flatten hx]
    · refine step_call hi e (Nat.le_succ _) (.inr ⟨rfl, Nat.lt_succ_self _⟩) (fun a ha _ => update_ne (by omega)) ⟨?_, fun m hm => ?_, fun h => by cases h⟩
      · simp only [update_eq, State.content, List.length_append, List.length_take]
        omega
      · cases hm
        refine ⟨hlt, ?_⟩
        simp only [update_eq, State.content]
        rw [h4, List.append_assoc, ← List.append_assoc]
        have hl : c.buf.len = (c.chunks.take n).flatten.length := by rw [← h4, List.length_take]; omega
        rw [List.take_append_of_le_length (by rw [List.length_append]; omega), List.take_of_length_le (by rw [List.length_append]; omega), take_flatten hx]
  | @returns l r c e hph =>
    obtain ⟨h1, h2, _⟩ := hi.right c (by rw [e]; simp)
    obtain ⟨h3, h4⟩ := h2 _ hph
    refine step_call hi e (Nat.le_refl _) (.inl rfl) (fun _ _ _ => rfl) ⟨h1, fun m hm => ?_, fun _ => ?_⟩
    · dsimp only at hm
      split at hm <;> cases hm
    · simpa using h4
  | @fails l r c n e hph hok =>
    refine step_call hi e (Nat.le_succ _) (.inr ⟨rfl, Nat.lt_succ_self _⟩) (fun a ha _ => update_ne (by omega)) ⟨Nat.zero_le _, fun m hm => ?_, fun h => ?_⟩
    · cases hm
    · cases h
  | @back l r c e hph =>
    obtain ⟨h1, _⟩ := hi.right c (by rw [e]; simp)
    refine step_call hi e (Nat.le_refl _) (.inl rfl) (fun _ _ _ => rfl) ⟨h1, fun m hm => ?_, fun h => ?_⟩
    · cases hm
    · cases h
  | @put l r c e hph =>
    have hperm : s.arrs.Perm (State.arrs { s with calls := l ++ r, pool := c.buf :: s.pool }) := by
      refine (arrs_split e).trans ?_
      unfold State.arrs
      simp only [List.map_cons, List.cons_append]
      exact List.perm_middle.symm
    refine ⟨fun a ha => hi.fresh a (hperm.mem_iff.2 ha), hperm.nodup_iff.1 hi.nodup, fun x hx => hi.right x ?_⟩
    rw [e]
    rcases List.mem_append.1 hx with hx | hx
    · exact List.mem_append_left _ hx
    · exact List.mem_append_right _ (List.mem_cons_of_mem _ hx)
  | @panics l r c e =>
    have hsub : (State.arrs { s with calls := l ++ r }).Sublist s.arrs := by
      refine List.Sublist.append (List.Sublist.map _ ?_) (List.Sublist.refl _)
      rw [e]
      exact List.Sublist.append (List.Sublist.refl _) (List.sublist_cons_self _ _)
    refine ⟨fun a ha => hi.fresh a (hsub.subset ha), hi.nodup.sublist hsub, fun x hx => hi.right x ?_⟩
    rw [e]
    rcases List.mem_append.1 hx with hx | hx
    · exact List.mem_append_left _ hx
    · exact List.mem_append_right _ (List.mem_cons_of_mem _ hx)
  | @drop b =>
    have hsub : (State.arrs { s with pool := s.pool.erase b }).Sublist s.arrs :=
      List.Sublist.append (List.Sublist.refl _) (List.Sublist.append (List.Sublist.map _ List.erase_sublist) (List.Sublist.refl _))
    exact ⟨fun a ha => hi.fresh a (hsub.subset ha), hi.nodup.sublist hsub, hi.right⟩
  | @make x =>
    have hne : ∀ a ∈ s.arrs, a ≠ s.next := fun a ha e => Nat.lt_irrefl _ (e ▸ hi.fresh a ha)
    have hperm : (s.next :: s.arrs).Perm (State.arrs { s with heap := update s.heap s.next x, next := s.next + 1, own := s.next :: s.own }) := by
      unfold State.arrs
      simp only [← List.append_assoc]
      exact List.perm_middle.symm
    refine ⟨fun a ha => ?_, ?_, fun c hc => ?_⟩
    · rcases List.mem_cons.1 (hperm.mem_iff.2 ha) with rfl | ha
      · exact Nat.lt_succ_self _
      · exact Nat.lt_succ_of_lt (hi.fresh a ha)
    · rw [← hperm.nodup_iff]
      exact List.nodup_cons.2 ⟨fun hm => hne _ hm rfl, hi.nodup⟩
    · exact (hi.right c hc).frame (update_ne (hne _ (List.mem_append_left _ (List.mem_map.2 ⟨c, hc, rfl⟩))))
  | @write a x ha =>
    refine ⟨hi.fresh, hi.nodup, fun c hc => (hi.right c hc).frame (update_ne fun e => ?_)⟩
    have := hi.nodup
    unfold State.arrs at this
    rw [List.nodup_append] at this
    exact this.2.2 c.buf.arr (List.mem_map.2 ⟨c, hc, rfl⟩) a (List.mem_append_right _ ha) e

theorem inv_init : Inv .init := ⟨fun _ ha => (List.not_mem_nil ha).elim, List.nodup_nil, fun _ hc => (List.not_mem_nil hc).elim⟩

theorem inv_reach {s : State} (h : Reach s) : Inv s := by
  induction h with
  | init => exact inv_init
  | step _ hs ih => exact inv_step ih hs

end Verif.BufPool
