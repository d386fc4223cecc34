import Verif.Proofs.UnText

/-! # Which fields are kept, and which are omitted -/

namespace Verif.Unjson
open Verif Verif.Spec Verif.Njson

/-! ## The candidates are determined by the type, and are in order -/

theorem cands_unique {U : Univ} {o : Options} {fs : List Field} {i : Nat} {idx : List Int} {cs : List Cand} (h : Cands U o fs i idx cs) :
    ∀ {cs'}, Cands U o fs i idx cs' → cs = cs' := by
  induction h with
  | nil => intro cs' h'; cases h'; rfl
  | skip h1 _ ih =>
    intro cs' h'
    cases h' with
    | skip _ h => exact ih h
    | embed h2 h3 => exact absurd h1 (by simp [h2, h3])
    | field h2 h3 => exact absurd h1 (by simp [h2, h3])
  | embed h1 h2 h3 _ _ ih1 ih2 =>
    intro cs' h'
    cases h' with
    | skip h => exact absurd h (by simp [h1, h2])
    | embed _ _ h4 h5 h6 =>
      rw [h3] at h4
      simp only [Prod.mk.injEq, Option.some.injEq] at h4
      obtain ⟨rfl, rfl⟩ := h4
      rw [ih1 h5, ih2 h6]
    | field _ _ h4 => rw [h3] at h4; simp at h4
  | field h1 h2 h3 _ ih =>
    intro cs' h'
    cases h' with
    | skip h => exact absurd h (by simp [h1, h2])
    | embed _ _ h4 => rw [h3] at h4; simp at h4
    | field _ _ h4 h5 =>
      rw [h3] at h4
      simp only [Prod.mk.injEq, and_true] at h4
      obtain rfl := h4
      rw [ih h5]

/-- `a` is visited before `b`: they differ first in a field number, which is smaller in `a`. -/
def Before (a b : List Int) : Prop := ∃ p k k' r r', a = p ++ k :: r ∧ b = p ++ k' :: r' ∧ k < k'

theorem embedding_index {U : Univ} {f : Field} {tagged : Bool} {idx idx' : List Int} {q : Option Nat} (h : embedding U f tagged idx = (idx', q)) :
    ∃ r, idx' = idx ++ r := by
  unfold embedding at h
  split at h
  · split at h
    · split at h <;> (cases h; exact ⟨_, rfl⟩)
    · cases h; exact ⟨[], by simp⟩
    · cases h; exact ⟨[], by simp⟩
  · cases h; exact ⟨[], by simp⟩

theorem cands_index {U : Univ} {o : Options} {fs : List Field} {i : Nat} {idx : List Int} {cs : List Cand} (h : Cands U o fs i idx cs) :
    ∀ c ∈ cs, ∃ (k : Nat) (r : List Int), c.index = idx ++ (k : Int) :: r ∧ i ≤ k := by
  induction h with
  | nil => simp
  | skip _ _ ih =>
    intro c hc
    obtain ⟨k, r, h1, h2⟩ := ih c hc
    exact ⟨k, r, h1, by omega⟩
  | @embed f fs i idx cs ds idx' j _ _ h3 _ _ ih1 ih2 =>
    intro c hc
    rcases List.mem_append.1 hc with hc | hc
    · obtain ⟨k, r, h1, h2⟩ := ih1 c hc
      obtain ⟨r', hr⟩ := embedding_index h3
      exact ⟨i, r' ++ (k : Int) :: r, by rw [h1, hr]; simp, Nat.le_refl _⟩
    · obtain ⟨k, r, h1, h2⟩ := ih2 c hc
      exact ⟨k, r, h1, by omega⟩
  | @field f fs i idx cs idx' _ _ h3 _ ih =>
    intro c hc
    rcases List.mem_cons.1 hc with rfl | hc
    · obtain ⟨r', hr⟩ := embedding_index h3
      exact ⟨i, r', by rw [hr]; simp, Nat.le_refl _⟩
    · obtain ⟨k, r, h1, h2⟩ := ih c hc
      exact ⟨k, r, h1, by omega⟩

/-- Candidates are visited in the order of their paths. -/
theorem cands_before {U : Univ} {o : Options} {fs : List Field} {i : Nat} {idx : List Int} {cs : List Cand} (h : Cands U o fs i idx cs) :
    cs.Pairwise fun a b => Before a.index b.index := by
  induction h with
  | nil => exact .nil
  | skip _ _ ih => exact ih
  | @embed f fs i idx cs ds idx' j _ _ h3 hA hB ih1 ih2 =>
    rw [List.pairwise_append]
    refine ⟨ih1, ih2, fun a ha b hb => ?_⟩
    obtain ⟨k, r, h1, h2⟩ := cands_index hA a ha
    obtain ⟨k', r', h1', h2'⟩ := cands_index hB b hb
    obtain ⟨r'', hr⟩ := embedding_index h3
    exact ⟨idx, i, k', r'' ++ (k : Int) :: r, r', by rw [h1, hr]; simp, h1', by omega⟩
  | @field f fs i idx cs idx' _ _ h3 hB ih =>
    rw [List.pairwise_cons]
    refine ⟨fun b hb => ?_, ih⟩
    obtain ⟨k', r', h1', h2'⟩ := cands_index hB b hb
    obtain ⟨r'', hr⟩ := embedding_index h3
    exact ⟨idx, i, k', r'', r', by simp only [hr]; simp, h1', by omega⟩

theorem cmpLex_prefix : ∀ (p : List Int) (k k' : Int) (r r' : List Int), k < k' → cmpLex (p ++ k :: r) (p ++ k' :: r') = 1
  | [], k, k', r, r', h => by
    simp only [List.nil_append, cmpLex]
    rw [if_neg (by omega), if_pos (by omega)]
  | x :: p, k, k', r, r', h => by
    simp only [List.cons_append, cmpLex]
    rw [if_neg (by omega), if_neg (by omega)]
    exact cmpLex_prefix p k k' r r' h

/-- For paths in order, the comparison says which one is longer. -/
theorem cmpIndex_before {a b : List Int} (h : Before a b) : cmpIndex a b = -1 ↔ b.length < a.length := by
  obtain ⟨p, k, k', r, r', rfl, rfl, hk⟩ := h
  unfold cmpIndex
  by_cases h1 : (p ++ k :: r).length > (p ++ k' :: r').length
  · rw [if_pos h1]; simp only [true_iff]; exact h1
  · rw [if_neg h1]
    by_cases h2 : (p ++ k :: r).length = (p ++ k' :: r').length
    · rw [if_pos h2, cmpLex_prefix p k k' r r' hk]; simp at h1 ⊢; omega
    · rw [if_neg h2]; simp at h1 ⊢; omega

/-! ## resolve -/

theorem find_append {p : Cand → Bool} (xs ys : List Cand) :
    (xs ++ ys).find? p = (xs.find? p).or (ys.find? p) := List.find?_append

theorem addCand_find (acc : List Cand) (c : Cand) (k : Bytes) :
    (addCand acc c).find? (fun x => x.key = k) = (acc.find? fun x => x.key = k).or ([c].find? fun x => x.key = k) := by
  unfold addCand
  cases h : acc.find? (fun x => x.key = c.key) with
  | none => simp only [find_append]
  | some d =>
    simp only
    by_cases hk : c.key = k
    · subst hk
      rw [h]
      split
      · rw [h]; rfl
      · rw [find_append, h]
    · have : [c].find? (fun x => x.key = k) = none := by simp [hk]
      rw [this, Option.or_none]
      split
      · rfl
      · rw [find_append, this, Option.or_none]

/-- The first field with a name stays the first one. -/
theorem resolve_find (k : Bytes) : ∀ (cs acc : List Cand),
    (resolve acc cs).find? (fun x => x.key = k) = (acc.find? fun x => x.key = k).or (cs.find? fun x => x.key = k)
  | [], acc => by simp [resolve]
  | c :: cs, acc => by
    unfold resolve
    rw [List.foldl_cons]
    have := resolve_find k cs (addCand acc c)
    unfold resolve at this
    rw [this, addCand_find, Option.or_assoc]
    congr 1
    simp only [List.find?_cons, List.find?_nil]
    cases decide (c.key = k) <;> rfl

/-- The fields that survive are among the candidates, in their order. -/
theorem resolve_sublist : ∀ (cs acc : List Cand), (resolve acc cs).Sublist (acc ++ cs)
  | [], acc => by simp [resolve]
  | c :: cs, acc => by
    have h1 := resolve_sublist cs (addCand acc c)
    have h2 : (addCand acc c).Sublist (acc ++ [c]) := by
      unfold addCand
      split
      · split
        · exact List.sublist_append_left _ _
        · exact List.Sublist.refl _
      · exact List.Sublist.refl _
    have := h1.trans (h2.append (List.Sublist.refl cs))
    simpa [resolve] using this

/-- Exactly the fields that come first with their name, or compare as shallower than that one, survive. -/
theorem resolve_mem_iff {c : Cand} : ∀ (cs acc pre : List Cand),
    (∀ k, acc.find? (fun x => x.key = k) = pre.find? fun x => x.key = k) →
    (c ∈ resolve acc cs ↔ c ∈ acc ∨ ∃ xs ys, cs = xs ++ c :: ys ∧
      ∀ d, (pre ++ xs).find? (fun x => x.key = c.key) = some d → cmpIndex d.index c.index = -1)
  | [], acc, pre, h => by simp [resolve]
  | d :: cs, acc, pre, h => by
    have e : resolve acc (d :: cs) = resolve (addCand acc d) cs := rfl
    have hp : ∀ k, (addCand acc d).find? (fun x => x.key = k) = (pre ++ [d]).find? fun x => x.key = k := by
      intro k; rw [addCand_find, find_append, h]
    rw [e, resolve_mem_iff cs (addCand acc d) (pre ++ [d]) hp]
    have hadd : c ∈ addCand acc d ↔ c ∈ acc ∨ (c = d ∧ ∀ k, pre.find? (fun x => x.key = c.key) = some k → cmpIndex k.index c.index = -1) := by
      unfold addCand
      rw [h]
      cases hq : pre.find? (fun x => x.key = d.key) with
      | none =>
        simp only [List.mem_append, List.mem_singleton]
        constructor
        · rintro (h | rfl)
          · exact .inl h
          · exact .inr ⟨rfl, by rw [hq]; simp⟩
        · rintro (h | ⟨h, _⟩)
          · exact .inl h
          · exact .inr h
      | some k =>
        simp only
        by_cases hc : cmpIndex k.index d.index = -1
        · rw [if_neg (by simpa using hc)]
          simp only [List.mem_append, List.mem_singleton]
          constructor
          · rintro (h | rfl)
            · exact .inl h
            · exact .inr ⟨rfl, by rw [hq]; rintro k' ⟨⟩; exact hc⟩
          · rintro (h | ⟨h, _⟩)
            · exact .inl h
            · exact .inr h
        · rw [if_pos hc]
          constructor
          · exact .inl
          · rintro (h | ⟨rfl, h⟩)
            · exact h
            · exact absurd (h k hq) hc
    rw [hadd]
    constructor
    · rintro ((h | ⟨rfl, h⟩) | ⟨xs, ys, rfl, h⟩)
      · exact .inl h
      · exact .inr ⟨[], cs, rfl, by simpa using h⟩
      · exact .inr ⟨d :: xs, ys, rfl, by simpa using h⟩
    · rintro (h | ⟨xs, ys, h1, h2⟩)
      · exact .inl (.inl h)
      · cases xs with
        | nil =>
          simp only [List.nil_append, List.cons.injEq] at h1
          obtain ⟨rfl, rfl⟩ := h1
          exact .inl (.inr ⟨rfl, by simpa using h2⟩)
        | cons x xs =>
          simp only [List.cons_append, List.cons.injEq] at h1
          obtain ⟨rfl, rfl⟩ := h1
          exact .inr ⟨xs, ys, rfl, by simpa using h2⟩

/-! ## Omission is a function -/

theorem omits_unique {U : Univ} {o : Options} {c : Cand} {x : GV} {b : Bool} (h : Omits U o c x b) : ∀ {b'}, Omits U o c x b' → b = b' := by
  refine Omits.rec (motive_1 := fun c x b _ => ∀ {b'}, Omits U o c x b' → b = b') (motive_2 := fun cs v b _ => ∀ {b'}, OmitsAll U o cs v b' → b = b')
    ?_ ?_ ?_ ?_ ?_ ?_ ?_ h
  · intro c x h1 b' h
    cases h with
    | keep => rfl
    | value h2 => rw [h1] at h2; cases h2
    | struct h2 => rw [h1] at h2; cases h2
  · intro c x h1 h2 b' h
    cases h with
    | keep h3 => rw [h1] at h3; cases h3
    | value => rfl
    | struct _ h3 => exact absurd h3 (h2 _)
  · intro c x j cs b h1 h2 h3 _ ih b' h
    cases h with
    | keep h4 => rw [h1] at h4; cases h4
    | value _ h4 => exact absurd h2 (h4 _)
    | struct _ h4 h5 h6 =>
      rw [h2] at h4; cases h4
      rw [cands_unique h3 h5] at ih
      exact ih h6
  · intro v b' h; cases h; rfl
  · intro c cs v b h1 _ ih b' h
    cases h with
    | absent _ h => exact ih h
    | no h2 => rw [h1] at h2; cases h2
    | yes h2 => rw [h1] at h2; cases h2
  · intro c cs v x h1 _ ih b' h
    cases h with
    | absent h2 => rw [h1] at h2; cases h2
    | no => rfl
    | yes h2 h3 => rw [h1] at h2; cases h2; exact absurd (ih h3) (by simp)
  · intro c cs v x b h1 _ _ ih1 ih2 b' h
    cases h with
    | absent h2 => rw [h1] at h2; cases h2
    | no h2 h3 => rw [h1] at h2; cases h2; exact absurd (ih1 h3) (by simp)
    | yes _ _ h4 => exact ih2 h4

end Verif.Unjson
