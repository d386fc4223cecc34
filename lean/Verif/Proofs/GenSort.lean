import Verif.Proofs.GenPick

/-! # The order of fields in generated code -/

namespace Verif.Gen
open Verif Verif.Spec Verif.Njson Verif.Unjson

theorem bytesLt_iff : ∀ {a b : Bytes}, bytesLt a b = true ↔ a < b := by
  intro a
  induction a with
  | nil =>
    intro b
    cases b with
    | nil => simp [bytesLt]
    | cons y b => simp [bytesLt]
  | cons x a ih =>
    intro b
    cases b with
    | nil => simp [bytesLt]
    | cons y b =>
      rw [bytesLt, List.cons_lt_cons_iff]
      by_cases h : x < y
      · simp [h]
      · rw [if_neg h]
        by_cases h' : y < x
        · rw [if_pos h']
          have : x ≠ y := fun he => by rw [he] at h'; exact absurd h' (UInt8.lt_irrefl y)
          simp [h, this]
        · rw [if_neg h', ih]
          have : x = y := UInt8.le_antisymm (UInt8.not_lt.1 h') (UInt8.not_lt.1 h)
          simp [this, UInt8.lt_irrefl]

theorem insertField_perm (f : GField) : ∀ fs : List GField, (insertField f fs).Perm (f :: fs) := by
  intro fs
  induction fs with
  | nil => exact .refl _
  | cons g fs ih =>
    rw [insertField]
    split
    · exact .refl _
    · exact (List.Perm.cons g ih).trans (List.Perm.swap f g fs)

theorem insertField_sorted {f : GField} : ∀ {fs : List GField}, fs.Pairwise (fun a b => ¬ b.tag < a.tag) →
    (insertField f fs).Pairwise (fun a b => ¬ b.tag < a.tag) := by
  intro fs
  induction fs with
  | nil => intro _; exact List.pairwise_singleton _ _
  | cons g fs ih =>
    intro h
    rw [List.pairwise_cons] at h
    rw [insertField]
    by_cases hl : bytesLt f.tag g.tag = true
    · rw [if_pos hl]
      rw [bytesLt_iff] at hl
      refine List.pairwise_cons.2 ⟨fun x hx => ?_, List.pairwise_cons.2 h⟩
      rcases List.mem_cons.1 hx with rfl | hx
      · exact fun h' => absurd (List.lt_trans hl h') (List.lt_irrefl _)
      · exact fun h' => h.1 x hx (List.lt_trans h' hl)
    · rw [if_neg hl]
      rw [bytesLt_iff] at hl
      refine List.pairwise_cons.2 ⟨fun x hx => ?_, ih h.2⟩
      rcases mem_insertField.1 hx with rfl | hx
      · exact hl
      · exact h.1 x hx

theorem insertField_stable {f : GField} (x : Bytes) : ∀ {fs : List GField}, fs.Pairwise (fun a b => ¬ b.tag < a.tag) →
    (insertField f fs).filter (fun g => g.tag = x) = fs.filter (fun g => g.tag = x) ++ [f].filter (fun g => g.tag = x) := by
  intro fs
  induction fs with
  | nil => intro _; rfl
  | cons g fs ih =>
    intro h
    rw [List.pairwise_cons] at h
    rw [insertField]
    by_cases hl : bytesLt f.tag g.tag = true
    · rw [if_pos hl]
      rw [bytesLt_iff] at hl
      by_cases hx : f.tag = x
      · have hnil : (g :: fs).filter (fun g => g.tag = x) = [] := by
          rw [List.filter_eq_nil_iff]
          intro y hy hyx
          have hyx : y.tag = x := by simpa using hyx
          rcases List.mem_cons.1 hy with rfl | hy
          · rw [hyx, hx] at hl; exact List.lt_irrefl _ hl
          · exact h.1 y hy (by rw [hyx, ← hx]; exact hl)
        rw [List.filter_cons, hnil]
        simp [hx]
      · simp [List.filter_cons, hx]
    · rw [if_neg hl, List.filter_cons, List.filter_cons, ih h.2]
      split <;> simp

theorem sortFields_cons_aux (fs : List GField) : ∀ acc : List GField, acc.Pairwise (fun a b => ¬ b.tag < a.tag) →
    (fs.foldl (fun acc f => insertField f acc) acc).Pairwise (fun a b => ¬ b.tag < a.tag) ∧
    (fs.foldl (fun acc f => insertField f acc) acc).Perm (acc ++ fs) ∧
    ∀ x, (fs.foldl (fun acc f => insertField f acc) acc).filter (fun g => g.tag = x) = (acc ++ fs).filter (fun g => g.tag = x) := by
  induction fs with
  | nil => intro acc h; exact ⟨h, by simp, by simp⟩
  | cons f fs ih =>
    intro acc h
    obtain ⟨h1, h2, h3⟩ := ih _ (insertField_sorted (f := f) h)
    rw [List.foldl_cons]
    refine ⟨h1, h2.trans ?_, fun x => ?_⟩
    · exact ((insertField_perm f acc).append_right fs).trans (List.perm_middle (l₁ := acc)).symm
    · rw [h3, List.filter_append, insertField_stable x h]
      simp only [List.filter_append, List.append_assoc]
      congr 1
      rw [← List.filter_append]
      rfl

theorem sortFields_sorted (fs : List GField) : (sortFields fs).Pairwise (fun a b => ¬ b.tag < a.tag) :=
  (sortFields_cons_aux fs [] List.Pairwise.nil).1

theorem sortFields_perm (fs : List GField) : (sortFields fs).Perm fs :=
  (sortFields_cons_aux fs [] List.Pairwise.nil).2.1

theorem sortFields_stable (fs : List GField) (x : Bytes) :
    (sortFields fs).filter (fun g => g.tag = x) = fs.filter (fun g => g.tag = x) := by
  have := (sortFields_cons_aux fs [] List.Pairwise.nil).2.2 x
  rw [List.nil_append] at this
  exact this

/-! ## eligible -/

theorem eligible_pairwise {E : Env} {o : GenOptions} {fs : List GField} (h : fs.Pairwise (fun a b => ¬ b.tag < a.tag)) :
    (eligible E o fs).Pairwise (fun a b => ¬ b.field.tag < a.field.tag) := by
  unfold eligible
  rw [List.pairwise_filterMap]
  refine h.imp ?_
  intro a b hab p hp q hq
  rw [Option.map_eq_some_iff] at hp hq
  obtain ⟨_, _, rfl⟩ := hp
  obtain ⟨_, _, rfl⟩ := hq
  exact hab

theorem eligible_filter {E : Env} {o : GenOptions} (x : Bytes) (fs : List GField) :
    (eligible E o fs).filter (fun p => p.field.tag = x) = eligible E o (fs.filter fun g => g.tag = x) := by
  unfold eligible
  rw [List.filter_filterMap, List.filterMap_filter]
  congr 1
  funext f
  by_cases h : f.tag = x
  · simp only [h, decide_true, if_true]
    cases parseField E o f with
    | none => rfl
    | some p => simp [Option.filter, h]
  · simp only [h, decide_false, Bool.false_eq_true, if_false]
    cases parseField E o f with
    | none => rfl
    | some p => simp [Option.filter, h]

theorem eligible_perm {E : Env} {o : GenOptions} {fs gs : List GField} (h : fs.Perm gs) : (eligible E o fs).Perm (eligible E o gs) :=
  h.filterMap _

/-! ## firsts -/

theorem firsts_sublist : ∀ ps : List Pick, (firsts ps).Sublist ps := by
  intro ps
  induction ps with
  | nil => exact .slnil
  | cons p ps ih => exact .cons_cons p ((List.filter_sublist).trans ih)

theorem firsts_nodup : ∀ ps : List Pick, ((firsts ps).map Pick.name).Nodup := by
  intro ps
  induction ps with
  | nil => exact List.nodup_nil
  | cons p ps ih =>
    rw [firsts, List.map_cons, List.nodup_cons]
    refine ⟨fun h => ?_, ?_⟩
    · obtain ⟨q, hq, he⟩ := List.mem_map.1 h
      have := (List.mem_filter.1 hq).2
      simp at this
      exact this he
    · exact ih.sublist (List.filter_sublist.map _)

/-- An element is among the first ones iff nothing with its name is in front of some occurrence of it. -/
theorem mem_firsts {p : Pick} : ∀ {ps : List Pick}, p ∈ firsts ps ↔ ∃ a b, ps = a ++ p :: b ∧ ∀ q ∈ a, q.name ≠ p.name := by
  intro ps
  induction ps with
  | nil => simp [firsts]
  | cons x ps ih =>
    rw [firsts, List.mem_cons, List.mem_filter, ih]
    constructor
    · rintro (rfl | ⟨⟨a, b, rfl, h⟩, hx⟩)
      · exact ⟨[], ps, rfl, by simp⟩
      · refine ⟨x :: a, b, rfl, fun q hq => ?_⟩
        rcases List.mem_cons.1 hq with rfl | hq
        · simp at hx; exact fun he => hx he.symm
        · exact h q hq
    · rintro ⟨a, b, he, h⟩
      cases a with
      | nil => simp at he; exact .inl he.1.symm
      | cons y a =>
        simp at he
        obtain ⟨rfl, rfl⟩ := he
        right
        refine ⟨⟨a, b, rfl, fun q hq => h q (List.mem_cons_of_mem _ hq)⟩, ?_⟩
        have := h x List.mem_cons_self
        simp
        exact fun he => this he.symm

theorem name_mem_firsts {n : Bytes} : ∀ {ps : List Pick}, (∃ p ∈ ps, p.name = n) → ∃ p ∈ firsts ps, p.name = n := by
  intro ps
  induction ps with
  | nil => simp
  | cons x ps ih =>
    rintro ⟨p, hp, rfl⟩
    by_cases hx : x.name = p.name
    · exact ⟨x, by rw [firsts]; exact List.mem_cons_self, hx⟩
    · rcases List.mem_cons.1 hp with rfl | hp
      · exact absurd rfl hx
      · obtain ⟨q, hq, hn⟩ := ih ⟨p, hp, rfl⟩
        refine ⟨q, ?_, hn⟩
        rw [firsts]
        refine List.mem_cons_of_mem _ (List.mem_filter.2 ⟨hq, ?_⟩)
        simp [hn]
        exact fun he => hx he.symm

end Verif.Gen
