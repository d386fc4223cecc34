import Verif.Spec.Gen

/-! # The fields that the generator chooses -/

namespace Verif.Gen
open Verif Verif.Float Verif.Spec Verif.Njson Verif.Unjson

/-- The loop over the fields that take part. -/
def pickFields (E : Env) (o : GenOptions) (rec : Ty → List Bytes → Res ABlock) (t : Ty) : List Pick → Res AFields
  | [] => .ok .nil
  | p :: ps =>
    both (both (rec p.field.typ p.params) (if b!"omitempty" ∈ p.params then typeOmiter E o p.field.typ else .ok none) Prod.mk)
      (pickFields E o rec t ps)
      fun bc rest => .cons p.name p.field.path (guardsOf E.U t [] p.field.path) bc.2 bc.1 rest

theorem appendFields_eq (E : Env) (o : GenOptions) (rec : Ty → List Bytes → Res ABlock) (t : Ty) : ∀ (fs : List GField) (used : List Bytes),
    appendFields E o rec t fs used = pickFields E o rec t ((firsts (eligible E o fs)).filter fun p => p.name ∉ used) := by
  intro fs
  induction fs with
  | nil => intro used; rfl
  | cons f fs ih =>
    intro used
    rw [appendFields]
    cases hp : parseField E o f with
    | none =>
      have : eligible E o (f :: fs) = eligible E o fs := by simp [eligible, hp]
      rw [this]; exact ih used
    | some nb =>
      obtain ⟨name, params⟩ := nb
      have : eligible E o (f :: fs) = ⟨name, params, f⟩ :: eligible E o fs := by simp [eligible, hp]
      rw [this, firsts]
      dsimp only
      by_cases hu : name ∈ used
      · rw [if_pos hu, ih used, List.filter_cons_of_neg (by simpa using hu), List.filter_filter]
        congr 1
        apply List.filter_congr
        intro p _
        by_cases h : p.name = name <;> simp [h, hu]
      · rw [if_neg hu, ih (name :: used), List.filter_cons_of_pos (by simpa using hu), List.filter_filter, pickFields]
        dsimp only
        congr 2
        apply List.filter_congr
        intro p _
        by_cases h : p.name = name <;> simp [h]

theorem appendFields_picks (E : Env) (o : GenOptions) (rec : Ty → List Bytes → Res ABlock) (t : Ty) (j : Nat) :
    appendFields E o rec t (sortFields (E.fields j).flatten) [] = pickFields E o rec t (appendPicks E o j) := by
  rw [appendFields_eq, appendPicks]
  congr 1
  simp

theorem firsts_sub {p : Pick} : ∀ {ps : List Pick}, p ∈ firsts ps → p ∈ ps := by
  intro ps
  induction ps with
  | nil => intro h; exact h
  | cons q ps ih =>
    intro h
    rw [firsts, List.mem_cons] at h
    rcases h with rfl | h
    · exact List.mem_cons_self
    · exact List.mem_cons_of_mem _ (ih (List.mem_filter.1 h).1)

theorem mem_insertField {f g : GField} : ∀ {fs : List GField}, f ∈ insertField g fs ↔ f = g ∨ f ∈ fs := by
  intro fs
  induction fs with
  | nil => simp [insertField]
  | cons x fs ih =>
    rw [insertField]
    split
    · simp
    · rw [List.mem_cons, ih, List.mem_cons]
      constructor
      · rintro (h | h | h)
        · exact .inr (.inl h)
        · exact .inl h
        · exact .inr (.inr h)
      · rintro (h | h | h)
        · exact .inr (.inl h)
        · exact .inl h
        · exact .inr (.inr h)

theorem mem_sortFields {f : GField} {fs : List GField} : f ∈ sortFields fs ↔ f ∈ fs := by
  have : ∀ (acc : List GField), f ∈ fs.foldl (fun acc f => insertField f acc) acc ↔ f ∈ acc ∨ f ∈ fs := by
    induction fs with
    | nil => simp
    | cons x fs ih =>
      intro acc
      rw [List.foldl_cons, ih, mem_insertField, List.mem_cons]
      constructor
      · rintro ((h | h) | h)
        · exact .inr (.inl h)
        · exact .inl h
        · exact .inr (.inr h)
      · rintro (h | h | h)
        · exact .inl (.inr h)
        · exact .inl (.inl h)
        · exact .inr h
  rw [sortFields, this]
  simp

theorem mem_eligible {E : Env} {o : GenOptions} {fs : List GField} {p : Pick} :
    p ∈ eligible E o fs ↔ p.field ∈ fs ∧ parseField E o p.field = some (p.name, p.params) := by
  unfold eligible
  rw [List.mem_filterMap]
  constructor
  · rintro ⟨f, hf, h⟩
    cases hp : parseField E o f with
    | none => rw [hp] at h; cases h
    | some nb =>
      rw [hp] at h
      obtain ⟨n, b⟩ := nb
      cases h
      exact ⟨hf, hp⟩
  · rintro ⟨hf, hp⟩
    refine ⟨p.field, hf, ?_⟩
    rw [hp]
    rfl

theorem mem_appendPicks {E : Env} {o : GenOptions} {j : Nat} {p : Pick} (h : p ∈ appendPicks E o j) :
    p.field ∈ (E.fields j).flatten ∧ parseField E o p.field = some (p.name, p.params) := by
  have := mem_eligible.1 (firsts_sub h)
  exact ⟨mem_sortFields.1 this.1, this.2⟩

/-! ## Calls that return -/

theorem both_ne_diverge {α β γ : Type} {a : Res α} {b : Res β} {f : α → β → γ} :
    both a b f ≠ .diverge ↔ a ≠ .diverge ∧ b ≠ .diverge := by
  cases a <;> cases b <;> simp [both]

theorem both_ok {α β γ : Type} {a : Res α} {b : Res β} {f : α → β → γ} {z : γ} :
    both a b f = .ok z ↔ ∃ x y, a = .ok x ∧ b = .ok y ∧ f x y = z := by
  cases a <;> cases b <;> simp [both]

theorem mapR_ne_diverge {α β : Type} {f : α → β} {a : Res α} : mapR f a ≠ .diverge ↔ a ≠ .diverge := by
  cases a <;> simp [mapR]

theorem mapR_ok {α β : Type} {f : α → β} {a : Res α} {z : β} : mapR f a = .ok z ↔ ∃ x, a = .ok x ∧ f x = z := by
  cases a <;> simp [mapR]

theorem typeOmiter_ne_diverge (E : Env) (o : GenOptions) (t : Ty) : typeOmiter E o t ≠ .diverge := by
  unfold typeOmiter
  split
  · simp
  · split <;> simp

theorem omitFor_ne_diverge (E : Env) (o : GenOptions) (p : Pick) :
    (if b!"omitempty" ∈ p.params then typeOmiter E o p.field.typ else .ok none) ≠ .diverge := by
  split
  · exact typeOmiter_ne_diverge _ _ _
  · simp

theorem pickFields_ne_diverge {E : Env} {o : GenOptions} {rec : Ty → List Bytes → Res ABlock} {t : Ty} : ∀ {ps : List Pick},
    pickFields E o rec t ps ≠ .diverge ↔ ∀ p ∈ ps, rec p.field.typ p.params ≠ .diverge := by
  intro ps
  induction ps with
  | nil => simp [pickFields]
  | cons p ps ih =>
    rw [pickFields, both_ne_diverge, both_ne_diverge, ih, List.forall_mem_cons]
    simp only [omitFor_ne_diverge, and_true, ne_eq, not_false_eq_true]

theorem pickFields_congr {E : Env} {o : GenOptions} {rec rec' : Ty → List Bytes → Res ABlock} {t : Ty} : ∀ {ps : List Pick},
    (∀ p ∈ ps, rec' p.field.typ p.params = rec p.field.typ p.params) → pickFields E o rec' t ps = pickFields E o rec t ps := by
  intro ps
  induction ps with
  | nil => intro _; rfl
  | cons p ps ih =>
    intro h
    rw [List.forall_mem_cons] at h
    rw [pickFields, pickFields, h.1, ih h.2]

theorem takes_iff {E : Env} {o : GenOptions} {f : GField} {name : Bytes} {params : List Bytes} :
    parseField E o f = some (name, params) ↔ Takes E o f name params := by
  have hkey : ∀ key, (o.tagKey = [] ∧ key = b!"json" ∨ o.tagKey ≠ [] ∧ key = o.tagKey) ↔ key = o.key := by
    intro key
    unfold GenOptions.key
    by_cases h : o.tagKey = [] <;> simp [h]
  have hname : ∀ n, (n ≠ [] ∧ name = n ∨ n = [] ∧ o.fieldName f.name ≠ [] ∧ name = o.fieldName f.name ∨ n = [] ∧ o.fieldName f.name = [] ∧ name = f.name) ↔
      parseField.nameOf o f n = name := by
    intro n
    unfold parseField.nameOf
    by_cases h : n = []
    · by_cases h' : o.fieldName f.name = []
      · simpa [h, h'] using eq_comm
      · simpa [h, h'] using eq_comm
    · simpa [h] using eq_comm
  have hforce : ∀ ps, (o.forceOmitEmpty = false ∧ params = ps ∨ o.forceOmitEmpty = true ∧ params = b!"omitempty" :: ps) ↔ parseField.force o ps = params := by
    intro ps
    unfold parseField.force
    cases o.forceOmitEmpty <;> simpa using eq_comm
  constructor
  · intro h
    unfold parseField at h
    by_cases h1 : f.name = b!"_"
    · rw [if_pos h1] at h; cases h
    rw [if_neg h1] at h
    by_cases h2 : o.matchField f.name = true
    swap; · rw [if_pos (by simpa using h2)] at h; cases h
    rw [if_neg (by simpa using h2)] at h
    by_cases h3 : (o.onlyExported && !f.exported) = true
    · rw [if_pos h3] at h; cases h
    rw [if_neg h3] at h
    refine ⟨h1, h2, fun h => by simpa [h] using h3, ?_⟩
    cases ht : E.parseTag f.tag o.key with
    | none =>
      rw [ht] at h
      simp only at h
      by_cases h4 : o.onlyTagged = true
      · rw [if_pos h4] at h; cases h
      · rw [if_neg h4] at h
        cases h
        exact ⟨o.key, [], [], (hkey _).2 rfl, .inr ⟨ht, by simpa using h4, rfl, rfl⟩, (hname _).2 rfl, (hforce _).2 rfl⟩
    | some p =>
      obtain ⟨n, ps⟩ := p
      rw [ht] at h
      simp only at h
      by_cases h4 : n = b!"-"
      · rw [if_pos h4] at h; cases h
      · rw [if_neg h4] at h
        cases h
        exact ⟨o.key, n, ps, (hkey _).2 rfl, .inl ⟨ht, h4⟩, (hname _).2 rfl, (hforce _).2 rfl⟩
  · rintro ⟨h1, h2, h3, key, n, ps, h4, h5, h6, h7⟩
    rw [hkey] at h4
    rw [hname] at h6
    rw [hforce] at h7
    subst h4
    unfold parseField
    rw [if_neg h1, if_neg (by simpa using h2), if_neg (by
      cases he : o.onlyExported with
      | false => simp
      | true => simp [h3 he])]
    rcases h5 with ⟨h5, h8⟩ | ⟨h5, h8, rfl, rfl⟩
    · rw [h5]
      simp only
      rw [if_neg h8, h6, h7]
    · rw [h5]
      simp only
      rw [if_neg (by simp [h8]), h6, h7]

end Verif.Gen
