import Verif.Proofs.GenTerm

/-! # When the generated `AppendJSON` compiles -/

namespace Verif.Gen
open Verif Verif.Float Verif.Spec Verif.Njson Verif.Unjson

theorem eq_struct {U : Univ} (hU : U.Ok) {t : Ty} {j : Nat} (h : U.base t = .struct j) : t = .struct j := by
  cases t with
  | named i => exact absurd h (hU.under_struct i j)
  | _ => exact h

/-- Selectors work on `t'` as on struct type `j`. -/
def SameSel (U : Univ) (t' : Ty) (j : Nat) : Prop := U.base t' = .struct j ∨ U.base t' = .ptr (.struct j)

theorem SameSel.fieldTy {U : Univ} {t' : Ty} {j : Nat} (h : SameSel U t' j) (i : Nat) : fieldTy U t' i = fieldTy U (.struct j) i := by
  unfold Gen.fieldTy
  rcases h with h | h <;> rw [h] <;> rfl

theorem SameSel.pathTy {U : Univ} {t' : Ty} {j : Nat} (h : SameSel U t' j) {p : List Nat} (hp : p ≠ []) :
    pathTy U t' p = pathTy U (.struct j) p := by
  cases p with
  | nil => exact absurd rfl hp
  | cons i is => rw [Gen.pathTy, Gen.pathTy, h.fieldTy]

theorem SameSel.canReach {E : Env} {t' : Ty} {j : Nat} (h : SameSel E.U t' j) (p : List Nat) :
    canReach E t' p = canReach E (.struct j) p := by
  cases p with
  | nil => rfl
  | cons i is =>
    rw [Gen.canReach, Gen.canReach, h.fieldTy]
    have : canSelect E t' i = canSelect E (.struct j) i := by
      unfold canSelect
      rcases h with h | h <;> rw [h] <;> rfl
    rw [this]

theorem canReach_append {E : Env} : ∀ {p q : List Nat} {t : Ty}, canReach E t (p ++ q) = true → canReach E t p = true := by
  intro p
  induction p with
  | nil => intros; rfl
  | cons i is ih =>
    intro q t h
    rw [List.cons_append, canReach, Bool.and_eq_true] at h
    rw [canReach, Bool.and_eq_true]
    refine ⟨h.1, ?_⟩
    cases hf : fieldTy E.U t i with
    | none => rw [hf] at h; exact h.2
    | some t' => rw [hf] at h; exact ih h.2

theorem pathTy_append {U : Univ} : ∀ {p q : List Nat} {t : Ty}, pathTy U t (p ++ q) = (pathTy U t p).bind fun t' => pathTy U t' q := by
  intro p
  induction p with
  | nil => intros; rfl
  | cons i is ih =>
    intro q t
    rw [List.cons_append, pathTy, pathTy]
    cases fieldTy U t i with
    | none => rfl
    | some t' => exact ih

/-- The guards are the prefixes of the path that are pointers. -/
theorem mem_guardsOf {U : Univ} {t : Ty} : ∀ {is pre : List Nat} {g : List Nat}, g ∈ guardsOf U t pre is →
    ∃ p q t' e, p ≠ [] ∧ is = p ++ q ∧ g = pre ++ p ∧ pathTy U t p = some t' ∧ U.base t' = .ptr e := by
  intro is
  induction is generalizing t with
  | nil => intro pre g h; cases h
  | cons i is ih =>
    intro pre g h
    rw [guardsOf] at h
    cases hf : fieldTy U t i with
    | none => rw [hf] at h; cases h
    | some t' =>
      rw [hf] at h
      rcases List.mem_append.1 h with h | h
      · split at h
        · rename_i e hb
          rw [List.mem_singleton] at h
          exact ⟨[i], is, t', e, by simp, rfl, h, by simp [pathTy, hf], hb⟩
        · cases h
      · obtain ⟨p, q, t'', e, hp, h1, h2, h3, h4⟩ := ih h
        refine ⟨i :: p, q, t'', e, by simp, by simp [h1], by simp [h2], by simp [pathTy, hf, h3], h4⟩

theorem guardsOf_compiles {E : Env} {t' : Ty} {j : Nat} (hs : SameSel E.U t' j) {path : List Nat}
    (hr : canReach E t' path = true) :
    (guardsOf E.U (.struct j) [] path).all (fun g => canReach E t' g && (match pathTy E.U t' g with | some t' => nilable (E.U.base t') | none => false)) = true := by
  rw [List.all_eq_true]
  intro g hg
  obtain ⟨p, q, t'', e, hp, h1, h2, h3, h4⟩ := mem_guardsOf hg
  rw [List.nil_append] at h2
  subst h2
  rw [h1] at hr
  rw [canReach_append hr, hs.pathTy hp, h3]
  simp [h4, nilable]

/-- The condition compiles. -/
theorem typeOmiter_compiles {E : Env} {o : GenOptions} {t : Ty} {c : Cond} (h : typeOmiter E o t = .ok (some c)) :
    c.compiles E.U t = true := by
  unfold typeOmiter at h
  split at h
  · rename_i hm; cases h; simp [Cond.compiles, hm]
  · split at h
    all_goals first
      | (cases h; done)
      | (rename_i hb; cases h; simp [Cond.compiles, hb, nilable, numeric])
      | skip
    all_goals
      rename_i hb
      split at h
      · cases h; simp [Cond.compiles, hb, nilable]
      · cases h

theorem usesV_iff {E : Env} {o : GenOptions} {fuel : Nat} {t : Ty} {ps : List Bytes} {b : ABlock} (h : typeAppender E o fuel t ps = .ok b) :
    b.usesV = true ↔ NotVoid E o t := by
  cases fuel with
  | zero => cases h
  | succ fuel =>
    unfold NotVoid
    by_cases hm : NoMarshal E.U t
    · rw [typeAppender_plain hm] at h
      unfold plainBlock at h
      have hm' : ¬ Marshals E.U t := fun h => h hm
      cases hb : E.U.base t with
      | struct j =>
        rw [hb] at h
        obtain ⟨fs, h0, rfl⟩ := mapR_ok.1 h
        constructor
        · intro hu
          refine .inr fun j' hj hp => ?_
          cases hj
          rw [hp] at h0
          cases h0
          cases hu
        · rintro (h' | h')
          · exact absurd h' hm'
          · have := h' j rfl
            cases hp : appendPicks E o j with
            | nil => exact absurd hp this
            | cons p ps =>
              rw [hp, pickFields] at h0
              obtain ⟨x, y, -, -, rfl⟩ := both_ok.1 h0
              rfl
      | ptr e => rw [hb] at h; obtain ⟨x, h, rfl⟩ := mapR_ok.1 h; simp [ABlock.usesV]
      | slice e => rw [hb] at h; obtain ⟨x, h, rfl⟩ := mapR_ok.1 h; simp [ABlock.usesV]
      | map k e => rw [hb] at h; obtain ⟨x, y, -, -, rfl⟩ := both_ok.1 h; simp [ABlock.usesV]
      | string => rw [hb] at h; cases h; by_cases hr : b!"raw" ∈ ps <;> simp [ABlock.usesV, hr]
      | iface m i => rw [hb] at h; dsimp only at h; split at h <;> cases h; simp [ABlock.usesV]
      | array n e => rw [hb] at h; cases h
      | other => rw [hb] at h; cases h
      | named i => rw [hb] at h; cases h
      | _ => rw [hb] at h; cases h; simp [ABlock.usesV]
    · rw [typeAppender_method hm] at h
      cases h
      simp only [Marshals, hm, not_false_eq_true, true_or, iff_true]
      unfold methodBlock
      split
      · rfl
      · split <;> rfl

/-- The fields compile, given that this is known of the code for each. -/
theorem fields_compile {E : Env} (hE : E.Ok) {o : GenOptions} {fuel : Nat} {j : Nat} {t' : Ty} (hs : SameSel E.U t' j)
    (ih : ∀ {t : Ty} {ps : List Bytes} {b : ABlock}, typeAppender E o fuel t ps = .ok b → (b.compiles E t = true ↔ ACompiles E o ps t)) :
    ∀ {ps : List Pick} {fs : AFields}, (∀ p ∈ ps, p.field ∈ (E.fields j).flatten) → pickFields E o (typeAppender E o fuel) (.struct j) ps = .ok fs →
      (fs.compiles E t' = true ↔ ∀ p ∈ ps, ACompiles E o p.params p.field.typ ∧ FieldOk E o j p) := by
  intro ps
  induction ps with
  | nil => intro fs _ h; cases h; simp [AFields.compiles]
  | cons p ps ih2 =>
    intro fs hf h
    rw [List.forall_mem_cons] at hf
    rw [pickFields] at h
    obtain ⟨x, rest, h1, h2, rfl⟩ := both_ok.1 h
    obtain ⟨b, c, h3, h4, rfl⟩ := both_ok.1 h1
    have hpath := hE.path j _ hf.1
    have hne := hE.nonempty j _ hf.1
    dsimp only
    rw [List.forall_mem_cons, ← ih2 hf.2 h2, ← ih h3, AFields.compiles, hs.pathTy hne, hpath, hs.canReach]
    simp only [Bool.and_eq_true]
    unfold FieldOk
    rw [← usesV_iff h3]
    have hc : ∀ c', c' = c → ((match c' with | some c => c.compiles E.U p.field.typ | none => b.usesV) = true ↔ b.usesV = true ∨ b!"omitempty" ∈ p.params) := by
      intro c' hcc
      subst hcc
      split at h4
      · rename_i ho
        simp only [ho, or_true, iff_true]
        cases c' with
        | some c => exact typeOmiter_compiles h4
        | none =>
          dsimp only
          rw [usesV_iff h3]
          by_cases hm : NoMarshal E.U p.field.typ
          · refine .inr fun j' hj => ?_
            unfold typeOmiter at h4
            rw [hj] at h4
            split at h4 <;> cases h4
          · exact .inl hm
      · rename_i ho
        cases h4
        simp [ho]
    have hc := hc c rfl
    constructor
    · rintro ⟨⟨⟨⟨h1, h2⟩, -⟩, h4, h5⟩, h6⟩
      exact ⟨⟨h4, h1, h2, hc.1 h5⟩, h6⟩
    · rintro ⟨⟨h4, h1, h2, h5⟩, h6⟩
      refine ⟨⟨⟨⟨h1, h2⟩, ?_⟩, h4, hc.2 h5⟩, h6⟩
      exact guardsOf_compiles hs (by rw [hs.canReach]; exact h2)

/-- A method of the element type cannot be called through a pointer type that lacks it. -/
theorem not_callable {E : Env} (hE : E.Ok) {T e : Ty} (hb : E.U.base T = .ptr e) {m : Meth} (hm : E.U.impl T m = false) :
    callable E.U T m = false := by
  unfold callable
  rw [hm, hE.ptrPtr T e m hb]
  rfl

theorem methodBlock_compiles {E : Env} {T t : Ty} (h : ∀ m, callable E.U T m = false) : (methodBlock E.U t).compiles E T = false := by
  unfold methodBlock
  split
  · rw [ABlock.compiles]; exact h _
  · split
    · rw [ABlock.compiles]; exact h _
    · rw [ABlock.compiles]; exact h _

/-- A struct without fields that take part, or a pointer to one. -/
def VoidTy (E : Env) (o : GenOptions) (e : Ty) : Prop := (∃ j, e = .struct j ∧ NoMarshal E.U e ∧ appendPicks E o j = []) ∨ VoidPtr E o e

theorem pickFields_nil {E : Env} {o : GenOptions} {rec : Ty → List Bytes → Res ABlock} {t : Ty} {ps : List Pick}
    (h : pickFields E o rec t ps = .ok .nil) : ps = [] := by
  cases ps with
  | nil => rfl
  | cons p ps =>
    rw [pickFields] at h
    obtain ⟨x, rest, h1, h2, h3⟩ := both_ok.1 h
    cases h3

theorem voidPtr_iff {E : Env} {o : GenOptions} {e e' : Ty} (hm : NoMarshal E.U e) (hb : E.U.base e = .ptr e') :
    VoidPtr E o e ↔ VoidTy E o e' := by
  unfold VoidTy
  constructor
  · intro h
    cases h with
    | struct hb' _ h1 h2 => rw [hb] at hb'; cases hb'; exact .inl ⟨_, rfl, h1, h2⟩
    | ptr hb' _ h => rw [hb] at hb'; cases hb'; exact .inr h
  · rintro (⟨j, rfl, h1, h2⟩ | h)
    · exact .struct hb hm h1 h2
    · exact .ptr hb hm h

/-- The code for a type compiles behind two or more pointers only if it does nothing. -/
theorem deep_compiles {E : Env} (hE : E.Ok) {o : GenOptions} {T e1 e2 : Ty} (hT : E.U.base T = .ptr e1) (hT2 : E.U.base e1 = .ptr e2) :
    ∀ {fuel : Nat} {e : Ty} {ps : List Bytes} {b : ABlock}, typeAppender E o fuel e ps = .ok b → (b.compiles E T = true ↔ VoidTy E o e) := by
  have himpl : ∀ m, E.U.impl T m = false := by
    intro m
    cases T with
    | ptr t => cases hT; exact hE.ptrPtr _ _ m hT2
    | named i => exact hE.namedPtr i _ m hT
    | _ => cases hT
  have hcall : ∀ m, callable E.U T m = false := fun m => not_callable hE hT (himpl m)
  intro fuel
  induction fuel with
  | zero => intro e ps b h; cases h
  | succ fuel ih =>
    intro e ps b h
    by_cases hm : NoMarshal E.U e
    · rw [typeAppender_plain hm] at h
      unfold plainBlock at h
      have hno : ∀ {t'}, E.U.base e = t' → (∀ e', t' ≠ .ptr e') → (∀ j, t' ≠ .struct j) → ¬ VoidTy E o e := by
        rintro t' hb h1 h2 (⟨j, rfl, -⟩ | h)
        · exact h2 j hb.symm
        · cases h with
          | struct hb' => exact h1 _ (hb.symm.trans hb')
          | ptr hb' => exact h1 _ (hb.symm.trans hb')
      cases hb : E.U.base e with
      | ptr e' =>
        rw [hb] at h
        obtain ⟨b', h0, rfl⟩ := mapR_ok.1 h
        rw [ABlock.compiles, hT, voidPtr_iff hm hb |> fun h => show VoidTy E o e ↔ VoidTy E o e' from
          ⟨fun h' => by
            rcases h' with ⟨j, rfl, -⟩ | h'
            · cases hb
            · exact h.1 h', fun h' => .inr (h.2 h')⟩, ← ih h0]
        simp [nilable]
      | struct j =>
        rw [hb] at h
        obtain ⟨fs, h0, rfl⟩ := mapR_ok.1 h
        have hej := eq_struct hE.univ hb
        rw [ABlock.compiles]
        cases hfs : fs with
        | nil =>
          rw [hfs] at h0
          simp only [AFields.compiles, true_iff]
          exact .inl ⟨j, hej, hm, pickFields_nil h0⟩
        | cons name path guards c b rest =>
          have hp : appendPicks E o j ≠ [] := by
            intro hp
            rw [hp, hfs] at h0
            cases h0
          constructor
          · intro hc
            exfalso
            rw [AFields.compiles] at hc
            simp only [Bool.and_eq_true] at hc
            have hreach := hc.1.1.1.2
            have : path ≠ [] := by
              cases hps : appendPicks E o j with
              | nil => exact absurd hps hp
              | cons p ps' =>
                rw [hps, pickFields, hfs] at h0
                obtain ⟨x, rest', h1, h2, h3⟩ := both_ok.1 h0
                cases h3
                exact hE.nonempty j _ (mem_appendPicks (hps ▸ List.mem_cons_self : p ∈ appendPicks E o j)).1
            cases path with
            | nil => exact this rfl
            | cons i is =>
              rw [canReach, Bool.and_eq_true] at hreach
              have := hreach.1
              unfold canSelect at this
              rw [hT] at this
              dsimp only at this
              rw [hT2] at this
              cases this
          · rintro (⟨j', h1, -, h3⟩ | h')
            · rw [hej] at h1; cases h1; exact absurd h3 hp
            · cases h' with
              | struct hb' => rw [hb] at hb'; cases hb'
              | ptr hb' => rw [hb] at hb'; cases hb'
      | slice e' =>
        rw [hb] at h
        obtain ⟨x, h, rfl⟩ := mapR_ok.1 h
        rw [ABlock.compiles, hT]
        simp only [Bool.false_eq_true, false_iff]
        exact hno hb (by simp) (by simp)
      | map k e' =>
        rw [hb] at h
        obtain ⟨x, y, -, -, rfl⟩ := both_ok.1 h
        rw [ABlock.compiles, hT]
        simp only [Bool.false_eq_true, false_iff]
        exact hno hb (by simp) (by simp)
      | string =>
        rw [hb] at h
        cases h
        have : (if b!"raw" ∈ ps then ABlock.raw else ABlock.str).compiles E T = false := by
          split
          · rw [ABlock.compiles, hT]; rfl
          · rw [ABlock.compiles]; simp; rintro rfl; cases hT
        rw [this]
        simp only [Bool.false_eq_true, false_iff]
        exact hno hb (by simp) (by simp)
      | bool => rw [hb] at h; cases h; rw [ABlock.compiles, hT]; simpa using hno hb (by simp) (by simp)
      | int k => rw [hb] at h; cases h; rw [ABlock.compiles, hT]; simpa [numeric] using hno hb (by simp) (by simp)
      | uint k => rw [hb] at h; cases h; rw [ABlock.compiles, hT]; simpa [numeric] using hno hb (by simp) (by simp)
      | float k => rw [hb] at h; cases h; rw [ABlock.compiles, hT]; simpa [numeric] using hno hb (by simp) (by simp)
      | iface m i =>
        rw [hb] at h
        dsimp only at h
        split at h <;> cases h
        rw [ABlock.compiles]; simpa using hno hb (by simp) (by simp)
      | array n e => rw [hb] at h; cases h
      | other => rw [hb] at h; cases h
      | named i => rw [hb] at h; cases h
    · rw [typeAppender_method hm] at h
      cases h
      rw [methodBlock_compiles hcall]
      simp only [Bool.false_eq_true, false_iff]
      rintro (⟨j, -, h, -⟩ | h)
      · exact hm h
      · cases h with
        | struct _ h => exact hm h
        | ptr _ h => exact hm h

/-- The code for a type behind one pointer. -/
theorem shallow_compiles {E : Env} (hE : E.Ok) {o : GenOptions} {fuel : Nat} {T e : Ty} (hT : E.U.base T = .ptr e) (hN : Marshals E.U e → NoMarshal E.U T)
    (hptr : ∀ e', E.U.base e ≠ .ptr e')
    (ih : ∀ {t : Ty} {ps : List Bytes} {b : ABlock}, typeAppender E o fuel t ps = .ok b → (b.compiles E t = true ↔ ACompiles E o ps t))
    {ps : List Bytes} {b : ABlock} (h : typeAppender E o (fuel + 1) e ps = .ok b) :
    b.compiles E T = true ↔ ∃ j, e = .struct j ∧ NoMarshal E.U e ∧ ∀ p ∈ appendPicks E o j, ACompiles E o p.params p.field.typ ∧ FieldOk E o j p := by
  by_cases hm : NoMarshal E.U e
  · rw [typeAppender_plain hm] at h
    unfold plainBlock at h
    have hno : ∀ {t'}, E.U.base e = t' → (∀ j, t' ≠ .struct j) → ¬ ∃ j, e = .struct j ∧ NoMarshal E.U e ∧
        ∀ p ∈ appendPicks E o j, ACompiles E o p.params p.field.typ ∧ FieldOk E o j p := by
      rintro t' hb h2 ⟨j, rfl, -⟩
      exact h2 j hb.symm
    cases hb : E.U.base e with
    | ptr e' => exact absurd hb (hptr e')
    | struct j =>
      rw [hb] at h
      obtain ⟨fs, h0, rfl⟩ := mapR_ok.1 h
      have hej := eq_struct hE.univ hb
      subst hej
      rw [ABlock.compiles, fields_compile hE (.inr hT) ih (fun p hp => (mem_appendPicks hp).1) h0]
      constructor
      · intro h; exact ⟨j, rfl, hm, h⟩
      · rintro ⟨j', hj, -, h⟩; cases hj; exact h
    | slice e' =>
      rw [hb] at h
      obtain ⟨x, h, rfl⟩ := mapR_ok.1 h
      rw [ABlock.compiles, hT]
      simp only [Bool.false_eq_true, false_iff]
      exact hno hb (by simp)
    | map k e' =>
      rw [hb] at h
      obtain ⟨x, y, -, -, rfl⟩ := both_ok.1 h
      rw [ABlock.compiles, hT]
      simp only [Bool.false_eq_true, false_iff]
      exact hno hb (by simp)
    | string =>
      rw [hb] at h
      cases h
      have : (if b!"raw" ∈ ps then ABlock.raw else ABlock.str).compiles E T = false := by
        split
        · rw [ABlock.compiles, hT]; rfl
        · rw [ABlock.compiles]; simp; rintro rfl; cases hT
      rw [this]
      simp only [Bool.false_eq_true, false_iff]
      exact hno hb (by simp)
    | bool => rw [hb] at h; cases h; rw [ABlock.compiles, hT]; simpa using hno hb (by simp)
    | int k => rw [hb] at h; cases h; rw [ABlock.compiles, hT]; simpa [numeric] using hno hb (by simp)
    | uint k => rw [hb] at h; cases h; rw [ABlock.compiles, hT]; simpa [numeric] using hno hb (by simp)
    | float k => rw [hb] at h; cases h; rw [ABlock.compiles, hT]; simpa [numeric] using hno hb (by simp)
    | iface m i =>
      rw [hb] at h
      dsimp only at h
      split at h <;> cases h
      rw [ABlock.compiles]; simpa using hno hb (by simp)
    | array n e => rw [hb] at h; cases h
    | other => rw [hb] at h; cases h
    | named i => rw [hb] at h; cases h
  · rw [typeAppender_method hm] at h
    cases h
    have : (methodBlock E.U e).compiles E T = false := by
      unfold methodBlock
      split
      · rw [ABlock.compiles]; exact not_callable hE hT (hN hm).1
      · split
        · rw [ABlock.compiles]; exact not_callable hE hT (hN hm).2.1
        · rw [ABlock.compiles]; exact not_callable hE hT (hN hm).2.2
    rw [this]
    simp only [Bool.false_eq_true, false_iff]
    rintro ⟨j, -, h, -⟩
    exact hm h

end Verif.Gen

namespace Verif.Gen
open Verif Verif.Float Verif.Spec Verif.Njson Verif.Unjson

theorem ACompiles.inv_struct {E : Env} {o : GenOptions} {ps : List Bytes} {j : Nat} (hm : NoMarshal E.U (.struct j)) (h : ACompiles E o ps (.struct j)) :
    ∀ p ∈ appendPicks E o j, ACompiles E o p.params p.field.typ ∧ FieldOk E o j p := by
  cases h with
  | method h => exact absurd hm h
  | struct h1 h2 => exact fun p hp => ⟨h1 p hp, h2 p hp⟩
  | bool hb => cases hb
  | raw hb => cases hb
  | int hb => cases hb
  | uint hb => cases hb
  | float hb => cases hb
  | ptr hb => cases hb
  | slice hb => cases hb
  | map hb => cases hb
  | ptrVoid hb => cases hb

theorem ACompiles.inv_ptr {E : Env} {o : GenOptions} {ps : List Bytes} {t e : Ty} (hm : NoMarshal E.U t) (hb : E.U.base t = .ptr e) (h : ACompiles E o ps t) :
    (∃ j, e = .struct j ∧ NoMarshal E.U e ∧ ACompiles E o ps (.struct j)) ∨ VoidPtr E o e := by
  cases h with
  | method h => exact absurd hm h
  | string => cases hb
  | ptr hb' h1 h2 => rw [hb] at hb'; cases hb'; exact .inl ⟨_, rfl, h1, h2⟩
  | ptrVoid hb' h => rw [hb] at hb'; cases hb'; exact .inr h
  | struct => cases hb
  | _ hb' => rw [hb] at hb'; cases hb'

theorem VoidPtr.base {E : Env} {o : GenOptions} {t : Ty} (h : VoidPtr E o t) : ∃ e, E.U.base t = .ptr e := by
  cases h with
  | struct h => exact ⟨_, h⟩
  | ptr h => exact ⟨_, h⟩

theorem methodBlock_self {E : Env} {t : Ty} (h : Marshals E.U t) : (methodBlock E.U t).compiles E t = true := by
  unfold methodBlock Marshals NoMarshal at *
  cases h1 : E.U.impl t .appender
  · cases h2 : E.U.impl t .jsonMarshaler
    · cases h3 : E.U.impl t .textMarshaler
      · exact absurd ⟨h1, h2, h3⟩ h
      · simp [ABlock.compiles, callable, h3]
    · simp [ABlock.compiles, callable, h2]
  · simp [ABlock.compiles, callable, h1]

/-- The block generated for a type compiles iff the type is one of those in `ACompiles`. -/
theorem compiles_iff {E : Env} (hE : E.Ok) {o : GenOptions} : ∀ (fuel : Nat) {t : Ty} {ps : List Bytes} {b : ABlock},
    typeAppender E o fuel t ps = .ok b → (b.compiles E t = true ↔ ACompiles E o ps t) := by
  intro fuel
  induction fuel using Nat.strong_induction_on with
  | _ fuel IH =>
    intro t ps b h
    cases fuel with
    | zero => cases h
    | succ fuel =>
      have ih : ∀ {t : Ty} {ps : List Bytes} {b : ABlock}, typeAppender E o fuel t ps = .ok b → (b.compiles E t = true ↔ ACompiles E o ps t) :=
        fun h => IH fuel (by omega) h
      by_cases hm : NoMarshal E.U t
      · rw [typeAppender_plain hm] at h
        unfold plainBlock at h
        cases hb : E.U.base t with
        | ptr e =>
          rw [hb] at h
          obtain ⟨b', h0, rfl⟩ := mapR_ok.1 h
          rw [ABlock.compiles, hb]
          simp only [nilable, Bool.true_and]
          by_cases hp : ∃ e', E.U.base e = .ptr e'
          · obtain ⟨e', he⟩ := hp
            rw [deep_compiles hE hb he h0]
            constructor
            · rintro (⟨j, rfl, -⟩ | h)
              · cases he
              · exact .ptrVoid hb h
            · intro h
              rcases h.inv_ptr hm hb with ⟨j, rfl, -⟩ | h
              · cases he
              · exact .inr h
          · have hp : ∀ e', E.U.base e ≠ .ptr e' := fun e' h => hp ⟨e', h⟩
            cases fuel with
            | zero => cases h0
            | succ fuel =>
              rw [shallow_compiles hE hb (fun _ => hm) hp (fun h => IH fuel (by omega) h) h0]
              constructor
              · rintro ⟨j, rfl, h1, h2⟩
                exact .ptr hb h1 (.struct (fun p hp => (h2 p hp).1) fun p hp => (h2 p hp).2)
              · intro h
                rcases h.inv_ptr hm hb with ⟨j, rfl, h1, h2⟩ | h
                · exact ⟨j, rfl, h1, h2.inv_struct h1⟩
                · obtain ⟨e', he⟩ := h.base; exact absurd he (hp e')
        | struct j =>
          rw [hb] at h
          obtain ⟨fs, h0, rfl⟩ := mapR_ok.1 h
          have hej := eq_struct hE.univ hb
          subst hej
          rw [ABlock.compiles, fields_compile hE (.inl hb) ih (fun p hp => (mem_appendPicks hp).1) h0]
          exact ⟨fun h => .struct (fun p hp => (h p hp).1) fun p hp => (h p hp).2, fun h => h.inv_struct hm⟩
        | slice e =>
          rw [hb] at h
          obtain ⟨b', h0, rfl⟩ := mapR_ok.1 h
          rw [ABlock.compiles, hb]
          simp only [Bool.and_eq_true]
          rw [ih h0, usesV_iff h0]
          constructor
          · rintro ⟨h1, h2⟩; exact .slice hb h1 h2
          · intro h
            cases h with
            | method h => exact absurd hm h
            | slice hb' h1 h2 => rw [hb] at hb'; cases hb'; exact ⟨h1, h2⟩
            | string => cases hb
            | struct => cases hb
            | _ hb' => rw [hb] at hb'; cases hb'
        | map k e =>
          rw [hb] at h
          obtain ⟨b1, b2, h1, h2, rfl⟩ := both_ok.1 h
          rw [ABlock.compiles, hb]
          simp only [Bool.and_eq_true]
          rw [ih h1, usesV_iff h1, ih h2, usesV_iff h2]
          constructor
          · rintro ⟨⟨⟨h1, h2⟩, h3⟩, h4⟩; exact .map hb h1 h2 h3 h4
          · intro h
            cases h with
            | method h => exact absurd hm h
            | map hb' h1 h2 h3 h4 => rw [hb] at hb'; cases hb'; exact ⟨⟨⟨h1, h2⟩, h3⟩, h4⟩
            | string => cases hb
            | struct => cases hb
            | _ hb' => rw [hb] at hb'; cases hb'
        | string =>
          rw [hb] at h
          cases h
          by_cases hr : b!"raw" ∈ ps
          · simp only [hr, if_true, ABlock.compiles, hb, decide_true, true_iff]
            exact .raw hb hr
          · simp only [hr, if_false, ABlock.compiles, decide_eq_true_eq]
            constructor
            · rintro rfl; exact .string
            · intro h
              cases h with
              | method h => exact absurd hm h
              | string => rfl
              | raw _ h => exact absurd h hr
              | struct => cases hb
              | _ hb' => rw [hb] at hb'; cases hb'
        | bool => rw [hb] at h; cases h; simp only [ABlock.compiles, hb, decide_true, true_iff]; exact .bool hb
        | int k => rw [hb] at h; cases h; simp only [ABlock.compiles, hb, numeric, true_iff]; exact .int hb
        | uint k => rw [hb] at h; cases h; simp only [ABlock.compiles, hb, numeric, true_iff]; exact .uint hb
        | float k => rw [hb] at h; cases h; simp only [ABlock.compiles, hb, numeric, true_iff]; exact .float hb
        | iface m i =>
          rw [hb] at h
          dsimp only at h
          split at h <;> cases h
          simp only [ABlock.compiles, Bool.false_eq_true, false_iff]
          intro h
          cases h with
          | method h => exact absurd hm h
          | string => cases hb
          | struct => cases hb
          | _ hb' => rw [hb] at hb'; cases hb'
        | array n e => rw [hb] at h; cases h
        | other => rw [hb] at h; cases h
        | named i => rw [hb] at h; cases h
      · rw [typeAppender_method hm] at h
        cases h
        rw [methodBlock_self hm]
        simp only [true_iff]
        exact .method hm

/-- The generated method compiles iff the type is a struct whose fields are in `ACompiles`, or a defined type with methods. -/
theorem appenderCompiles_iff {E : Env} (hE : E.Ok) {o : GenOptions} {fuel : Nat} {t : Ty} {ps : List Bytes} {b : ABlock}
    (h : typeAppender E o fuel t ps = .ok b) :
    appenderCompiles E b t = true ↔ canHaveMethod E.U t = true ∧ (Marshals E.U t ∨ ∃ j, t = .struct j ∧ ACompiles E o [] t) := by
  unfold appenderCompiles
  rw [Bool.and_eq_true]
  apply and_congr_right
  intro hc
  have hptr : ∀ e, E.U.base t ≠ .ptr e := by
    intro e he
    unfold canHaveMethod at hc
    cases t with
    | named i => dsimp only at hc; rw [he] at hc; cases hc
    | struct j => cases he
    | _ => cases hc
  have hif : ∀ m i, E.U.base t ≠ .iface m i := by
    intro m i he
    unfold canHaveMethod at hc
    cases t with
    | named i => dsimp only at hc; rw [he] at hc; cases hc
    | struct j => cases he
    | _ => cases hc
  by_cases hm : NoMarshal E.U t
  · cases fuel with
    | zero => cases h
    | succ fuel =>
      rw [shallow_compiles hE (T := .ptr t) rfl (fun h => absurd hm h) hptr (fun h => compiles_iff hE fuel h) h]
      constructor
      · rintro ⟨j, rfl, h1, h2⟩
        exact .inr ⟨j, rfl, .struct (fun p hp => (h2 p hp).1) fun p hp => (h2 p hp).2⟩
      · rintro (h | ⟨j, rfl, h⟩)
        · exact absurd hm h
        · exact ⟨j, rfl, hm, h.inv_struct hm⟩
  · cases fuel with
    | zero => cases h
    | succ fuel =>
      rw [typeAppender_method hm] at h
      cases h
      refine ⟨fun _ => .inl hm, fun _ => ?_⟩
      have hc : ∀ m, E.U.impl t m = true → callable E.U (.ptr t) m = true := by
        intro m h
        unfold callable
        rw [hE.methods t m h hif hptr]
        rfl
      unfold methodBlock Marshals NoMarshal at *
      cases h1 : E.U.impl t .appender
      · cases h2 : E.U.impl t .jsonMarshaler
        · cases h3 : E.U.impl t .textMarshaler
          · exact absurd ⟨h1, h2, h3⟩ hm
          · simpa [ABlock.compiles] using hc _ h3
        · simpa [ABlock.compiles] using hc _ h2
      · simpa [ABlock.compiles] using hc _ h1

end Verif.Gen
