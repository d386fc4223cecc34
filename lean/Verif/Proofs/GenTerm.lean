import Verif.Proofs.GenPick

/-! # When the generator of `AppendJSON` terminates and succeeds -/

namespace Verif.Gen
open Verif Verif.Float Verif.Spec Verif.Njson Verif.Unjson

/-- The call for a type with methods. -/
def methodBlock (U : Univ) (t : Ty) : ABlock :=
  if U.impl t .appender then .callAppend else if U.impl t .jsonMarshaler then .callJSON else .callText

theorem typeAppender_method {E : Env} {o : GenOptions} {t : Ty} (h : Marshals E.U t) (fuel : Nat) (ps : List Bytes) :
    typeAppender E o (fuel + 1) t ps = .ok (methodBlock E.U t) := by
  rw [typeAppender, methodBlock]
  unfold Marshals NoMarshal at h
  cases h1 : E.U.impl t .appender
  · cases h2 : E.U.impl t .jsonMarshaler
    · cases h3 : E.U.impl t .textMarshaler
      · exact absurd ⟨h1, h2, h3⟩ h
      · rfl
    · rfl
  · rfl

/-- The block for a type without methods. -/
def plainBlock (E : Env) (o : GenOptions) (fuel : Nat) (t : Ty) (params : List Bytes) : Res ABlock :=
  match E.U.base t with
  | .ptr e => mapR .ptr (typeAppender E o fuel e params)
  | .map k e => both (typeAppender E o fuel k []) (typeAppender E o fuel e params) .map
  | .slice e => mapR .slice (typeAppender E o fuel e params)
  | .struct j => mapR .struct (pickFields E o (typeAppender E o fuel) t (appendPicks E o j))
  | .bool => .ok .bool
  | .string => .ok (if b!"raw" ∈ params then .raw else .str)
  | .float _ => .ok .float
  | .uint _ => .ok .uint
  | .int _ => .ok .int
  | .iface m _ => if m = 0 then .ok .any else .err .invalidType
  | _ => .err .invalidType

theorem typeAppender_plain {E : Env} {o : GenOptions} {t : Ty} (h : NoMarshal E.U t) (fuel : Nat) (ps : List Bytes) :
    typeAppender E o (fuel + 1) t ps = plainBlock E o fuel t ps := by
  obtain ⟨h1, h2, h3⟩ := h
  rw [typeAppender, h1, h2, h3, plainBlock]
  simp only [Bool.false_eq_true, if_false]
  cases hb : E.U.base t <;> simp only []
  rw [appendFields_picks]

/-- More fuel does not change a result. -/
theorem typeAppender_mono {E : Env} {o : GenOptions} : ∀ {fuel fuel' : Nat} {t : Ty} {ps : List Bytes},
    typeAppender E o fuel t ps ≠ .diverge → fuel ≤ fuel' → typeAppender E o fuel' t ps = typeAppender E o fuel t ps := by
  intro fuel
  induction fuel with
  | zero => intro fuel' t ps h; exact absurd rfl h
  | succ fuel ih =>
    intro fuel' t ps h hle
    obtain ⟨f', rfl⟩ : ∃ f', fuel' = f' + 1 := ⟨fuel' - 1, by omega⟩
    have hle : fuel ≤ f' := by omega
    by_cases hm : NoMarshal E.U t
    · rw [typeAppender_plain hm] at h ⊢
      rw [typeAppender_plain hm]
      unfold plainBlock at h ⊢
      cases hb : E.U.base t with
      | ptr e => rw [hb] at h; simp only [mapR_ne_diverge] at h; simp only []; rw [ih h hle]
      | slice e => rw [hb] at h; simp only [mapR_ne_diverge] at h; simp only []; rw [ih h hle]
      | map k e => rw [hb] at h; simp only [both_ne_diverge] at h; simp only []; rw [ih h.1 hle, ih h.2 hle]
      | struct j =>
        rw [hb] at h; simp only [mapR_ne_diverge, pickFields_ne_diverge] at h; simp only []
        rw [pickFields_congr fun p hp => ih (h p hp) hle]
      | _ => rfl
    · rw [typeAppender_method hm, typeAppender_method hm]

theorem ends_of_ne_diverge {E : Env} {o : GenOptions} : ∀ {fuel : Nat} {t : Ty} {ps : List Bytes},
    typeAppender E o fuel t ps ≠ .diverge → AEnds E o t := by
  intro fuel
  induction fuel with
  | zero => intro t ps h; exact absurd rfl h
  | succ fuel ih =>
    intro t ps h
    by_cases hm : NoMarshal E.U t
    · rw [typeAppender_plain hm] at h
      unfold plainBlock at h
      cases hb : E.U.base t with
      | ptr e => rw [hb] at h; simp only [mapR_ne_diverge] at h; exact .ptr hb (ih h)
      | slice e => rw [hb] at h; simp only [mapR_ne_diverge] at h; exact .slice hb (ih h)
      | map k e => rw [hb] at h; simp only [both_ne_diverge] at h; exact .map hb (ih h.1) (ih h.2)
      | struct j => rw [hb] at h; simp only [mapR_ne_diverge, pickFields_ne_diverge] at h; exact .struct hb fun p hp => ih (h p hp)
      | _ => exact .leaf (by simp [hb]) (by simp [hb]) (by simp [hb]) (by simp [hb])
    · exact .method hm

theorem exists_fuel {E : Env} {o : GenOptions} : ∀ {ps : List Pick},
    (∀ p ∈ ps, ∃ fuel, ∀ qs, typeAppender E o fuel p.field.typ qs ≠ .diverge) →
    ∃ fuel, ∀ p ∈ ps, ∀ qs, typeAppender E o fuel p.field.typ qs ≠ .diverge := by
  intro ps
  induction ps with
  | nil => intro _; exact ⟨0, by simp⟩
  | cons p ps ih =>
    intro h
    rw [List.forall_mem_cons] at h
    obtain ⟨f1, h1⟩ := h.1
    obtain ⟨f2, h2⟩ := ih h.2
    refine ⟨max f1 f2, ?_⟩
    rw [List.forall_mem_cons]
    refine ⟨fun qs => ?_, fun p hp qs => ?_⟩
    · rw [typeAppender_mono (h1 qs) (Nat.le_max_left _ _)]; exact h1 qs
    · rw [typeAppender_mono (h2 p hp qs) (Nat.le_max_right _ _)]; exact h2 p hp qs

theorem ne_diverge_of_ends {E : Env} {o : GenOptions} {t : Ty} (h : AEnds E o t) :
    ∃ fuel, ∀ ps, typeAppender E o fuel t ps ≠ .diverge := by
  have step : ∀ {t : Ty} {fuel : Nat}, (NoMarshal E.U t → ∀ ps, plainBlock E o fuel t ps ≠ .diverge) →
      ∃ fuel, ∀ ps, typeAppender E o fuel t ps ≠ .diverge := by
    intro t fuel hp
    refine ⟨fuel + 1, fun ps => ?_⟩
    by_cases hm : NoMarshal E.U t
    · rw [typeAppender_plain hm]; exact hp hm ps
    · rw [typeAppender_method hm]; simp
  induction h with
  | method hm => exact ⟨1, fun ps => by rw [typeAppender_method hm]; simp⟩
  | @leaf t h1 h2 h3 h4 =>
    refine step (fuel := 0) fun _ ps => ?_
    unfold plainBlock
    cases hb : E.U.base t with
    | ptr e => exact absurd hb (h1 e)
    | slice e => exact absurd hb (h2 e)
    | map k e => exact absurd hb (h3 k e)
    | struct j => exact absurd hb (h4 j)
    | iface m i => simp only []; split <;> simp
    | _ => simp
  | ptr hb _ ih =>
    obtain ⟨fuel, ih⟩ := ih
    refine step (fuel := fuel) fun _ ps => ?_
    unfold plainBlock; rw [hb]; simp only [mapR_ne_diverge]; exact ih ps
  | slice hb _ ih =>
    obtain ⟨fuel, ih⟩ := ih
    refine step (fuel := fuel) fun _ ps => ?_
    unfold plainBlock; rw [hb]; simp only [mapR_ne_diverge]; exact ih ps
  | map hb _ _ ih1 ih2 =>
    obtain ⟨f1, ih1⟩ := ih1
    obtain ⟨f2, ih2⟩ := ih2
    refine step (fuel := max f1 f2) fun _ ps => ?_
    unfold plainBlock; rw [hb]; simp only [both_ne_diverge]
    rw [typeAppender_mono (ih1 []) (Nat.le_max_left _ _), typeAppender_mono (ih2 ps) (Nat.le_max_right _ _)]
    exact ⟨ih1 [], ih2 ps⟩
  | struct hb _ ih =>
    obtain ⟨fuel, ih⟩ := exists_fuel ih
    refine step (fuel := fuel) fun _ ps => ?_
    unfold plainBlock; rw [hb]; simp only [mapR_ne_diverge, pickFields_ne_diverge]
    exact fun p hp => ih p hp _

/-! ## Success -/

theorem typeOmiter_ok {E : Env} {o : GenOptions} {t : Ty} :
    (∃ c, typeOmiter E o t = .ok c) ↔ (E.U.omitMethod o.omitMethod t).isSome = true ∨ ∀ j, E.U.base t ≠ .struct j := by
  unfold typeOmiter
  by_cases h : (E.U.omitMethod o.omitMethod t).isSome = true
  · simp [h]
  · rw [if_neg h]
    cases hb : E.U.base t <;> simp [h]

theorem omitFor_ok {E : Env} {o : GenOptions} {p : Pick} :
    (∃ c, (if b!"omitempty" ∈ p.params then typeOmiter E o p.field.typ else .ok none) = .ok c) ↔ OmitOk E o p := by
  unfold OmitOk
  split
  · rename_i h; rw [typeOmiter_ok]; simp [h]
  · rename_i h; simp [h]

theorem pickFields_ok {E : Env} {o : GenOptions} {rec : Ty → List Bytes → Res ABlock} {t : Ty} : ∀ {ps : List Pick},
    (∃ b, pickFields E o rec t ps = .ok b) ↔ ∀ p ∈ ps, (∃ b, rec p.field.typ p.params = .ok b) ∧ OmitOk E o p := by
  intro ps
  induction ps with
  | nil => simp [pickFields]
  | cons p ps ih =>
    rw [List.forall_mem_cons, ← ih, ← omitFor_ok, pickFields]
    constructor
    · rintro ⟨b, h⟩
      obtain ⟨x, y, h1, h2, -⟩ := both_ok.1 h
      obtain ⟨x', y', h3, h4, -⟩ := both_ok.1 h1
      exact ⟨⟨⟨_, h3⟩, ⟨_, h4⟩⟩, ⟨_, h2⟩⟩
    · rintro ⟨⟨⟨a, h1⟩, ⟨c, h2⟩⟩, ⟨r, h3⟩⟩
      exact ⟨_, both_ok.2 ⟨_, _, both_ok.2 ⟨_, _, h1, h2, rfl⟩, h3, rfl⟩⟩

theorem supported_of_ok {E : Env} {o : GenOptions} : ∀ {fuel : Nat} {t : Ty} {ps : List Bytes} {b : ABlock},
    typeAppender E o fuel t ps = .ok b → ASupported E o t := by
  intro fuel
  induction fuel with
  | zero => intro t ps b h; cases h
  | succ fuel ih =>
    intro t ps b h
    by_cases hm : NoMarshal E.U t
    · rw [typeAppender_plain hm] at h
      unfold plainBlock at h
      cases hb : E.U.base t with
      | ptr e => rw [hb] at h; obtain ⟨x, h, -⟩ := mapR_ok.1 h; exact .ptr hb (ih h)
      | slice e => rw [hb] at h; obtain ⟨x, h, -⟩ := mapR_ok.1 h; exact .slice hb (ih h)
      | map k e => rw [hb] at h; obtain ⟨x, y, h1, h2, -⟩ := both_ok.1 h; exact .map hb (ih h1) (ih h2)
      | struct j =>
        rw [hb] at h
        obtain ⟨x, h, -⟩ := mapR_ok.1 h
        have := pickFields_ok.1 ⟨x, h⟩
        exact .struct hb (fun p hp => by obtain ⟨b, hb⟩ := (this p hp).1; exact ih hb) fun p hp => (this p hp).2
      | bool => exact .bool hb
      | string => exact .string hb
      | int k => exact .int hb
      | uint k => exact .uint hb
      | float k => exact .float hb
      | iface m i =>
        rw [hb] at h
        dsimp only at h
        split at h
        · rename_i h0; subst h0; exact .any hb
        · cases h
      | _ => rw [hb] at h; cases h
    · exact .method hm

theorem ends_of_supported {E : Env} {o : GenOptions} {t : Ty} (h : ASupported E o t) : AEnds E o t := by
  induction h with
  | method h => exact .method h
  | ptr hb _ ih => exact .ptr hb ih
  | slice hb _ ih => exact .slice hb ih
  | map hb _ _ ih1 ih2 => exact .map hb ih1 ih2
  | struct hb _ _ ih => exact .struct hb ih
  | _ hb => exact .leaf (by simp [hb]) (by simp [hb]) (by simp [hb]) (by simp [hb])

theorem ok_of_supported {E : Env} {o : GenOptions} {t : Ty} (h : ASupported E o t) :
    ∀ (fuel : Nat) (ps : List Bytes), typeAppender E o fuel t ps ≠ .diverge → ∃ b, typeAppender E o fuel t ps = .ok b := by
  have key : ∀ {t : Ty}, (NoMarshal E.U t → ∀ (fuel : Nat) (ps : List Bytes), plainBlock E o fuel t ps ≠ .diverge → ∃ b, plainBlock E o fuel t ps = .ok b) →
      ∀ (fuel : Nat) (ps : List Bytes), typeAppender E o fuel t ps ≠ .diverge → ∃ b, typeAppender E o fuel t ps = .ok b := by
    intro t hp fuel ps hd
    cases fuel with
    | zero => exact absurd rfl hd
    | succ fuel =>
      by_cases hm : NoMarshal E.U t
      · rw [typeAppender_plain hm] at hd ⊢; exact hp hm _ _ hd
      · rw [typeAppender_method hm]; exact ⟨_, rfl⟩
  induction h with
  | method hm => exact key fun h => absurd h hm
  | ptr hb _ ih =>
    refine key fun _ fuel ps hd => ?_
    unfold plainBlock at hd ⊢; rw [hb] at hd ⊢; simp only [mapR_ne_diverge] at hd
    obtain ⟨b, h⟩ := ih _ _ hd
    exact ⟨_, mapR_ok.2 ⟨_, h, rfl⟩⟩
  | slice hb _ ih =>
    refine key fun _ fuel ps hd => ?_
    unfold plainBlock at hd ⊢; rw [hb] at hd ⊢; simp only [mapR_ne_diverge] at hd
    obtain ⟨b, h⟩ := ih _ _ hd
    exact ⟨_, mapR_ok.2 ⟨_, h, rfl⟩⟩
  | map hb _ _ ih1 ih2 =>
    refine key fun _ fuel ps hd => ?_
    unfold plainBlock at hd ⊢; rw [hb] at hd ⊢; simp only [both_ne_diverge] at hd
    obtain ⟨b, h⟩ := ih1 _ _ hd.1
    obtain ⟨b', h'⟩ := ih2 _ _ hd.2
    exact ⟨_, both_ok.2 ⟨_, _, h, h', rfl⟩⟩
  | struct hb _ ho ih =>
    refine key fun _ fuel ps hd => ?_
    unfold plainBlock at hd ⊢; rw [hb] at hd ⊢; simp only [mapR_ne_diverge, pickFields_ne_diverge] at hd
    obtain ⟨b, h⟩ := pickFields_ok.2 fun p hp => ⟨ih p hp _ _ (hd p hp), ho p hp⟩
    exact ⟨_, mapR_ok.2 ⟨_, h, rfl⟩⟩
  | _ hb => exact key fun _ fuel ps _ => by unfold plainBlock; rw [hb]; exact ⟨_, rfl⟩

end Verif.Gen
