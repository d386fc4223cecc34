import Verif.Proofs.GenDecPick
import Verif.Proofs.GenCompile

/-! # When generated `UnmarshalNodeJSON` methods compile -/

namespace Verif.Gen
open Verif Verif.Float Verif.Spec Verif.Njson Verif.Unjson

theorem rt_named {E : Env} (hE : E.Ok) {rt t : Ty} (hr : E.U.base rt = .ptr t) (hne : rt ≠ .ptr t) (m : Meth) : E.U.impl rt m = false := by
  cases rt with
  | named i => exact hE.namedPtr i t m hr
  | ptr e => cases hr; exact absurd rfl hne
  | _ => cases hr

theorem special_compiles {E : Env} (hE : E.Ok) {o : GenOptions} {rt t : Ty} (hr : E.U.base rt = .ptr t) (hm : Unmarshals E t) :
    (specialBlock E t).compiles E rt = true ↔ UCompiles E o (decide (rt = .ptr t)) t := by
  unfold specialBlock
  cases h1 : E.isTime t
  · cases h2 : E.isDuration t
    · cases h3 : E.U.impl (.ptr t) .unmarshaler
      · by_cases hl : rt = .ptr t
        · have : decide (rt = .ptr t) = true := by simpa using hl
          rw [this]
          cases h4 : E.U.impl (.ptr t) .jsonUnmarshaler
          · cases h5 : E.U.impl (.ptr t) .textUnmarshaler
            · exfalso
              rcases hm with h | h | h
              · rw [h1] at h; cases h
              · rw [h2] at h; cases h
              · exact h ⟨h3, h4, h5⟩
            · simp only [Bool.false_eq_true, if_false]
              rw [UBlock.compiles, hl]
              exact ⟨fun _ => .text h1 h2 h3 h4 h5, fun _ => h5⟩
          · simp only [Bool.false_eq_true, if_false, if_true]
            rw [UBlock.compiles, hl]
            exact ⟨fun _ => .json h1 h2 h3 h4, fun _ => h4⟩
        · have hd : decide (rt = .ptr t) = false := by simpa using hl
          rw [hd]
          have hi := rt_named hE hr hl
          constructor
          · intro h
            simp only [Bool.false_eq_true, if_false] at h
            split at h <;> rw [UBlock.compiles, hi] at h <;> cases h
          · intro h
            cases h with
            | time h => rw [h1] at h; cases h
            | _ h => exact absurd hm h
      · constructor
        · intro h; simp [UBlock.compiles] at h
        · intro h
          generalize decide (rt = .ptr t) = lit at h
          cases h with
          | time h => rw [h1] at h; cases h
          | json _ _ h => rw [h3] at h; cases h
          | text _ _ h => rw [h3] at h; cases h
          | _ h => exact absurd hm h
    · constructor
      · intro h; simp [UBlock.compiles] at h
      · intro h
        generalize decide (rt = .ptr t) = lit at h
        cases h with
        | time h => rw [h1] at h; cases h
        | json _ h => rw [h2] at h; cases h
        | text _ h => rw [h2] at h; cases h
        | _ h => exact absurd hm h
  · simp only [if_true]
    rw [UBlock.compiles, elemTy, hr]
    exact ⟨fun _ => .time h1, fun _ => h1⟩

theorem special_uses {E : Env} {rt t : Ty} (h : (specialBlock E t).compiles E rt = true) : (specialBlock E t).usesR = true := by
  unfold specialBlock at *
  repeat' split
  all_goals first | rfl | skip
  simp_all [UBlock.compiles]

theorem pickCases_nil {E : Env} {rec : Ty → Res UBlock} {t : Ty} {ps : List Pick} (h : pickCases E rec t ps = .ok .nil) : ps = [] := by
  cases ps with
  | nil => rfl
  | cons p ps =>
    exfalso
    rw [pickCases] at h
    split at h
    · cases h
    · cases h
    · obtain ⟨x, -, h⟩ := mapR_ok.1 h; cases h

theorem usesR_iff {E : Env} {o : GenOptions} {fuel : Nat} {t rt : Ty} {b : UBlock} (h : typeUnmarshaler E o fuel t = .ok b)
    (hc : b.compiles E rt = true) : b.usesR = true ↔ UNotVoid E o t := by
  cases fuel with
  | zero => cases h
  | succ fuel =>
    by_cases hm : Unmarshals E t
    · rw [typeUnmarshaler_special hm] at h
      cases h
      exact ⟨fun _ => .inl hm, fun _ => special_uses hc⟩
    · rw [typeUnmarshaler_plain hm] at h
      unfold plainUBlock at h
      cases hb : E.U.base t with
      | struct j =>
        rw [hb] at h
        obtain ⟨cs, h0, rfl⟩ := mapR_ok.1 h
        rw [unmarshalFields_picks o _ t j (unmarshalFields_can h0)] at h0
        unfold UNotVoid
        constructor
        · intro hu
          right
          intro j' hj' hp
          rw [hb] at hj'; cases hj'
          rw [hp] at h0
          cases h0
          exact absurd hu (by simp [UBlock.usesR])
        · rintro (hn | hn)
          · exact absurd hn hm
          · cases cs with
            | nil => exact absurd (pickCases_nil h0) (hn j hb)
            | cons => rfl
      | ptr e => rw [hb] at h; obtain ⟨x, h0, rfl⟩ := mapR_ok.1 h; exact ⟨fun _ => .inr fun j hj => by simp [hb] at hj, fun _ => rfl⟩
      | slice e => rw [hb] at h; obtain ⟨x, h0, rfl⟩ := mapR_ok.1 h; exact ⟨fun _ => .inr fun j hj => by simp [hb] at hj, fun _ => rfl⟩
      | map k e => rw [hb] at h; obtain ⟨x, h0, rfl⟩ := mapR_ok.1 h; exact ⟨fun _ => .inr fun j hj => by simp [hb] at hj, fun _ => rfl⟩
      | iface m i =>
        rw [hb] at h; dsimp only at h
        split at h
        · cases h; exact ⟨fun _ => .inr fun j hj => by simp [hb] at hj, fun _ => rfl⟩
        · cases h
      | array n e => rw [hb] at h; cases h
      | other => rw [hb] at h; cases h
      | named i => rw [hb] at h; cases h
      | _ => rw [hb] at h; cases h; exact ⟨fun _ => .inr fun j hj => by simp [hb] at hj, fun _ => rfl⟩

theorem mem_ensureOf {U : Univ} {t : Ty} : ∀ {is pre : List Nat} {g : List Nat × Ty}, g ∈ ensureOf U t pre is →
    ∃ p q, p ≠ [] ∧ q ≠ [] ∧ is = p ++ q ∧ g.1 = pre ++ p ∧ pathTy U t p = some (.ptr g.2) := by
  intro is
  induction is generalizing t with
  | nil => intro pre g h; simp [ensureOf] at h
  | cons i is ih =>
    intro pre g h
    cases is with
    | nil => simp [ensureOf] at h
    | cons i2 is =>
      rw [ensureOf] at h
      cases hf : fieldTy U t i with
      | none => rw [hf] at h; simp at h
      | some t' =>
        rw [hf] at h
        simp only [List.mem_append] at h
        rcases h with h | h
        · cases t' with
          | ptr e =>
            simp only [List.mem_singleton] at h
            subst h
            exact ⟨[i], i2 :: is, by simp, by simp, by simp, rfl, by rw [pathTy, hf]; rfl⟩
          | _ => simp at h
        · obtain ⟨p, q, h1, h2, h3, h4, h5⟩ := ih h
          refine ⟨i :: p, q, by simp, h2, by rw [h3]; rfl, by rw [h4]; simp, ?_⟩
          rw [pathTy, hf]
          exact h5

theorem ensureOf_compiles {E : Env} {t' : Ty} {j : Nat} (hs : SameSel E.U t' j) {path : List Nat} (hr : canReach E t' path = true) :
    (ensureOf E.U (.struct j) [] path).all (fun p => canReach E t' p.1 && pathTy E.U t' p.1 = some (.ptr p.2)) = true := by
  rw [List.all_eq_true]
  intro g hg
  obtain ⟨p, q, h1, h2, h3, h4, h5⟩ := mem_ensureOf hg
  rw [List.nil_append] at h4
  rw [Bool.and_eq_true, h4, hs.pathTy h1, h5, decide_eq_true_iff]
  rw [h3] at hr
  exact ⟨canReach_append hr, rfl⟩

theorem cases_compile {E : Env} (hE : E.Ok) {o : GenOptions} {fuel : Nat} {j : Nat} {t' : Ty} (hs : SameSel E.U t' j)
    (ih : ∀ {t rt : Ty} {b : UBlock}, typeUnmarshaler E o fuel t = .ok b → E.U.base rt = .ptr t →
      (b.compiles E rt = true ↔ UCompiles E o (decide (rt = .ptr t)) t)) :
    ∀ {ps : List Pick} {cs : UCases}, (∀ p ∈ ps, p.field ∈ (E.fields j).flatten) → pickCases E (typeUnmarshaler E o fuel) (.struct j) ps = .ok cs →
      (cs.compiles E t' = true ↔ ∀ p ∈ ps, (¬ RawString E.U p → UCompiles E o true p.field.typ) ∧ UFieldOk E o j p) := by
  intro ps
  induction ps with
  | nil => intro cs _ h; cases h; simp [UCases.compiles]
  | cons p ps ihp =>
    intro cs hm h
    rw [List.forall_mem_cons] at hm ⊢
    rw [pickCases] at h
    cases hb : caseBlock E (typeUnmarshaler E o fuel) p with
    | err e => rw [hb] at h; cases h
    | diverge => rw [hb] at h; cases h
    | ok b =>
      rw [hb] at h
      obtain ⟨rest, h0, rfl⟩ := mapR_ok.1 h
      rw [UCases.compiles, Bool.and_eq_true, ihp hm.2 h0]
      apply and_congr_left
      intro _
      rw [hs.pathTy (hE.nonempty j _ hm.1), hE.path j _ hm.1]
      simp only [Bool.and_eq_true]
      unfold UFieldOk
      have e1 : (p.name.all fun c => c != 96 && c != 13) = true ↔ ∀ c ∈ p.name, c ≠ 96 ∧ c ≠ 13 := by
        rw [List.all_eq_true]; simp
      rw [e1]
      have e2 : (b.compiles E (.ptr p.field.typ) = true ∧ b.usesR = true) ↔
          (¬ RawString E.U p → UCompiles E o true p.field.typ) ∧ UNotVoid E o p.field.typ := by
        by_cases hr : RawString E.U p
        · rw [caseBlock_raw hr] at hb
          cases hb
          constructor
          · intro _; exact ⟨fun h => absurd hr h, .inr fun j' hj' => by rw [hr.2] at hj'; cases hj'⟩
          · intro _
            refine ⟨?_, rfl⟩
            rw [UBlock.compiles, elemTy]
            show (decide _ && decide _) = true
            rw [hr.2]; simp
        · rw [caseBlock_other hr] at hb
          have hc := ih hb (rt := .ptr p.field.typ) rfl
          rw [decide_eq_true rfl] at hc
          constructor
          · rintro ⟨h1, h2⟩; exact ⟨fun _ => hc.1 h1, (usesR_iff hb h1).1 h2⟩
          · rintro ⟨h1, h2⟩; exact ⟨hc.2 (h1 hr), (usesR_iff hb (hc.2 (h1 hr))).2 h2⟩
      rw [e2, ← hs.canReach]
      constructor
      · rintro ⟨⟨⟨h1, h2⟩, h3⟩, h4, h5⟩; exact ⟨h4, h1, h3, h5⟩
      · rintro ⟨h4, h1, h3, h5⟩; exact ⟨⟨⟨h1, ensureOf_compiles hs h3⟩, h3⟩, h4, h5⟩

theorem UCompiles.inv_ptr {E : Env} {o : GenOptions} {lit : Bool} {t e : Ty} (hm : ¬ Unmarshals E t) (hb : E.U.base t = .ptr e) (h : UCompiles E o lit t) :
    UCompiles E o (decide (t = .ptr e)) e ∧ UNotVoid E o e := by
  cases h with
  | time h => exact absurd (.inl h) hm
  | json _ _ _ h => exact absurd (.inr (.inr fun hn => by rw [hn.2.1] at h; cases h)) hm
  | text _ _ _ _ h => exact absurd (.inr (.inr fun hn => by rw [hn.2.2] at h; cases h)) hm
  | ptr _ hb' h1 h2 => rw [hb] at hb'; cases hb'; exact ⟨h1, h2⟩
  | struct => cases hb
  | slice _ hb' => rw [hb] at hb'; cases hb'
  | map _ hb' => rw [hb] at hb'; cases hb'
  | _ _ hb' => rw [hb] at hb'; cases hb'

theorem UCompiles.inv_slice {E : Env} {o : GenOptions} {lit : Bool} {t e : Ty} (hm : ¬ Unmarshals E t) (hb : E.U.base t = .slice e) (h : UCompiles E o lit t) :
    UCompiles E o true e ∧ UNotVoid E o e := by
  cases h with
  | time h => exact absurd (.inl h) hm
  | json _ _ _ h => exact absurd (.inr (.inr fun hn => by rw [hn.2.1] at h; cases h)) hm
  | text _ _ _ _ h => exact absurd (.inr (.inr fun hn => by rw [hn.2.2] at h; cases h)) hm
  | slice _ hb' h1 h2 => rw [hb] at hb'; cases hb'; exact ⟨h1, h2⟩
  | struct => cases hb
  | ptr _ hb' => rw [hb] at hb'; cases hb'
  | map _ hb' => rw [hb] at hb'; cases hb'
  | _ _ hb' => rw [hb] at hb'; cases hb'

theorem UCompiles.inv_map {E : Env} {o : GenOptions} {lit : Bool} {t k e : Ty} (hm : ¬ Unmarshals E t) (hb : E.U.base t = .map k e) (h : UCompiles E o lit t) :
    UCompiles E o true e ∧ UNotVoid E o e ∧ (k = .string ∨ ∃ i, E.U.base k = .iface 0 i) := by
  cases h with
  | time h => exact absurd (.inl h) hm
  | json _ _ _ h => exact absurd (.inr (.inr fun hn => by rw [hn.2.1] at h; cases h)) hm
  | text _ _ _ _ h => exact absurd (.inr (.inr fun hn => by rw [hn.2.2] at h; cases h)) hm
  | map _ hb' h1 h2 h3 => rw [hb] at hb'; cases hb'; exact ⟨h1, h2, h3⟩
  | struct => cases hb
  | ptr _ hb' => rw [hb] at hb'; cases hb'
  | slice _ hb' => rw [hb] at hb'; cases hb'
  | _ _ hb' => rw [hb] at hb'; cases hb'

theorem UCompiles.inv_struct {E : Env} {o : GenOptions} {lit : Bool} {j : Nat} (hm : ¬ Unmarshals E (.struct j)) (h : UCompiles E o lit (.struct j)) :
    ∀ p ∈ unmarshalPicks E o j, (¬ RawString E.U p → UCompiles E o true p.field.typ) ∧ UFieldOk E o j p := by
  cases h with
  | time h => exact absurd (.inl h) hm
  | json _ _ _ h => exact absurd (.inr (.inr fun hn => by rw [hn.2.1] at h; cases h)) hm
  | text _ _ _ _ h => exact absurd (.inr (.inr fun hn => by rw [hn.2.2] at h; cases h)) hm
  | struct _ h1 h2 => exact fun p hp => ⟨h1 p hp, h2 p hp⟩
  | ptr _ hb' => cases hb'
  | slice _ hb' => cases hb'
  | map _ hb' => cases hb'
  | _ _ hb' => cases hb'

theorem UCompiles.not_iface {E : Env} {o : GenOptions} {lit : Bool} {t : Ty} {m i : Nat} (hm : ¬ Unmarshals E t) (hb : E.U.base t = .iface m i)
    (h : UCompiles E o lit t) : False := by
  cases h with
  | time h => exact absurd (.inl h) hm
  | json _ _ _ h => exact absurd (.inr (.inr fun hn => by rw [hn.2.1] at h; cases h)) hm
  | text _ _ _ _ h => exact absurd (.inr (.inr fun hn => by rw [hn.2.2] at h; cases h)) hm
  | struct => cases hb
  | ptr _ hb' => rw [hb] at hb'; cases hb'
  | slice _ hb' => rw [hb] at hb'; cases hb'
  | map _ hb' => rw [hb] at hb'; cases hb'
  | _ _ hb' => rw [hb] at hb'; cases hb'

theorem ucompiles_iff {E : Env} (hE : E.Ok) {o : GenOptions} : ∀ (fuel : Nat) {t rt : Ty} {b : UBlock},
    typeUnmarshaler E o fuel t = .ok b → E.U.base rt = .ptr t → (b.compiles E rt = true ↔ UCompiles E o (decide (rt = .ptr t)) t) := by
  intro fuel
  induction fuel with
  | zero => intro t rt b h; cases h
  | succ fuel ih =>
    intro t rt b h hr
    by_cases hm : Unmarshals E t
    · rw [typeUnmarshaler_special hm] at h
      cases h
      exact special_compiles hE hr hm
    · rw [typeUnmarshaler_plain hm] at h
      unfold plainUBlock at h
      cases hb : E.U.base t with
      | struct j =>
        rw [hb] at h
        obtain rfl := eq_struct hE.univ hb
        obtain ⟨cs, h0, rfl⟩ := mapR_ok.1 h
        rw [unmarshalFields_picks o _ _ j (unmarshalFields_can h0)] at h0
        rw [UBlock.compiles, cases_compile hE (.inr hr) ih (fun p hp => (mem_unmarshalPicks hp).1) h0]
        exact ⟨fun h => .struct hm (fun p hp => (h p hp).1) (fun p hp => (h p hp).2), UCompiles.inv_struct hm⟩
      | ptr e =>
        rw [hb] at h
        obtain ⟨x, h0, rfl⟩ := mapR_ok.1 h
        rw [UBlock.compiles, elemTy, hr]
        simp only [hb, Bool.and_eq_true, decide_true, true_and]
        constructor
        · rintro ⟨h1, h2⟩
          exact .ptr hm hb ((ih h0 hb).1 h1) ((usesR_iff h0 h1).1 h2)
        · intro h
          obtain ⟨h1, h2⟩ := h.inv_ptr hm hb
          have := (ih h0 hb).2 h1
          exact ⟨this, (usesR_iff h0 this).2 h2⟩
      | slice e =>
        rw [hb] at h
        obtain ⟨x, h0, rfl⟩ := mapR_ok.1 h
        rw [UBlock.compiles, elemTy, hr]
        simp only [hb, Bool.and_eq_true, decide_true, true_and]
        have hc := ih h0 (rt := .ptr e) rfl
        rw [decide_eq_true rfl] at hc
        constructor
        · rintro ⟨h1, h2⟩
          exact .slice hm hb (hc.1 h1) ((usesR_iff h0 h1).1 h2)
        · intro h
          obtain ⟨h1, h2⟩ := h.inv_slice hm hb
          have := hc.2 h1
          exact ⟨this, (usesR_iff h0 this).2 h2⟩
      | map k e =>
        rw [hb] at h
        obtain ⟨x, h0, rfl⟩ := mapR_ok.1 h
        rw [UBlock.compiles, elemTy, hr]
        simp only [hb, Bool.and_eq_true, decide_true, true_and, Bool.or_eq_true, decide_eq_true_iff]
        have hc := ih h0 (rt := .ptr e) rfl
        rw [decide_eq_true rfl] at hc
        have hk : (k = .string ∨ (match E.U.base k with | .iface m _ => decide (m = 0) | _ => false) = true) ↔
            (k = .string ∨ ∃ i, E.U.base k = .iface 0 i) := by
          apply or_congr_right
          cases E.U.base k <;> simp
        constructor
        · rintro ⟨⟨h1, h2⟩, h3⟩
          exact .map hm hb (hc.1 h1) ((usesR_iff h0 h1).1 h2) (hk.1 h3)
        · intro h
          obtain ⟨h1, h2, h3⟩ := h.inv_map hm hb
          have := hc.2 h1
          exact ⟨⟨this, (usesR_iff h0 this).2 h2⟩, hk.2 h3⟩
      | bool =>
        rw [hb] at h; cases h
        rw [UBlock.compiles, elemTy, hr]
        exact ⟨fun _ => .bool hm hb, fun _ => by simp [hb]⟩
      | string =>
        rw [hb] at h; cases h
        rw [UBlock.compiles, elemTy, hr]
        exact ⟨fun _ => .string hm hb, fun _ => by simp [hb]⟩
      | int k =>
        rw [hb] at h; cases h
        rw [UBlock.compiles, elemTy, hr]
        exact ⟨fun _ => .int hm hb, fun _ => by simp [hb, numeric]⟩
      | uint k =>
        rw [hb] at h; cases h
        rw [UBlock.compiles, elemTy, hr]
        exact ⟨fun _ => .uint hm hb, fun _ => by simp [hb, numeric]⟩
      | float k =>
        rw [hb] at h; cases h
        rw [UBlock.compiles, elemTy, hr]
        exact ⟨fun _ => .float hm hb, fun _ => by simp [hb, numeric]⟩
      | iface m i =>
        rw [hb] at h; dsimp only at h
        split at h
        · cases h
          exact ⟨fun h => by simp [UBlock.compiles] at h, fun h => (h.not_iface hm hb).elim⟩
        · cases h
      | _ => rw [hb] at h; cases h

/-- The whole method. -/
theorem unmarshalerCompiles_iff {E : Env} (hE : E.Ok) {o : GenOptions} {fuel : Nat} {t : Ty} {b : UBlock} (h : typeUnmarshaler E o fuel t = .ok b) :
    unmarshalerCompiles E b t = true ↔ canHaveMethod E.U t = true ∧ UCompiles E o true t ∧ UNotVoid E o t := by
  unfold unmarshalerCompiles
  have hc := ucompiles_iff hE fuel h (rt := .ptr t) rfl
  rw [decide_eq_true rfl] at hc
  rw [Bool.and_eq_true, Bool.and_eq_true, and_assoc]
  constructor
  · rintro ⟨h1, h2, h3⟩; exact ⟨h1, hc.1 h2, (usesR_iff h h2).1 h3⟩
  · rintro ⟨h1, h2, h3⟩; exact ⟨h1, hc.2 h2, (usesR_iff h (hc.2 h2)).2 h3⟩

end Verif.Gen
