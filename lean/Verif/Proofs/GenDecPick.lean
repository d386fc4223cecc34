import Verif.Spec.GenDec
import Verif.Proofs.GenTerm

/-! # The fields that the generator of `UnmarshalNodeJSON` chooses, and when it terminates and succeeds -/

namespace Verif.Gen
open Verif Verif.Float Verif.Spec Verif.Njson Verif.Unjson

/-! ## CanUnmarshal -/

theorem canUnmarshal_ne_err {U : Univ} : ∀ {fuel : Nat} {t : Ty} {e : UErr}, canUnmarshal U fuel t ≠ .err e := by
  intro fuel
  induction fuel with
  | zero => intro t e h; cases h
  | succ fuel ih =>
    intro t e
    rw [canUnmarshal]
    cases U.base t <;> first | exact ih | (intro h; cases h)

theorem canUnmarshal_ok {U : Univ} : ∀ {fuel : Nat} {t : Ty} {b : Bool}, canUnmarshal U fuel t = .ok b → (b = true ↔ Can U t) := by
  intro fuel
  induction fuel with
  | zero => intro t b h; cases h
  | succ fuel ih =>
    intro t b h
    rw [canUnmarshal] at h
    cases hb : U.base t with
    | slice e =>
      rw [hb] at h
      rw [ih h]
      exact ⟨.slice hb, fun h => by cases h <;> simp_all⟩
    | ptr e =>
      rw [hb] at h
      rw [ih h]
      exact ⟨.ptr hb, fun h => by cases h <;> simp_all⟩
    | bool => rw [hb] at h; cases h; exact ⟨fun _ => .bool hb, fun _ => rfl⟩
    | string => rw [hb] at h; cases h; exact ⟨fun _ => .string hb, fun _ => rfl⟩
    | int k => rw [hb] at h; cases h; exact ⟨fun _ => .int hb, fun _ => rfl⟩
    | uint k => rw [hb] at h; cases h; exact ⟨fun _ => .uint hb, fun _ => rfl⟩
    | float k => rw [hb] at h; cases h; exact ⟨fun _ => .float hb, fun _ => rfl⟩
    | map k e => rw [hb] at h; cases h; exact ⟨fun _ => .map hb, fun _ => rfl⟩
    | struct j =>
      rw [hb] at h; cases h
      rw [decide_eq_true_iff]
      exact ⟨.struct hb, fun h => by cases h <;> simp_all⟩
    | iface m i =>
      rw [hb] at h; cases h
      rw [decide_eq_true_iff]
      exact ⟨fun h => by subst h; exact .any hb, fun h => by cases h <;> simp_all⟩
    | array n e => rw [hb] at h; cases h; exact ⟨by simp, fun h => by cases h <;> simp_all⟩
    | other => rw [hb] at h; cases h; exact ⟨by simp, fun h => by cases h <;> simp_all⟩
    | named i => rw [hb] at h; cases h; exact ⟨by simp, fun h => by cases h <;> simp_all⟩

theorem canUnmarshal_mono {U : Univ} : ∀ {fuel fuel' : Nat} {t : Ty},
    canUnmarshal U fuel t ≠ .diverge → fuel ≤ fuel' → canUnmarshal U fuel' t = canUnmarshal U fuel t := by
  intro fuel
  induction fuel with
  | zero => intro fuel' t h; exact absurd rfl h
  | succ fuel ih =>
    intro fuel' t h hle
    obtain ⟨f', rfl⟩ : ∃ f', fuel' = f' + 1 := ⟨fuel' - 1, by omega⟩
    rw [canUnmarshal] at h ⊢
    rw [canUnmarshal]
    cases hb : U.base t <;> rw [hb] at h <;> exact ih h (by omega)

theorem chain_of_ne_diverge {U : Univ} : ∀ {fuel : Nat} {t : Ty}, canUnmarshal U fuel t ≠ .diverge → ChainEnds U t := by
  intro fuel
  induction fuel with
  | zero => intro t h; exact absurd rfl h
  | succ fuel ih =>
    intro t h
    rw [canUnmarshal] at h
    cases hb : U.base t with
    | slice e => rw [hb] at h; exact .slice hb (ih h)
    | ptr e => rw [hb] at h; exact .ptr hb (ih h)
    | _ => exact .stop (by simp [hb]) (by simp [hb])

theorem ne_diverge_of_chain {U : Univ} {t : Ty} (h : ChainEnds U t) : ∃ fuel, canUnmarshal U fuel t ≠ .diverge := by
  induction h with
  | @stop t h1 h2 =>
    refine ⟨1, ?_⟩
    rw [canUnmarshal]
    cases hb : U.base t with
    | slice e => exact absurd hb (h1 e)
    | ptr e => exact absurd hb (h2 e)
    | _ => simp
  | slice hb _ ih => obtain ⟨fuel, ih⟩ := ih; exact ⟨fuel + 1, by rw [canUnmarshal, hb]; exact ih⟩
  | ptr hb _ ih => obtain ⟨fuel, ih⟩ := ih; exact ⟨fuel + 1, by rw [canUnmarshal, hb]; exact ih⟩

theorem can_of_ne_diverge {U : Univ} {fuel : Nat} {t : Ty} (h : canUnmarshal U fuel t ≠ .diverge) : ∃ b, canUnmarshal U fuel t = .ok b := by
  cases hc : canUnmarshal U fuel t with
  | ok b => exact ⟨b, rfl⟩
  | err e => exact absurd hc canUnmarshal_ne_err
  | diverge => exact absurd hc h

/-! ## The cases -/

open Classical in
/-- The block for a field. -/
noncomputable def caseBlock (E : Env) (rec : Ty → Res UBlock) (p : Pick) : Res UBlock :=
  if RawString E.U p then .ok (.raw p.field.typ) else rec p.field.typ

/-- The loop over the fields that take part. -/
noncomputable def pickCases (E : Env) (rec : Ty → Res UBlock) (t : Ty) : List Pick → Res UCases
  | [] => .ok .nil
  | p :: ps =>
    match caseBlock E rec p with
    | .err e => .err e
    | .diverge => .diverge
    | .ok b => mapR (.cons p.name (ensureOf E.U t [] p.field.path) p.field.path b) (pickCases E rec t ps)

open Classical in
theorem unmarshalFields_eq {E : Env} (o : GenOptions) {fuel : Nat} (rec : Ty → Res UBlock) (t : Ty) : ∀ (fs : List GField) (used : List Bytes),
    (∀ f ∈ fs, f.name ≠ b!"_" → canUnmarshal E.U fuel f.typ ≠ .diverge) →
    unmarshalFields E o (canUnmarshal E.U fuel) rec t fs used =
      pickCases E rec t ((firsts (eligible E o (fs.filter fun f => Can E.U f.typ))).filter fun p => p.name ∉ used) := by
  intro fs
  induction fs with
  | nil => intro used _; rfl
  | cons f fs ih =>
    intro used hd
    rw [List.forall_mem_cons] at hd
    rw [unmarshalFields]
    by_cases hn : f.name = b!"_"
    · rw [if_pos hn, ih used hd.2]
      congr 3
      rw [List.filter_cons]
      have : parseField E o f = none := by rw [parseField, if_pos hn]
      split
      · simp [eligible, this]
      · rfl
    · rw [if_neg hn]
      obtain ⟨b, hb⟩ := can_of_ne_diverge (hd.1 hn)
      have hc := canUnmarshal_ok hb
      rw [hb]
      cases b with
      | false =>
        simp only []
        rw [ih used hd.2, List.filter_cons_of_neg (by simpa using hc)]
      | true =>
        simp only []
        rw [List.filter_cons_of_pos (by simpa using hc)]
        cases hp : parseField E o f with
        | none =>
          have : ∀ l, eligible E o (f :: l) = eligible E o l := by simp [eligible, hp]
          rw [this]; exact ih used hd.2
        | some nb =>
          obtain ⟨name, params⟩ := nb
          have : ∀ l, eligible E o (f :: l) = ⟨name, params, f⟩ :: eligible E o l := by simp [eligible, hp]
          rw [this, firsts]
          dsimp only
          by_cases hu : name ∈ used
          · rw [if_pos hu, ih used hd.2, List.filter_cons_of_neg (by simpa using hu), List.filter_filter]
            congr 1
            apply List.filter_congr
            intro p _
            by_cases h : p.name = name <;> simp [h, hu]
          · rw [if_neg hu, List.filter_cons_of_pos (by simpa using hu), List.filter_filter, pickCases]
            have e1 : (if b!"raw" ∈ params ∧ E.U.base f.typ = .string then .ok (.raw f.typ) else rec f.typ) =
                caseBlock E rec ⟨name, params, f⟩ := by
              unfold caseBlock RawString
              by_cases h : b!"raw" ∈ params ∧ E.U.base f.typ = .string
              · rw [if_pos h, if_pos h]
              · rw [if_neg h, if_neg h]
            rw [e1]
            have e2 : (List.filter (fun p : Pick => decide (p.name ∉ used) && decide (p.name ≠ name))
                (firsts (eligible E o (fs.filter fun f => Can E.U f.typ)))) =
                List.filter (fun p => p.name ∉ name :: used) (firsts (eligible E o (fs.filter fun f => Can E.U f.typ))) := by
              apply List.filter_congr
              intro p _
              by_cases h : p.name = name <;> simp [h]
            dsimp only at e2 ⊢
            rw [e2, ← ih (name :: used) hd.2]
            cases caseBlock E rec ⟨name, params, f⟩ <;> rfl

/-- A loop that gets to the end has asked about every field. -/
theorem unmarshalFields_can {E : Env} {o : GenOptions} {fuel : Nat} {rec : Ty → Res UBlock} {t : Ty} : ∀ {fs : List GField} {used : List Bytes} {cs : UCases},
    unmarshalFields E o (canUnmarshal E.U fuel) rec t fs used = .ok cs → ∀ f ∈ fs, f.name ≠ b!"_" → canUnmarshal E.U fuel f.typ ≠ .diverge := by
  intro fs
  induction fs with
  | nil => intro used cs _; simp
  | cons f fs ih =>
    intro used cs h
    rw [List.forall_mem_cons]
    rw [unmarshalFields] at h
    by_cases hn : f.name = b!"_"
    · rw [if_pos hn] at h
      exact ⟨fun h => absurd hn h, ih h⟩
    · rw [if_neg hn] at h
      cases hc : canUnmarshal E.U fuel f.typ with
      | err e => exact absurd hc canUnmarshal_ne_err
      | diverge => rw [hc] at h; cases h
      | ok b =>
        refine ⟨fun _ => by simp, ?_⟩
        rw [hc] at h
        cases b with
        | false => exact ih h
        | true =>
          dsimp only at h
          cases hp : parseField E o f with
          | none => rw [hp] at h; exact ih h
          | some nb =>
            rw [hp] at h
            dsimp only at h
            split at h
            · exact ih h
            · split at h
              · cases h
              · cases h
              · obtain ⟨x, h, -⟩ := mapR_ok.1 h; exact ih h

theorem unmarshalFields_picks {E : Env} (o : GenOptions) {fuel : Nat} (rec : Ty → Res UBlock) (t : Ty) (j : Nat)
    (h : ∀ f ∈ (E.fields j).flatten, f.name ≠ b!"_" → canUnmarshal E.U fuel f.typ ≠ .diverge) :
    unmarshalFields E o (canUnmarshal E.U fuel) rec t (E.fields j).flatten [] = pickCases E rec t (unmarshalPicks E o j) := by
  rw [unmarshalFields_eq o rec t _ _ h, unmarshalPicks]
  congr 1
  simp

theorem pickCases_ok {E : Env} {rec : Ty → Res UBlock} {t : Ty} : ∀ {ps : List Pick},
    (∃ b, pickCases E rec t ps = .ok b) ↔ ∀ p ∈ ps, ∃ b, caseBlock E rec p = .ok b := by
  intro ps
  induction ps with
  | nil => simp [pickCases]
  | cons p ps ih =>
    rw [List.forall_mem_cons, ← ih, pickCases]
    constructor
    · rintro ⟨b, h⟩
      split at h
      · cases h
      · cases h
      · rename_i b' hb'
        obtain ⟨x, h, -⟩ := mapR_ok.1 h
        exact ⟨⟨_, hb'⟩, ⟨_, h⟩⟩
    · rintro ⟨⟨b, h1⟩, ⟨c, h2⟩⟩
      rw [h1, h2]
      exact ⟨_, rfl⟩

theorem mem_unmarshalPicks {E : Env} {o : GenOptions} {j : Nat} {p : Pick} (h : p ∈ unmarshalPicks E o j) :
    p.field ∈ (E.fields j).flatten ∧ parseField E o p.field = some (p.name, p.params) ∧ Can E.U p.field.typ := by
  have := mem_eligible.1 (firsts_sub h)
  obtain ⟨h1, h2⟩ := this
  rw [List.mem_filter] at h1
  exact ⟨h1.1, h2, by simpa using h1.2⟩

/-! ## The blocks -/

/-- The block for a type that is taken care of otherwise. -/
def specialBlock (E : Env) (t : Ty) : UBlock :=
  if E.isTime t then .time else if E.isDuration t then .duration else if E.U.impl (.ptr t) .unmarshaler then .callNode
  else if E.U.impl (.ptr t) .jsonUnmarshaler then .callJSON else .callText

theorem typeUnmarshaler_special {E : Env} {o : GenOptions} {t : Ty} (h : Unmarshals E t) (fuel : Nat) :
    typeUnmarshaler E o (fuel + 1) t = .ok (specialBlock E t) := by
  rw [typeUnmarshaler, specialBlock]
  unfold Unmarshals NoUnmarshal at h
  cases h1 : E.isTime t
  · cases h2 : E.isDuration t
    · cases h3 : E.U.impl (.ptr t) .unmarshaler
      · cases h4 : E.U.impl (.ptr t) .jsonUnmarshaler
        · cases h5 : E.U.impl (.ptr t) .textUnmarshaler
          · simp [h1, h2, h3, h4, h5] at h
          · rfl
        · rfl
      · rfl
    · rfl
  · rfl

/-- The block for another type. -/
def plainUBlock (E : Env) (o : GenOptions) (fuel : Nat) (t : Ty) : Res UBlock :=
  match E.U.base t with
  | .map k e => mapR (.map k e) (typeUnmarshaler E o fuel e)
  | .struct j => mapR .struct (unmarshalFields E o (canUnmarshal E.U fuel) (typeUnmarshaler E o fuel) t (E.fields j).flatten [])
  | .slice e => mapR (.slice e) (typeUnmarshaler E o fuel e)
  | .ptr e => mapR (.ptr e) (typeUnmarshaler E o fuel e)
  | .bool => .ok (.bool t)
  | .string => .ok (.str t)
  | .int _ => .ok (.int t)
  | .uint _ => .ok (.uint t)
  | .float _ => .ok (.float t)
  | .iface m _ => if m = 0 then .ok .any else .err .invalidType
  | _ => .err .invalidType

theorem not_unmarshals {E : Env} {t : Ty} (h : ¬ Unmarshals E t) : E.isTime t = false ∧ E.isDuration t = false ∧ NoUnmarshal E.U (.ptr t) := by
  unfold Unmarshals at h
  rw [not_or, not_or, Classical.not_not] at h
  exact ⟨by simpa using h.1, by simpa using h.2.1, h.2.2⟩

theorem typeUnmarshaler_plain {E : Env} {o : GenOptions} {t : Ty} (h : ¬ Unmarshals E t) (fuel : Nat) :
    typeUnmarshaler E o (fuel + 1) t = plainUBlock E o fuel t := by
  obtain ⟨h1, h2, h3, h4, h5⟩ := not_unmarshals h
  rw [typeUnmarshaler, h1, h2, h3, h4, h5, plainUBlock]
  simp only [Bool.false_eq_true, if_false]
  cases E.U.base t <;> rfl

/-- More fuel does not change a result. -/
theorem unmarshalFields_mono {E : Env} {o : GenOptions} {fuel fuel' : Nat} {rec rec' : Ty → Res UBlock} {t : Ty} (hle : fuel ≤ fuel')
    (hr : ∀ t, rec t ≠ .diverge → rec' t = rec t) : ∀ {fs : List GField} {used : List Bytes},
    unmarshalFields E o (canUnmarshal E.U fuel) rec t fs used ≠ .diverge →
    unmarshalFields E o (canUnmarshal E.U fuel') rec' t fs used = unmarshalFields E o (canUnmarshal E.U fuel) rec t fs used := by
  intro fs
  induction fs with
  | nil => intro used _; rfl
  | cons f fs ih =>
    intro used h
    rw [unmarshalFields] at h ⊢
    rw [unmarshalFields]
    by_cases hn : f.name = b!"_"
    · rw [if_pos hn] at h ⊢; rw [if_pos hn]; exact ih h
    · rw [if_neg hn] at h ⊢; rw [if_neg hn]
      have hc : canUnmarshal E.U fuel f.typ ≠ .diverge := by intro hc; rw [hc] at h; exact h rfl
      rw [canUnmarshal_mono hc hle]
      obtain ⟨b, hb⟩ := can_of_ne_diverge hc
      rw [hb] at h ⊢
      cases b with
      | false => exact ih h
      | true =>
        dsimp only at h ⊢
        cases hp : parseField E o f with
        | none => rw [hp] at h; exact ih h
        | some nb =>
          obtain ⟨name, params⟩ := nb
          rw [hp] at h
          dsimp only at h ⊢
          by_cases hu : name ∈ used
          · rw [if_pos hu] at h ⊢; rw [if_pos hu]; exact ih h
          · rw [if_neg hu] at h ⊢; rw [if_neg hu]
            by_cases hw : b!"raw" ∈ params ∧ E.U.base f.typ = .string
            · rw [if_pos hw] at h ⊢
              rw [if_pos hw]
              simp only [mapR_ne_diverge] at h ⊢
              rw [ih h]
            · rw [if_neg hw] at h ⊢; rw [if_neg hw]
              have : rec f.typ ≠ .diverge := by intro hq; rw [hq] at h; exact h rfl
              rw [hr _ this]
              cases hq : rec f.typ with
              | err e => rfl
              | diverge => exact absurd hq this
              | ok b =>
                rw [hq] at h
                simp only [mapR_ne_diverge] at h ⊢
                rw [ih h]

theorem typeUnmarshaler_mono {E : Env} {o : GenOptions} : ∀ {fuel fuel' : Nat} {t : Ty},
    typeUnmarshaler E o fuel t ≠ .diverge → fuel ≤ fuel' → typeUnmarshaler E o fuel' t = typeUnmarshaler E o fuel t := by
  intro fuel
  induction fuel with
  | zero => intro fuel' t h; exact absurd rfl h
  | succ fuel ih =>
    intro fuel' t h hle
    obtain ⟨f', rfl⟩ : ∃ f', fuel' = f' + 1 := ⟨fuel' - 1, by omega⟩
    have hle : fuel ≤ f' := by omega
    by_cases hm : Unmarshals E t
    · rw [typeUnmarshaler_special hm, typeUnmarshaler_special hm]
    · rw [typeUnmarshaler_plain hm] at h ⊢
      rw [typeUnmarshaler_plain hm]
      unfold plainUBlock at h ⊢
      cases hb : E.U.base t with
      | ptr e => rw [hb] at h; simp only [mapR_ne_diverge] at h; simp only []; rw [ih h hle]
      | slice e => rw [hb] at h; simp only [mapR_ne_diverge] at h; simp only []; rw [ih h hle]
      | map k e => rw [hb] at h; simp only [mapR_ne_diverge] at h; simp only []; rw [ih h hle]
      | struct j =>
        rw [hb] at h; simp only [mapR_ne_diverge] at h; simp only []
        rw [unmarshalFields_mono hle (fun t ht => ih ht hle) h]
      | _ => rfl

/-! ## Success -/

theorem caseBlock_raw {E : Env} {rec : Ty → Res UBlock} {p : Pick} (h : RawString E.U p) : caseBlock E rec p = .ok (.raw p.field.typ) := by
  unfold caseBlock; rw [if_pos h]
theorem caseBlock_other {E : Env} {rec : Ty → Res UBlock} {p : Pick} (h : ¬ RawString E.U p) : caseBlock E rec p = rec p.field.typ := by
  unfold caseBlock; rw [if_neg h]

theorem usupported_of_ok {E : Env} {o : GenOptions} : ∀ {fuel : Nat} {t : Ty} {b : UBlock},
    typeUnmarshaler E o fuel t = .ok b → USupported E o t := by
  intro fuel
  induction fuel with
  | zero => intro t b h; cases h
  | succ fuel ih =>
    intro t b h
    by_cases hm : Unmarshals E t
    · exact .special hm
    · rw [typeUnmarshaler_plain hm] at h
      unfold plainUBlock at h
      cases hb : E.U.base t with
      | ptr e => rw [hb] at h; obtain ⟨x, h, -⟩ := mapR_ok.1 h; exact .ptr hb (ih h)
      | slice e => rw [hb] at h; obtain ⟨x, h, -⟩ := mapR_ok.1 h; exact .slice hb (ih h)
      | map k e => rw [hb] at h; obtain ⟨x, h, -⟩ := mapR_ok.1 h; exact .map hb (ih h)
      | struct j =>
        rw [hb] at h
        obtain ⟨x, h0, -⟩ := mapR_ok.1 h
        have hc := unmarshalFields_can h0
        rw [unmarshalFields_picks o _ t j hc] at h0
        refine .struct hb (fun f hf hn => chain_of_ne_diverge (hc f hf hn)) fun p hp hr => ?_
        obtain ⟨b, hb⟩ := pickCases_ok.1 ⟨x, h0⟩ p hp
        rw [caseBlock_other hr] at hb
        exact ih hb
      | bool => exact .bool hb
      | string => exact .string hb
      | int k => exact .int hb
      | uint k => exact .uint hb
      | float k => exact .float hb
      | iface m i =>
        rw [hb] at h
        dsimp only at h
        split at h
        · rename_i h0; subst h0; exact .any hb
        · cases h
      | _ => rw [hb] at h; cases h

theorem exists_can_fuel {U : Univ} : ∀ {fs : List GField}, (∀ f ∈ fs, f.name ≠ b!"_" → ChainEnds U f.typ) →
    ∃ fuel, ∀ f ∈ fs, f.name ≠ b!"_" → canUnmarshal U fuel f.typ ≠ .diverge := by
  intro fs
  induction fs with
  | nil => intro _; exact ⟨0, by simp⟩
  | cons f fs ih =>
    intro h
    rw [List.forall_mem_cons] at h
    obtain ⟨f2, h2⟩ := ih h.2
    by_cases hn : f.name = b!"_"
    · exact ⟨f2, by rw [List.forall_mem_cons]; exact ⟨fun h => absurd hn h, h2⟩⟩
    · obtain ⟨f1, h1⟩ := ne_diverge_of_chain (h.1 hn)
      refine ⟨max f1 f2, ?_⟩
      rw [List.forall_mem_cons]
      refine ⟨fun _ => ?_, fun g hg hn => ?_⟩
      · rw [canUnmarshal_mono h1 (Nat.le_max_left _ _)]; exact h1
      · rw [canUnmarshal_mono (h2 g hg hn) (Nat.le_max_right _ _)]; exact h2 g hg hn

theorem exists_ufuel {E : Env} {o : GenOptions} : ∀ {ps : List Pick},
    (∀ p ∈ ps, ¬ RawString E.U p → ∃ fuel b, typeUnmarshaler E o fuel p.field.typ = .ok b) →
    ∃ fuel, ∀ p ∈ ps, ¬ RawString E.U p → ∃ b, typeUnmarshaler E o fuel p.field.typ = .ok b := by
  intro ps
  induction ps with
  | nil => intro _; exact ⟨0, by simp⟩
  | cons p ps ih =>
    intro h
    rw [List.forall_mem_cons] at h
    obtain ⟨f2, h2⟩ := ih h.2
    by_cases hn : RawString E.U p
    · exact ⟨f2, by rw [List.forall_mem_cons]; exact ⟨fun h => absurd hn h, h2⟩⟩
    · obtain ⟨f1, b, h1⟩ := h.1 hn
      refine ⟨max f1 f2, ?_⟩
      rw [List.forall_mem_cons]
      refine ⟨fun _ => ⟨b, ?_⟩, fun q hq hn => ?_⟩
      · rw [typeUnmarshaler_mono (by rw [h1]; simp) (Nat.le_max_left _ _)]; exact h1
      · obtain ⟨b, h2⟩ := h2 q hq hn
        exact ⟨b, by rw [typeUnmarshaler_mono (by rw [h2]; simp) (Nat.le_max_right _ _)]; exact h2⟩

theorem ok_of_usupported {E : Env} {o : GenOptions} {t : Ty} (h : USupported E o t) : ∃ fuel b, typeUnmarshaler E o fuel t = .ok b := by
  have step : ∀ {t : Ty} {fuel : Nat} {b : UBlock}, (¬ Unmarshals E t → plainUBlock E o fuel t = .ok b) → ∃ fuel b, typeUnmarshaler E o fuel t = .ok b := by
    intro t fuel b hp
    by_cases hm : Unmarshals E t
    · exact ⟨1, _, typeUnmarshaler_special hm 0⟩
    · exact ⟨fuel + 1, b, by rw [typeUnmarshaler_plain hm]; exact hp hm⟩
  induction h with
  | special hm => exact ⟨1, _, typeUnmarshaler_special hm 0⟩
  | ptr hb _ ih =>
    obtain ⟨fuel, b, ih⟩ := ih
    exact step (fuel := fuel) (b := .ptr _ b) fun _ => by unfold plainUBlock; rw [hb]; simp only []; rw [ih]; rfl
  | slice hb _ ih =>
    obtain ⟨fuel, b, ih⟩ := ih
    exact step (fuel := fuel) (b := .slice _ b) fun _ => by unfold plainUBlock; rw [hb]; simp only []; rw [ih]; rfl
  | map hb _ ih =>
    obtain ⟨fuel, b, ih⟩ := ih
    exact step (fuel := fuel) (b := .map _ _ b) fun _ => by unfold plainUBlock; rw [hb]; simp only []; rw [ih]; rfl
  | @struct t j hb hc _ ih =>
    obtain ⟨f1, h1⟩ := exists_can_fuel hc
    obtain ⟨f2, h2⟩ := exists_ufuel ih
    have h1' : ∀ f ∈ (E.fields j).flatten, f.name ≠ b!"_" → canUnmarshal E.U (max f1 f2) f.typ ≠ .diverge := fun f hf hn => by
      rw [canUnmarshal_mono (h1 f hf hn) (Nat.le_max_left _ _)]; exact h1 f hf hn
    have h2' : ∀ p ∈ unmarshalPicks E o j, ∃ b, caseBlock E (typeUnmarshaler E o (max f1 f2)) p = .ok b := by
      intro p hp
      by_cases hr : RawString E.U p
      · exact ⟨_, caseBlock_raw hr⟩
      · obtain ⟨b, h⟩ := h2 p hp hr
        exact ⟨b, by rw [caseBlock_other hr, typeUnmarshaler_mono (by rw [h]; simp) (Nat.le_max_right _ _)]; exact h⟩
    obtain ⟨cs, h⟩ := (pickCases_ok (t := t)).2 h2'
    refine step (fuel := max f1 f2) (b := .struct cs) fun _ => ?_
    unfold plainUBlock; rw [hb]; simp only []
    rw [unmarshalFields_picks o _ t j h1', h]; rfl
  | @bool t hb => exact step (fuel := 0) (b := .bool t) fun _ => by unfold plainUBlock; rw [hb]
  | @string t hb => exact step (fuel := 0) (b := .str t) fun _ => by unfold plainUBlock; rw [hb]
  | @int t _ hb => exact step (fuel := 0) (b := .int t) fun _ => by unfold plainUBlock; rw [hb]
  | @uint t _ hb => exact step (fuel := 0) (b := .uint t) fun _ => by unfold plainUBlock; rw [hb]
  | @float t _ hb => exact step (fuel := 0) (b := .float t) fun _ => by unfold plainUBlock; rw [hb]
  | @any t _ hb => exact step (fuel := 0) (b := .any) fun _ => by unfold plainUBlock; rw [hb]; rfl

end Verif.Gen
