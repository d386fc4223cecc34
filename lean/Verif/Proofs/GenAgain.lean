import Verif.Proofs.GenRound

/-! # What comes back is written as the same text -/

namespace Verif.Gen
open Verif Verif.Float Verif.Spec Verif.Njson Verif.Unjson

theorem reads_numKeys {E : Env} {o : GenOptions} {t : Ty} {v : GV} (hr : Reads E o t v) : NumKeys E o t v := by
  induction hr with
  | bool _ hb => exact .leaf (by simp [hb]) (by simp [hb]) (by simp [hb]) (by simp [hb])
  | int _ hb => exact .leaf (by simp [hb]) (by simp [hb]) (by simp [hb]) (by simp [hb])
  | uint _ hb => exact .leaf (by simp [hb]) (by simp [hb]) (by simp [hb]) (by simp [hb])
  | float _ hb => exact .leaf (by simp [hb]) (by simp [hb]) (by simp [hb]) (by simp [hb])
  | str _ hb => exact .leaf (by simp [hb]) (by simp [hb]) (by simp [hb]) (by simp [hb])
  | nilPtr => exact .nilPtr
  | ptr _ hb _ _ ih => exact .ptr hb ih
  | nilSlice => exact .nilSlice
  | slice _ hb _ ih => exact .slice hb ih
  | nilMap => exact .nilMap
  | emptyMap _ hb => exact .map hb (.inr rfl) (by simp) (by simp)
  | struct _ _ _ ih => exact .struct ih

theorem look_ne_nil {v x : GV} {p : List Nat} (h : look v p = some x) : x ≠ .nilPtr := (look_iff.1 h).2

/-- Leaves are written without methods. -/
theorem bare_not_fails {E : Env} {o : GenOptions} {t : Ty} {v : GV} (hp : Bare E t) (h1 : ∀ e, E.U.base t = .ptr e → v = .nilPtr)
    (h2 : ∀ e, E.U.base t = .slice e → v = .nilSlice) (h3 : ∀ k e, E.U.base t = .map k e → v = .nilMap ∨ v = .map [])
    (h4 : ∀ j, E.U.base t ≠ .struct j) {s : Stop} : ¬ GStops E o s t v := by
  intro hf
  cases hf with
  | appender h => rw [hp.1.1] at h; cases h
  | json _ h => rw [hp.1.2.1] at h; cases h
  | text _ _ h => rw [hp.1.2.2] at h; cases h
  | ptr _ hb => cases h1 _ hb
  | slice _ hb => cases h2 _ hb
  | map _ hb hm =>
    rcases h3 _ _ hb with h | h
    · cases h
    · cases h; cases hm
  | struct => exact h4 _ rfl
  | omits => exact h4 _ rfl

/-- No method is called. -/
theorem reads_not_stops {E : Env} (hq : OmitCalm E.U) {s : Stop} {o : GenOptions} {t : Ty} {v : GV} (hr : Reads E o t v) : ¬ GStops E o s t v := by
  induction hr with
  | bool hp hb => exact bare_not_fails hp (by simp [hb]) (by simp [hb]) (by simp [hb]) (by simp [hb])
  | int hp hb => exact bare_not_fails hp (by simp [hb]) (by simp [hb]) (by simp [hb]) (by simp [hb])
  | uint hp hb => exact bare_not_fails hp (by simp [hb]) (by simp [hb]) (by simp [hb]) (by simp [hb])
  | float hp hb => exact bare_not_fails hp (by simp [hb]) (by simp [hb]) (by simp [hb]) (by simp [hb])
  | str hp hb => exact bare_not_fails hp (by simp [hb]) (by simp [hb]) (by simp [hb]) (by simp [hb])
  | nilPtr hp hb => exact bare_not_fails hp (by simp) (by simp [hb]) (by simp [hb]) (by simp [hb])
  | nilSlice hp hb => exact bare_not_fails hp (by simp [hb]) (by simp) (by simp [hb]) (by simp [hb])
  | nilMap hp hb => exact bare_not_fails hp (by simp [hb]) (by simp [hb]) (by simp) (by simp [hb])
  | emptyMap hp hb => exact bare_not_fails hp (by simp [hb]) (by simp [hb]) (by simp) (by simp [hb])
  | ptr hp hb _ _ ih =>
    intro hf
    cases hf with
    | appender h => rw [hp.1.1] at h; cases h
    | json _ h => rw [hp.1.2.1] at h; cases h
    | text _ _ h => rw [hp.1.2.2] at h; cases h
    | ptr _ hb' _ h => rw [hb] at hb'; cases hb'; exact ih h
  | slice hp hb _ ih =>
    intro hf
    cases hf with
    | appender h => rw [hp.1.1] at h; cases h
    | json _ h => rw [hp.1.2.1] at h; cases h
    | text _ _ h => rw [hp.1.2.2] at h; cases h
    | slice _ hb' hx h => rw [hb] at hb'; cases hb'; exact ih _ hx h
  | struct hp _ _ ih =>
    intro hf
    cases hf with
    | appender h => rw [hp.1.1] at h; cases h
    | json _ h => rw [hp.1.2.1] at h; cases h
    | text _ _ h => rw [hp.1.2.2] at h; cases h
    | struct _ h1 h2 _ h => exact ih _ h1 _ h2 h
    | omits _ _ hl _ _ h => rw [hq _ _ _ (look_ne_nil hl)] at h; cases h

/-- A path in a value of a struct type leads to a value of the type of the field. -/
theorem path_typed {U : Univ} (hU : U.Ok) {t tt : Ty} {v x : GV} {p : List Nat} (hp : pathTy U t p = some tt) (hv : HasTy U t v)
    (hx : getPath v p = some x) : HasTy U tt x := by
  obtain ⟨x', mk, F⟩ := focus_spec hU hp hv
  have := seen_of_get hU hp hv hx
  unfold seenAt at this
  rw [F.found] at this
  cases this
  exact F.typed

/-- A field that is reached in a value and is not seen as a nil pointer in another is not a nil pointer. -/
theorem look_other {U : Univ} (hU : U.Ok) {t tt : Ty} {v z : GV} {p : List Nat} (hp : pathTy U t p = some tt) (hv : HasTy U t v)
    (hz : getPath v p = some z) (hn : U.zero tt ≠ .nilPtr) : look v p = some z := by
  refine look_iff.2 ⟨hz, ?_⟩
  rintro rfl
  cases path_typed hU hp hv hz with
  | nilPtr hb => exact hn (by rw [zero_base hU, hb]; rfl)

theorem zero_quiet {E : Env} (hE : E.Ok) (hq : OmitCalm E.U) {o : GenOptions} {t : Ty} {v : GV} (hr : Reads E o t v) : HasTy E.U t v → NumKeys E o t (E.U.zero t) ∧ ∀ s, ¬ GStops E o s t (E.U.zero t) := by
  have hU := hE.univ
  induction hr with
  | bool hp hb => intro _; exact ⟨.leaf (by simp [hb]) (by simp [hb]) (by simp [hb]) (by simp [hb]), fun _ => bare_not_fails hp (by simp [hb]) (by simp [hb]) (by simp [hb]) (by simp [hb])⟩
  | int hp hb => intro _; exact ⟨.leaf (by simp [hb]) (by simp [hb]) (by simp [hb]) (by simp [hb]), fun _ => bare_not_fails hp (by simp [hb]) (by simp [hb]) (by simp [hb]) (by simp [hb])⟩
  | uint hp hb => intro _; exact ⟨.leaf (by simp [hb]) (by simp [hb]) (by simp [hb]) (by simp [hb]), fun _ => bare_not_fails hp (by simp [hb]) (by simp [hb]) (by simp [hb]) (by simp [hb])⟩
  | float hp hb => intro _; exact ⟨.leaf (by simp [hb]) (by simp [hb]) (by simp [hb]) (by simp [hb]), fun _ => bare_not_fails hp (by simp [hb]) (by simp [hb]) (by simp [hb]) (by simp [hb])⟩
  | str hp hb => intro _; exact ⟨.leaf (by simp [hb]) (by simp [hb]) (by simp [hb]) (by simp [hb]), fun _ => bare_not_fails hp (by simp [hb]) (by simp [hb]) (by simp [hb]) (by simp [hb])⟩
  | nilPtr hp hb => intro _; rw [zero_base hU, hb]; exact ⟨.nilPtr, fun _ => bare_not_fails hp (fun _ _ => rfl) (by simp [hb]) (by simp [hb]) (by simp [hb])⟩
  | ptr hp hb _ _ ih => intro _; rw [zero_base hU, hb]; exact ⟨.nilPtr, fun _ => bare_not_fails hp (fun _ _ => rfl) (by simp [hb]) (by simp [hb]) (by simp [hb])⟩
  | nilSlice hp hb => intro _; rw [zero_base hU, hb]; exact ⟨.nilSlice, fun _ => bare_not_fails hp (by simp [hb]) (fun _ _ => rfl) (by simp [hb]) (by simp [hb])⟩
  | slice hp hb _ ih => intro _; rw [zero_base hU, hb]; exact ⟨.nilSlice, fun _ => bare_not_fails hp (by simp [hb]) (fun _ _ => rfl) (by simp [hb]) (by simp [hb])⟩
  | nilMap hp hb => intro _; rw [zero_base hU, hb]; exact ⟨.nilMap, fun _ => bare_not_fails hp (by simp [hb]) (by simp [hb]) (fun _ _ _ => .inl rfl) (by simp [hb])⟩
  | emptyMap hp hb => intro _; rw [zero_base hU, hb]; exact ⟨.nilMap, fun _ => bare_not_fails hp (by simp [hb]) (by simp [hb]) (fun _ _ _ => .inl rfl) (by simp [hb])⟩
  | @struct i fs hp _ _ ih =>
    intro hv
    have h0 := hasTy_zero hU (.struct i)
    obtain ⟨zs, hzs, -, -⟩ := h0.inv_struct (j := i) rfl
    rw [hzs]
    have key : ∀ p ∈ appendPicks E o i, ∀ x, look (.struct zs) p.field.path = some x → NumKeys E o p.field.typ x ∧ ∀ s, ¬ GStops E o s p.field.typ x := ?_
    · refine ⟨.struct fun p hp x hx => (key p hp x hx).1, fun s hf => ?_⟩
      cases hf with
      | appender h => rw [hp.1.1] at h; cases h
      | json _ h => rw [hp.1.2.1] at h; cases h
      | text _ _ h => rw [hp.1.2.2] at h; cases h
      | struct _ h1 h2 _ h => exact (key _ h1 _ h2).2 s h
      | omits _ _ hl _ _ h => rw [hq _ _ _ (look_ne_nil hl)] at h; cases h
    intro p hp x hx
    have hpath := hE.path i _ (mem_appendPicks hp).1
    obtain ⟨h1, h2⟩ := look_iff.1 hx
    rw [← hzs] at h1
    have hz : x = E.U.zero p.field.typ := by
      have := seen_of_get hU hpath h0 h1
      rw [seenAt_zero hU hpath] at this
      exact (Option.some.inj this).symm
    subst hz
    obtain ⟨z, hz⟩ := reach_zero hU hpath hv h1
    exact ih p hp z (look_other hU hpath hv hz h2) (path_typed hU hpath hv hz)

theorem back_quiet {E : Env} (hE : E.Ok) (hq : OmitCalm E.U) {o : GenOptions} {t : Ty} {v : GV} (hr : Reads E o t v) :
    ∀ {w : GV}, HasTy E.U t v → HasTy E.U t w → Back E o t v w → NumKeys E o t w ∧ ∀ s, ¬ GStops E o s t w := by
  have hU := hE.univ
  induction hr with
  | bool hp hb => intro _ _ _ _; exact ⟨.leaf (by simp [hb]) (by simp [hb]) (by simp [hb]) (by simp [hb]), fun _ => bare_not_fails hp (by simp [hb]) (by simp [hb]) (by simp [hb]) (by simp [hb])⟩
  | int hp hb => intro _ _ _ _; exact ⟨.leaf (by simp [hb]) (by simp [hb]) (by simp [hb]) (by simp [hb]), fun _ => bare_not_fails hp (by simp [hb]) (by simp [hb]) (by simp [hb]) (by simp [hb])⟩
  | uint hp hb => intro _ _ _ _; exact ⟨.leaf (by simp [hb]) (by simp [hb]) (by simp [hb]) (by simp [hb]), fun _ => bare_not_fails hp (by simp [hb]) (by simp [hb]) (by simp [hb]) (by simp [hb])⟩
  | float hp hb => intro _ _ _ _; exact ⟨.leaf (by simp [hb]) (by simp [hb]) (by simp [hb]) (by simp [hb]), fun _ => bare_not_fails hp (by simp [hb]) (by simp [hb]) (by simp [hb]) (by simp [hb])⟩
  | str hp hb => intro _ _ _ _; exact ⟨.leaf (by simp [hb]) (by simp [hb]) (by simp [hb]) (by simp [hb]), fun _ => bare_not_fails hp (by simp [hb]) (by simp [hb]) (by simp [hb]) (by simp [hb])⟩
  | nilPtr hp hb => intro w _ _ h; cases h; exact ⟨.nilPtr, fun _ => bare_not_fails hp (by simp) (by simp [hb]) (by simp [hb]) (by simp [hb])⟩
  | ptr hp hb _ _ ih =>
    intro w hv hw h
    cases h with
    | ptr hb' h =>
      rw [hb] at hb'; cases hb'
      have key := ih ?_ ?_ h
      · refine ⟨.ptr hb key.1, fun s hf => ?_⟩
        cases hf with
        | appender h => rw [hp.1.1] at h; cases h
        | json _ h => rw [hp.1.2.1] at h; cases h
        | text _ _ h => rw [hp.1.2.2] at h; cases h
        | ptr _ hb' _ h => rw [hb] at hb'; cases hb'; exact key.2 s h
      · rcases hv.inv_ptr hb with h | ⟨_, h, hw⟩
        · cases h
        · cases h; exact hw
      · rcases hw.inv_ptr hb with h | ⟨_, h, hw⟩
        · cases h
        · cases h; exact hw
  | nilSlice hp hb => intro w _ _ h; cases h; exact ⟨.nilSlice, fun _ => bare_not_fails hp (by simp [hb]) (by simp) (by simp [hb]) (by simp [hb])⟩
  | @slice t e arr len hp hb _ ih =>
    intro w hv hw h
    cases h with
    | emptySlice => exact ⟨.nilSlice, fun _ => bare_not_fails hp (by simp [hb]) (by simp) (by simp [hb]) (by simp [hb])⟩
    | @slice _ _ _ _ ws hb' h1 h2 h3 =>
      rw [hb] at hb'; cases hb'
      obtain ⟨hl, hxt⟩ : len ≤ arr.length ∧ ∀ x ∈ arr, HasTy E.U e x := by
        rcases hv.inv_slice hb with h | ⟨a, l, h, h1, h2⟩
        · cases h
        · cases h; exact ⟨h1, h2⟩
      obtain ⟨-, hwt⟩ : len ≤ ws.length ∧ ∀ x ∈ ws, HasTy E.U e x := by
        rcases hw.inv_slice hb with h | ⟨a, l, h, h1, h2⟩
        · cases h
        · cases h; exact ⟨h1, h2⟩
      have key : ∀ x ∈ ws.take len, NumKeys E o e x ∧ ∀ s, ¬ GStops E o s e x := ?_
      · refine ⟨.slice hb fun x hx => (key x hx).1, fun s hf => ?_⟩
        cases hf with
        | appender h => rw [hp.1.1] at h; cases h
        | json _ h => rw [hp.1.2.1] at h; cases h
        | text _ _ h => rw [hp.1.2.2] at h; cases h
        | slice _ hb' hx h => rw [hb] at hb'; cases hb'; exact (key _ hx).2 s h
      intro x hx
      have hx' := List.mem_of_mem_take hx
      obtain ⟨i, hi, rfl⟩ := List.getElem_of_mem hx'
      have hlt : i < (arr.take len).length := by rw [List.length_take]; omega
      exact ih _ (List.getElem_mem hlt) (hxt _ (List.mem_of_mem_take (List.getElem_mem hlt))) (hwt _ hx')
        (h3 i _ _ (List.getElem?_eq_getElem hlt) (List.getElem?_eq_getElem hi))
  | nilMap hp hb => intro w _ _ h; cases h; exact ⟨.map hb (.inr rfl) (by simp) (by simp), fun _ => bare_not_fails hp (by simp [hb]) (by simp [hb]) (by simp) (by simp [hb])⟩
  | emptyMap hp hb => intro w _ _ h; cases h; exact ⟨.map hb (.inr rfl) (by simp) (by simp), fun _ => bare_not_fails hp (by simp [hb]) (by simp [hb]) (by simp) (by simp [hb])⟩
  | @struct i fs hp _ hx ih =>
    intro w hv hw h
    cases h with
    | @struct _ _ ws h1 h2 h3 h4 =>
      have key : ∀ p ∈ appendPicks E o i, ∀ x, look (.struct ws) p.field.path = some x → NumKeys E o p.field.typ x ∧ ∀ s, ¬ GStops E o s p.field.typ x := ?_
      · refine ⟨.struct fun p hp x hx => (key p hp x hx).1, fun s hf => ?_⟩
        cases hf with
        | appender h => rw [hp.1.1] at h; cases h
        | json _ h => rw [hp.1.2.1] at h; cases h
        | text _ _ h => rw [hp.1.2.2] at h; cases h
        | struct _ h1 h2 _ h => exact (key _ h1 _ h2).2 s h
        | omits _ _ hl _ _ h => rw [hq _ _ _ (look_ne_nil hl)] at h; cases h
      intro p hp x hlx
      have hpath := hE.path i _ (mem_appendPicks hp).1
      obtain ⟨g1, g2⟩ := look_iff.1 hlx
      by_cases hW : ∃ x', Written E o (.struct fs) p x'
      · obtain ⟨x', hW⟩ := hW
        exact ih p hp x' hW.1 (path_typed hU hpath hv (look_iff.1 hW.1).1) (path_typed hU hpath hw g1) (h2 p hp x' x hW g1)
      · obtain ⟨rfl, hn⟩ := h3 p hp (fun x' h => hW ⟨x', h⟩) x g1
        obtain ⟨z, hz⟩ := Option.ne_none_iff_exists'.1 hn
        exact zero_quiet hE hq (hx p hp z (look_other hU hpath hv hz g2)) (path_typed hU hpath hv hz)

/-- What is left out of a value is left out of what comes back. -/
theorem back_empty {E : Env} {o : GenOptions} {t : Ty} {x y : GV} (h : Back E o t x y) : x.empty = y.empty := by
  cases h <;> rfl

theorem back_nil {E : Env} {o : GenOptions} {t : Ty} {x : GV} (h : Back E o t x .nilPtr) : x = .nilPtr := by
  cases h; rfl

theorem back_omitted {E : Env} {o : GenOptions} (hO : OmitBack E o) {t : Ty} {x y : GV} (h : Back E o t x y) : omitted E o t x = omitted E o t y := by
  unfold omitted
  cases hm : E.U.omitMethod o.omitMethod t with
  | some f => exact (hO t f hm).2 x y h
  | none => simp only [back_empty h]

theorem zero_omitted {E : Env} (hE : E.Ok) {o : GenOptions} (hO : OmitBack E o) {t : Ty} {x : GV} (hx : HasTy E.U t x)
    (h : omitted E o t x = true) : omitted E o t (E.U.zero t) = true := by
  have hU := hE.univ
  unfold omitted at h ⊢
  cases hm : E.U.omitMethod o.omitMethod t with
  | some f => exact (hO t f hm).1
  | none =>
    rw [hm] at h
    dsimp only at h ⊢
    rw [zero_base hU]
    cases hx with
    | struct hb => rw [hb] at h; cases h
    | array hb => rw [hb] at h; cases h
    | «opaque» hb => rw [hb] at h; cases h
    | nilIface hb => rw [hb] at h ⊢; simpa [Univ.zero, GV.empty] using h
    | iface hb => rw [hb] at h; simp [GV.empty] at h
    | _ hb => rw [hb]; rfl

theorem elems_same {E : Env} {o : GenOptions} {ps : List Bytes} {e : Ty} : ∀ {xs ys : List GV} {js js' : List JVal}, xs.length = ys.length →
    (∀ (i : Nat) x y j j', xs[i]? = some x → ys[i]? = some y → GEnc E o ps e x j → GEnc E o ps e y j' → j = j') →
    GEncElems E o ps e xs js → GEncElems E o ps e ys js' → js = js' := by
  intro xs
  induction xs with
  | nil =>
    intro ys js js' hl _ h h'
    cases ys with
    | nil => cases h; cases h'; rfl
    | cons => cases hl
  | cons x xs ih =>
    intro ys js js' hl hs h h'
    cases ys with
    | nil => cases hl
    | cons y ys =>
      cases h with
      | cons h1 h2 =>
        cases h' with
        | cons h1' h2' =>
          rw [hs 0 x y _ _ rfl rfl h1 h1', ih (by simpa using hl) (fun i x y j j' hx hy => hs (i + 1) x y j j' (by simpa using hx) (by simpa using hy)) h2 h2']

theorem fields_same {E : Env} (hE : E.Ok) {o : GenOptions} (hO : OmitBack E o) {i : Nat} {fs ws : List GV}
    (hv : HasTy E.U (.struct i) (.struct fs))
    (h1 : ∀ p ∈ appendPicks E o i, ∀ x, Written E o (.struct fs) p x → getPath (.struct ws) p.field.path ≠ none)
    (h2 : ∀ p ∈ appendPicks E o i, ∀ x y, Written E o (.struct fs) p x → getPath (.struct ws) p.field.path = some y → Back E o p.field.typ x y)
    (h3 : ∀ p ∈ appendPicks E o i, (∀ x, ¬ Written E o (.struct fs) p x) → ∀ y, getPath (.struct ws) p.field.path = some y →
      y = E.U.zero p.field.typ ∧ getPath (.struct fs) p.field.path ≠ none)
    (hs : ∀ p ∈ appendPicks E o i, ∀ x y j j', look (.struct fs) p.field.path = some x → look (.struct ws) p.field.path = some y →
      Back E o p.field.typ x y → GEnc E o p.params p.field.typ x j → GEnc E o p.params p.field.typ y j' → j = j') :
    ∀ {ps : List Pick} {ms ms' : List (Bytes × JVal)}, (∀ p ∈ ps, p ∈ appendPicks E o i) → GEncFields E o (.struct fs) ps ms →
      GEncFields E o (.struct ws) ps ms' → ms = ms' := by
  have hU := hE.univ
  intro ps
  induction ps with
  | nil => intro ms ms' _ h h'; cases h; cases h'; rfl
  | cons p ps ih =>
    intro ms ms' hps h h'
    have hp := hps p (by simp)
    have hpath := hE.path i _ (mem_appendPicks hp).1
    have ih' : ∀ {ms ms'}, GEncFields E o (.struct fs) ps ms → GEncFields E o (.struct ws) ps ms' → ms = ms' :=
      fun h h' => ih (fun q hq => hps q (by simp [hq])) h h'
    -- what is written on both sides
    have same : ∀ x, Written E o (.struct fs) p x → ∃ y, Written E o (.struct ws) p y ∧ Back E o p.field.typ x y := by
      intro x hx
      obtain ⟨y, hy⟩ := Option.ne_none_iff_exists'.1 (h1 p hp x hx)
      have hb := h2 p hp x y hx hy
      refine ⟨y, ⟨look_iff.2 ⟨hy, ?_⟩, fun ho => by rw [← back_omitted hO hb]; exact hx.2 ho⟩, hb⟩
      rintro rfl
      exact (look_iff.1 hx.1).2 (back_nil hb)
    have none : (∀ x, ¬ Written E o (.struct fs) p x) → ∀ y, ¬ Written E o (.struct ws) p y := by
      intro hn y hy
      obtain ⟨g1, g2⟩ := look_iff.1 hy.1
      obtain ⟨rfl, hr⟩ := h3 p hp hn y g1
      obtain ⟨z, hz⟩ := Option.ne_none_iff_exists'.1 hr
      have hl := look_other hU hpath hv hz g2
      refine hn z ⟨hl, fun ho => ?_⟩
      by_contra hc
      have := zero_omitted hE hO (path_typed hU hpath hv hz) (by simpa using hc)
      rw [hy.2 ho] at this
      cases this
    have out : ∀ {v : GV} {ms}, GEncFields E o v (p :: ps) ms → (∀ x, ¬ Written E o v p x) → GEncFields E o v ps ms := by
      intro v ms h hn
      cases h with
      | absent _ h => exact h
      | omitted _ _ _ h => exact h
      | present g1 g2 _ _ => exact absurd ⟨g1, g2⟩ (hn _)
    have inn : ∀ {v : GV} {ms x}, GEncFields E o v (p :: ps) ms → Written E o v p x →
        ∃ j ms', ms = (p.name, j) :: ms' ∧ GEnc E o p.params p.field.typ x j ∧ GEncFields E o v ps ms' := by
      intro v ms x h hx
      cases h with
      | absent g _ => rw [hx.1] at g; cases g
      | omitted g1 g2 g3 _ =>
        have := hx.1
        rw [g1] at this; cases this
        rw [hx.2 g2] at g3; cases g3
      | present g1 _ g3 g4 =>
        have := hx.1
        rw [g1] at this; cases this
        exact ⟨_, _, rfl, g3, g4⟩
    by_cases hW : ∃ x, Written E o (.struct fs) p x
    · obtain ⟨x, hx⟩ := hW
      obtain ⟨y, hy, hb⟩ := same x hx
      obtain ⟨j, ms1, rfl, g1, g2⟩ := inn h hx
      obtain ⟨j', ms2, rfl, g1', g2'⟩ := inn h' hy
      rw [hs p hp x y j j' hx.1 hy.1 hb g1 g1', ih' g2 g2']
    · have hW' : ∀ x, ¬ Written E o (.struct fs) p x := fun x h => hW ⟨x, h⟩
      exact ih' (out h hW') (out h' (none hW'))

/-- The text of a value and the text of what comes back are the same. -/
theorem back_same {E : Env} (hE : E.Ok) {o : GenOptions} (hO : OmitBack E o) {t : Ty} {v : GV} (hr : Reads E o t v) :
    ∀ {w : GV} {ps : List Bytes} {j j' : JVal}, HasTy E.U t v → HasTy E.U t w → Back E o t v w → GEnc E o ps t v j → GEnc E o ps t w j' → j = j' := by
  have hU := hE.univ
  induction hr with
  | bool hp hb =>
    intro w ps j j' hv hw hB he he'
    cases hB
    cases he with
    | appender h => rw [hp.1.1] at h; cases h
    | json _ h => rw [hp.1.2.1] at h; cases h
    | text _ _ h => rw [hp.1.2.2] at h; cases h
    | bool =>
      cases he' with
      | appender h => rw [hp.1.1] at h; cases h
      | json _ h => rw [hp.1.2.1] at h; cases h
      | text _ _ h => rw [hp.1.2.2] at h; cases h
      | bool =>
        rfl
  | int hp hb =>
    intro w ps j j' hv hw hB he he'
    cases hB
    cases he with
    | appender h => rw [hp.1.1] at h; cases h
    | json _ h => rw [hp.1.2.1] at h; cases h
    | text _ _ h => rw [hp.1.2.2] at h; cases h
    | int =>
      cases he' with
      | appender h => rw [hp.1.1] at h; cases h
      | json _ h => rw [hp.1.2.1] at h; cases h
      | text _ _ h => rw [hp.1.2.2] at h; cases h
      | int =>
        rfl
  | uint hp hb =>
    intro w ps j j' hv hw hB he he'
    cases hB
    cases he with
    | appender h => rw [hp.1.1] at h; cases h
    | json _ h => rw [hp.1.2.1] at h; cases h
    | text _ _ h => rw [hp.1.2.2] at h; cases h
    | uint =>
      cases he' with
      | appender h => rw [hp.1.1] at h; cases h
      | json _ h => rw [hp.1.2.1] at h; cases h
      | text _ _ h => rw [hp.1.2.2] at h; cases h
      | uint =>
        rfl
  | float hp hb =>
    intro w ps j j' hv hw hB he he'
    cases hB
    cases he with
    | appender h => rw [hp.1.1] at h; cases h
    | json _ h => rw [hp.1.2.1] at h; cases h
    | text _ _ h => rw [hp.1.2.2] at h; cases h
    | float =>
      cases he' with
      | appender h => rw [hp.1.1] at h; cases h
      | json _ h => rw [hp.1.2.1] at h; cases h
      | text _ _ h => rw [hp.1.2.2] at h; cases h
      | float =>
        rfl
  | str hp hb =>
    intro w ps j j' hv hw hB he he'
    cases hB
    cases he with
    | appender h => rw [hp.1.1] at h; cases h
    | json _ h => rw [hp.1.2.1] at h; cases h
    | text _ _ h => rw [hp.1.2.2] at h; cases h
    | str _ _ h1 =>
      cases he' with
      | appender h => rw [hp.1.1] at h; cases h
      | json _ h => rw [hp.1.2.1] at h; cases h
      | text _ _ h => rw [hp.1.2.2] at h; cases h
      | str => rfl
      | raw _ _ h2 => exact absurd h2 h1
    | raw _ _ h1 =>
      cases he' with
      | appender h => rw [hp.1.1] at h; cases h
      | json _ h => rw [hp.1.2.1] at h; cases h
      | text _ _ h => rw [hp.1.2.2] at h; cases h
      | str _ _ h2 => exact absurd h1 h2
      | raw => rfl
  | nilPtr hp hb =>
    intro w ps j j' hv hw hB he he'
    cases hB
    cases he with
    | appender h => rw [hp.1.1] at h; cases h
    | json _ h => rw [hp.1.2.1] at h; cases h
    | text _ _ h => rw [hp.1.2.2] at h; cases h
    | nilPtr =>
      cases he' with
      | appender h => rw [hp.1.1] at h; cases h
      | json _ h => rw [hp.1.2.1] at h; cases h
      | text _ _ h => rw [hp.1.2.2] at h; cases h
      | nilPtr =>
        rfl
  | @ptr t e v hp hb hne hr ih =>
    intro w ps j j' hv hw hB he he'
    cases hB with
    | @ptr _ _ _ w hb' hB =>
      rw [hb] at hb'; cases hb'
      have hv' : HasTy E.U e v := by
        rcases hv.inv_ptr hb with h | ⟨_, h, hw⟩
        · cases h
        · cases h; exact hw
      have hw' : HasTy E.U e w := by
        rcases hw.inv_ptr hb with h | ⟨_, h, hw⟩
        · cases h
        · cases h; exact hw
      cases he with
      | appender h => rw [hp.1.1] at h; cases h
      | json _ h => rw [hp.1.2.1] at h; cases h
      | text _ _ h => rw [hp.1.2.2] at h; cases h
      | ptrVoid _ h1 h2 => rw [hb] at h1; cases h1; cases h2 <;> (rename_i h3 _; exact absurd h3 (hne _))
      | ptr _ h1 _ h2 =>
        rw [hb] at h1; cases h1
        cases he' with
        | appender h => rw [hp.1.1] at h; cases h
        | json _ h => rw [hp.1.2.1] at h; cases h
        | text _ _ h => rw [hp.1.2.2] at h; cases h
        | ptrVoid _ h1 h2 => rw [hb] at h1; cases h1; cases h2 <;> (rename_i h3 _; exact absurd h3 (hne _))
        | ptr _ h1 _ h2' =>
          rw [hb] at h1; cases h1
          exact ih hv' hw' hB h2 h2'
  | nilSlice hp hb =>
    intro w ps j j' hv hw hB he he'
    cases hB
    cases he with
    | appender h => rw [hp.1.1] at h; cases h
    | json _ h => rw [hp.1.2.1] at h; cases h
    | text _ _ h => rw [hp.1.2.2] at h; cases h
    | nilSlice =>
      cases he' with
      | appender h => rw [hp.1.1] at h; cases h
      | json _ h => rw [hp.1.2.1] at h; cases h
      | text _ _ h => rw [hp.1.2.2] at h; cases h
      | nilSlice =>
        rfl
  | @slice t e arr len hp hb _ ih =>
    intro w ps j j' hv hw hB he he'
    obtain ⟨hl, hxt⟩ : len ≤ arr.length ∧ ∀ x ∈ arr, HasTy E.U e x := by
      rcases hv.inv_slice hb with h | ⟨a, l, h, h1, h2⟩
      · cases h
      · cases h; exact ⟨h1, h2⟩
    cases he with
    | appender h => rw [hp.1.1] at h; cases h
    | json _ h => rw [hp.1.2.1] at h; cases h
    | text _ _ h => rw [hp.1.2.2] at h; cases h
    | slice _ h1 h2 =>
      rw [hb] at h1; cases h1
      cases hB with
      | emptySlice =>
        rw [List.take_zero] at h2
        cases h2
        cases he' with
        | appender h => rw [hp.1.1] at h; cases h
        | json _ h => rw [hp.1.2.1] at h; cases h
        | text _ _ h => rw [hp.1.2.2] at h; cases h
        | nilSlice => rfl
      | @slice _ _ _ _ ws hb' h3 h4 h5 =>
        rw [hb] at hb'; cases hb'
        obtain ⟨-, hwt⟩ : len ≤ ws.length ∧ ∀ x ∈ ws, HasTy E.U e x := by
          rcases hw.inv_slice hb with h | ⟨a, l, h, h1, h2⟩
          · cases h
          · cases h; exact ⟨h1, h2⟩
        cases he' with
        | appender h => rw [hp.1.1] at h; cases h
        | json _ h => rw [hp.1.2.1] at h; cases h
        | text _ _ h => rw [hp.1.2.2] at h; cases h
        | slice _ h1 h2' =>
          rw [hb] at h1; cases h1
          rw [List.take_of_length_le (by omega)] at h2'
          rw [elems_same (by rw [List.length_take]; omega) (fun i x y j j' hx hy => ih x (List.mem_of_getElem? hx)
            (hxt x (List.mem_of_mem_take (List.mem_of_getElem? hx))) (hwt y (List.mem_of_getElem? hy)) (h5 i x y hx hy)) h2 h2']
  | nilMap hp hb =>
    intro w ps j j' hv hw hB he he'
    cases hB
    cases he with
    | appender h => rw [hp.1.1] at h; cases h
    | json _ h => rw [hp.1.2.1] at h; cases h
    | text _ _ h => rw [hp.1.2.2] at h; cases h
    | nilMap =>
      cases he' with
      | appender h => rw [hp.1.1] at h; cases h
      | json _ h => rw [hp.1.2.1] at h; cases h
      | text _ _ h => rw [hp.1.2.2] at h; cases h
      | map _ _ _ h =>
        cases h
        rfl
  | emptyMap hp hb =>
    intro w ps j j' hv hw hB he he'
    cases hB
    cases he with
    | appender h => rw [hp.1.1] at h; cases h
    | json _ h => rw [hp.1.2.1] at h; cases h
    | text _ _ h => rw [hp.1.2.2] at h; cases h
    | map _ _ _ h =>
      cases h
      cases he' with
      | appender h => rw [hp.1.1] at h; cases h
      | json _ h => rw [hp.1.2.1] at h; cases h
      | text _ _ h => rw [hp.1.2.2] at h; cases h
      | map _ _ _ h =>
        cases h
        rfl
  | @struct i fs hp hS hx ih =>
    intro w ps j j' hv hw hB he he'
    cases hB with
    | @struct _ _ ws h1 h2 h3 h4 =>
      cases he with
      | appender h => rw [hp.1.1] at h; cases h
      | json _ h => rw [hp.1.2.1] at h; cases h
      | text _ _ h => rw [hp.1.2.2] at h; cases h
      | struct _ hf =>
        cases he' with
        | appender h => rw [hp.1.1] at h; cases h
        | json _ h => rw [hp.1.2.1] at h; cases h
        | text _ _ h => rw [hp.1.2.2] at h; cases h
        | struct _ hf' =>
          rw [fields_same hE hO hv h1 h2 h3 (fun p hp x y j j' hl hl' => ih p hp x hl
            (path_typed hU (hE.path i _ (mem_appendPicks hp).1) hv (look_iff.1 hl).1)
            (path_typed hU (hE.path i _ (mem_appendPicks hp).1) hw (look_iff.1 hl').1)) (fun _ h => h) hf hf']

end Verif.Gen
