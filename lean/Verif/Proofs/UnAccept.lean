import Verif.Spec.UnFits
import Verif.Proofs.UnTyped

/-! # Supported types are accepted -/

namespace Verif.Unjson
open Verif Verif.Float Verif.Spec Verif.Njson

theorem Supported.elem {U : Univ} {t t' : Ty} (h : Supported U t) (hc : ∀ t'', Comp U t' t'' → Comp U t t'') : Supported U t' :=
  fun t'' h' => h t'' (hc t'' h')

/-- Construction does not return an error. -/
def NoErr {α : Type} (m : Bld α) : Prop := ∀ c e, m c ≠ .err e

theorem NoErr.bind {α β : Type} {m : Bld α} {f : α → Bld β} (h1 : NoErr m) (h2 : ∀ a, NoErr (f a)) : NoErr (m.bind f) := by
  intro c e h
  unfold Bld.bind at h
  cases hm : m c with
  | ok p => obtain ⟨a, c'⟩ := p; rw [hm] at h; exact h2 a c' e h
  | err e' => exact h1 c e' hm
  | diverge => rw [hm] at h; cases h

theorem noErr_pure {α : Type} (a : α) : NoErr (Bld.pure a) := by intro c e h; cases h
theorem noErr_diverge {α : Type} : NoErr (Bld.diverge (α := α)) := by intro c e h; cases h
theorem noErr_alloc (o : Obj) : NoErr (Bld.alloc o) := by intro c e h; cases h
theorem noErr_put (t : Ty) (h : Hint) (x : CV) : NoErr (Bld.put t h x) := by intro c e h; cases h
theorem noErr_upd (r : Nat) (f : Obj → Obj) : NoErr (Bld.upd r f) := by intro c e h; cases h
theorem noErr_get : NoErr Bld.get := by intro c e h; cases h

theorem newOmiter_noErr (U : Univ) (name : Bytes) : ∀ fuel t, NoErr (newOmiter U name fuel t)
  | 0, t => noErr_diverge
  | fuel + 1, t => by
    unfold newOmiter
    split
    · exact noErr_pure _
    · split <;> first | exact noErr_pure _ | exact (newOmiter_noErr U name fuel _).bind fun _ => noErr_pure _

theorem fieldOmiter_noErr (U : Univ) (o : Options) (fuel : Nat) (t : Ty) (h : Hint) (e : Enc) : NoErr (fieldOmiter U o fuel t h e) := by
  intro c err
  unfold fieldOmiter
  split
  · split
    · split <;> (intro h; cases h)
    · exact newOmiter_noErr U _ _ _ _ _
  · intro h; cases h

theorem embedding_comp {U : Univ} {f : Field} {tagged : Bool} {idx idx' : List Int} {j : Nat} (h : embedding U f tagged idx = (idx', some j)) :
    U.base f.typ = .struct j ∨ ∃ e, U.base f.typ = .ptr e ∧ U.base e = .struct j := by
  unfold embedding at h
  split at h
  · split at h
    · rename_i t hb
      split at h
      · rename_i j' hb'
        cases h; exact .inr ⟨t, hb, hb'⟩
      · cases h
    · cases h; left; assumption
    · cases h
  · cases h

theorem supported_fields {U : Univ} {t : Ty} {j : Nat} (h : Supported U t) (hb : U.base t = .struct j) :
    ∀ f ∈ U.fields j, f.exported = true → Supported U f.typ :=
  fun _ hf he => h.elem fun _ hc => .field hb hf he hc

theorem supported_noErr {U : Univ} (hU : U.Ok) (o : Options) : ∀ fuel,
    (∀ t, Supported U t → NoErr (cacheDecoder U o fuel t)) ∧
    (∀ t, Supported U t → NoErr (newDecoder U o fuel t)) ∧
    (∀ t h, Supported U t → NoErr (cacheEncoder U o fuel t h)) ∧
    (∀ t h, Supported U t → NoErr (newEncoder U o fuel t h)) ∧
    (∀ t j, Supported U t → U.base t = .struct j → NoErr (newStructCodec U o fuel t j)) ∧
    (∀ r fs i idx, (∀ f ∈ fs, f.exported = true → Supported U f.typ) → NoErr (mergeFields U o fuel r fs i idx)) ∧
    (∀ r t k h idx, Supported U t → NoErr (addField U o fuel r t k h idx)) ∧
    (∀ r t k h idx, Supported U t → NoErr (buildField U o fuel r t k h idx))
  | 0 => by
    refine ⟨?_, ?_, ?_, ?_, ?_, ?_, ?_, ?_⟩ <;> intros <;>
      simp only [cacheDecoder, newDecoder, cacheEncoder, newEncoder, newStructCodec, mergeFields, addField, buildField] <;> exact noErr_diverge
  | fuel + 1 => by
    obtain ⟨i1, i2, i3, i4, i5, i6, i7, i8⟩ := supported_noErr hU o fuel
    refine ⟨?_, ?_, ?_, ?_, ?_, ?_, ?_, ?_⟩
    · intro t ht
      unfold cacheDecoder
      refine noErr_get.bind fun c => ?_
      split
      · exact noErr_pure _
      · exact (i2 t ht).bind fun _ => (noErr_put _ _ _).bind fun _ => noErr_pure _
    · intro t ht
      unfold newDecoder
      split
      · exact noErr_pure _
      · obtain ⟨g1, g2, g3⟩ := ht t .refl
        have hnm : ∀ i, U.base t ≠ .named i := by
          intro i hi
          cases t <;> first | cases hi | exact hU.under_base _ _ hi
        cases hb : U.base t with
        | ptr e => exact (noErr_alloc _).bind fun _ => (noErr_put _ _ _).bind fun _ => (i1 e (ht.elem fun _ h => .ptr hb h)).bind fun _ =>
            (noErr_upd _ _).bind fun _ => noErr_pure _
        | slice e => exact (noErr_alloc _).bind fun _ => (noErr_put _ _ _).bind fun _ => (i1 e (ht.elem fun _ h => .slice hb h)).bind fun _ =>
            (noErr_upd _ _).bind fun _ => noErr_pure _
        | array n e => exact (noErr_alloc _).bind fun _ => (noErr_put _ _ _).bind fun _ => (i1 e (ht.elem fun _ h => .array hb h)).bind fun _ =>
            (noErr_upd _ _).bind fun _ => noErr_pure _
        | map k e =>
          simp only
          rw [if_pos (by unfold keyOk; simp [g3 k e hb])]
          exact (noErr_alloc _).bind fun _ => (noErr_put _ _ _).bind fun _ => (i1 e (ht.elem fun _ h => .map hb h)).bind fun _ =>
            (noErr_upd _ _).bind fun _ => noErr_pure _
        | struct j => exact (i5 t j ht hb).bind fun _ => noErr_pure _
        | iface m i => simp only; rw [if_pos (g2 m i hb)]; exact noErr_pure _
        | other => exact absurd hb g1
        | named i => exact absurd hb (hnm i)
        | _ => exact noErr_pure _
    · intro t h ht
      unfold cacheEncoder
      refine noErr_get.bind fun c => ?_
      split
      · exact noErr_pure _
      · exact (i4 t h ht).bind fun _ => (noErr_put _ _ _).bind fun _ => noErr_pure _
    · intro t h ht
      unfold newEncoder
      split
      · exact noErr_pure _
      · obtain ⟨g1, g2, g3⟩ := ht t .refl
        have hnm : ∀ i, U.base t ≠ .named i := by
          intro i hi
          cases t <;> first | cases hi | exact hU.under_base _ _ hi
        cases hb : U.base t with
        | ptr e => exact (noErr_alloc _).bind fun _ => (noErr_put _ _ _).bind fun _ => (i3 e h (ht.elem fun _ h => .ptr hb h)).bind fun _ =>
            (noErr_upd _ _).bind fun _ => noErr_pure _
        | slice e => exact (noErr_alloc _).bind fun _ => (noErr_put _ _ _).bind fun _ => (i3 e h (ht.elem fun _ h => .slice hb h)).bind fun _ =>
            (noErr_upd _ _).bind fun _ => noErr_pure _
        | array n e => exact (noErr_alloc _).bind fun _ => (noErr_put _ _ _).bind fun _ => (i3 e h (ht.elem fun _ h => .array hb h)).bind fun _ =>
            (noErr_upd _ _).bind fun _ => noErr_pure _
        | map k e =>
          have hk : ∃ ke, keyEnc U k = some ke := by
            unfold keyEnc
            split
            · exact ⟨_, rfl⟩
            · rw [if_pos (g3 k e hb)]; exact ⟨_, rfl⟩
          obtain ⟨ke, hk⟩ := hk
          simp only [hk]
          exact (noErr_alloc _).bind fun _ => (noErr_put _ _ _).bind fun _ => (i3 e _ (ht.elem fun _ h => .map hb h)).bind fun _ =>
            (noErr_upd _ _).bind fun _ => noErr_pure _
        | struct j => exact (i5 t j ht hb).bind fun _ => noErr_pure _
        | iface m i => simp only; rw [if_pos (g2 m i hb)]; exact noErr_pure _
        | other => exact absurd hb g1
        | named i => exact absurd hb (hnm i)
        | float k => cases k <;> exact noErr_pure _
        | _ => exact noErr_pure _
    · intro t j ht hb
      unfold newStructCodec
      refine noErr_get.bind fun c => ?_
      split
      · exact noErr_pure _
      · exact (noErr_alloc _).bind fun _ => (noErr_put _ _ _).bind fun _ => (i6 _ _ _ _ (supported_fields ht hb)).bind fun _ => noErr_pure _
    · intro r fs i idx hf
      cases fs with
      | nil => unfold mergeFields; exact noErr_pure _
      | cons f fs =>
        have hrest : NoErr (mergeFields U o fuel r fs (i + 1) idx) := i6 _ _ _ _ (fun f hf' => hf f (List.mem_cons_of_mem _ hf'))
        unfold mergeFields
        split
        · exact hrest
        · rename_i he
          have hsf : Supported U f.typ := hf f List.mem_cons_self (by simpa using he)
          simp only
          split
          · exact hrest
          · refine NoErr.bind ?_ fun _ => hrest
            split
            · rename_i j hj
              refine i6 _ _ _ _ ?_
              rcases embedding_comp (idx' := (embedding U f (o.parseField f).2.2 (idx ++ [(i : Int)])).1) (by rw [← hj]) with hb | ⟨e, hb, hb'⟩
              · exact supported_fields hsf hb
              · exact supported_fields (t := e) (hsf.elem fun _ h => .ptr hb h) hb'
            · exact i7 _ _ _ _ _ hsf
    · intro r t k h idx ht
      unfold addField
      refine noErr_get.bind fun c => ?_
      split
      · split
        · exact noErr_pure _
        · exact i8 _ _ _ _ _ ht
      · exact i8 _ _ _ _ _ ht
    · intro r t k h idx ht
      unfold buildField
      exact (i1 t ht).bind fun _ => (i3 t h ht).bind fun _ => (fieldOmiter_noErr U o fuel t h _).bind fun _ => noErr_upd _ _

/-- `NewTypeDecoder` accepts pointers to supported types (or runs forever). -/
theorem newTypeDecoder_accepts {U : Univ} (hU : U.Ok) {tag : Bytes} {fuel : Nat} {t e : Ty} (hb : U.base t = .ptr e) (h : Supported U e) :
    ∀ err, newTypeDecoder U tag fuel t ≠ .err err := by
  intro err hq
  unfold newTypeDecoder at hq
  rw [hb] at hq
  simp only at hq
  split at hq
  · cases hq
  · split at hq
    · cases hq
    · split at hq
      · cases hq
      · split at hq
        · cases hq
        · rename_i e' he
          exact (supported_noErr hU _ fuel).2.1 e h _ _ he
        · cases hq

/-- `NewTypeEncoder` accepts supported types and pointers to them. -/
theorem newTypeEncoder_accepts {U : Univ} (hU : U.Ok) {o : Options} {fuel : Nat} {t : Ty} (h : Supported U t) :
    ∀ err, newTypeEncoder U o fuel t ≠ .err err := by
  intro err hq
  unfold newTypeEncoder at hq
  simp only at hq
  have hm : Supported U (match U.base t with | .ptr e => e | _ => t) := by
    cases hb : U.base t <;> first | exact h | exact h.elem fun _ hc => .ptr hb hc
  split at hq
  · cases hq
  · split at hq
    · cases hq
    · rename_i e' he
      exact (supported_noErr hU _ fuel).2.2.2.1 _ _ hm _ _ he
    · cases hq

end Verif.Unjson
