import Verif.Proofs.UnFuel
import Verif.Proofs.UnAccept
import Verif.Spec.UnTotal

/-! # Codec construction ends -/

namespace Verif.Unjson
open Verif Verif.Float Verif.Spec Verif.Njson

/-! ## Struct codecs stay in the cache -/

def hasStruct (c : Codecs) (t : Ty) : Bool := ((c.find t Hint.none).bind CV.asStruct).isSome

theorem find_put_self (c : Codecs) (t : Ty) (h : Hint) (x : CV) : (c.put t h x).find t h = some x := by
  simp [Codecs.find, Codecs.put]

theorem find_put_ne (c : Codecs) {t t' : Ty} {h h' : Hint} (x : CV) (hne : (t', h') ≠ (t, h)) : (c.put t h x).find t' h' = c.find t' h' := by
  unfold Codecs.find Codecs.put
  rw [List.find?_cons_of_neg]
  simpa using fun h1 h2 => hne (by rw [h1, h2])

/-- The computation keeps the struct codecs that are in the cache. -/
def KeepsS {α : Type} (U : Univ) (m : Bld α) : Prop :=
  ∀ c a c', m c = .ok (a, c') → ∀ t j, U.base t = .struct j → hasStruct c t = true → hasStruct c' t = true

theorem KeepsS.bind {α β : Type} {U : Univ} {m : Bld α} {f : α → Bld β} (h : KeepsS U m) (hf : ∀ a, KeepsS U (f a)) : KeepsS U (m.bind f) := by
  intro c b c' hm t j ht hs
  unfold Bld.bind at hm
  cases hq : m c with
  | ok p =>
    obtain ⟨a, c1⟩ := p
    rw [hq] at hm
    exact hf a c1 b c' hm t j ht (h c a c1 hq t j ht hs)
  | err e => rw [hq] at hm; cases hm
  | diverge => rw [hq] at hm; cases hm

theorem keepsS_pure {α : Type} {U : Univ} (a : α) : KeepsS U (Bld.pure a) := by intro c a c' h; cases h; exact fun _ _ _ h => h
theorem keepsS_fail {α : Type} {U : Univ} (e : UErr) : KeepsS U (Bld.fail (α := α) e) := by intro c a c' h; cases h
theorem keepsS_diverge {α : Type} {U : Univ} : KeepsS U (Bld.diverge (α := α)) := by intro c a c' h; cases h
theorem keepsS_get {U : Univ} : KeepsS U Bld.get := by intro c a c' h; cases h; exact fun _ _ _ h => h
theorem keepsS_alloc {U : Univ} (x : Obj) : KeepsS U (Bld.alloc x) := by intro c a c' h; cases h; exact fun _ _ _ h => h
theorem keepsS_upd {U : Univ} (r : Nat) (f : Obj → Obj) : KeepsS U (Bld.upd r f) := by intro c a c' h; cases h; exact fun _ _ _ h => h

theorem keepsS_put {U : Univ} {t : Ty} {h : Hint} {x : CV} (hp : (∀ j, U.base t ≠ .struct j) ∨ h ≠ Hint.none ∨ x.asStruct.isSome = true) :
    KeepsS U (Bld.put t h x) := by
  intro c a c' hq t' j ht' hs
  cases hq
  by_cases he : (t', Hint.none) = (t, h)
  · cases he
    rcases hp with hp | hp | hp
    · exact absurd ht' (hp j)
    · exact absurd rfl hp
    · unfold hasStruct; rw [find_put_self]; exact hp
  · unfold hasStruct; rw [find_put_ne _ _ he]; exact hs

theorem newOmiter_keepsS (U : Univ) (name : Bytes) : ∀ fuel t, KeepsS U (newOmiter U name fuel t)
  | 0, t => by unfold newOmiter; exact keepsS_diverge
  | fuel + 1, t => by
    rw [newOmiter]
    split
    · exact keepsS_pure _
    · split <;> first | exact keepsS_pure _ | exact (newOmiter_keepsS U name fuel _).bind fun _ => keepsS_pure _

theorem fieldOmiter_keepsS (U : Univ) (o : Options) (fuel : Nat) (t : Ty) (h : Hint) (e : Enc) : KeepsS U (fieldOmiter U o fuel t h e) := by
  intro c a c' hq
  unfold fieldOmiter at hq
  split at hq
  · split at hq
    · split at hq <;> (cases hq; exact fun _ _ _ h => h)
    · exact newOmiter_keepsS U _ _ _ c a c' hq
  · cases hq; exact fun _ _ _ h => h

theorem Bld.bind_ok {α β : Type} {m : Bld α} {f : α → Bld β} {c : Codecs} {b : β} {c' : Codecs} (h : m.bind f c = .ok (b, c')) :
    ∃ a c1, m c = .ok (a, c1) ∧ f a c1 = .ok (b, c') := by
  unfold Bld.bind at h
  cases hq : m c with
  | ok p => obtain ⟨a, c1⟩ := p; rw [hq] at h; exact ⟨a, c1, rfl, h⟩
  | err e => rw [hq] at h; cases h
  | diverge => rw [hq] at h; cases h

/-- Storing the codec of a type after making it keeps the struct codecs: the type is no struct, or it has methods and
nothing else was stored, or it is a struct codec that is stored. -/
theorem keepsS_store {α : Type} {U : Univ} {t : Ty} {h : Hint} {m : Bld α} {g : α → CV} (hm : KeepsS U m)
    (hs : ∀ j, U.base t = .struct j → h = Hint.none → (∃ a, m = Bld.pure a) ∨ ∀ c a c', m c = .ok (a, c') → (g a).asStruct.isSome = true)
    {c : Codecs} {a : α} {c' : Codecs} (hc : hasStruct c t = false)
    (hq : (m.bind fun a => (Bld.put t h (g a)).bind fun _ => Bld.pure a) c = .ok (a, c')) :
    ∀ t' j, U.base t' = .struct j → hasStruct c t' = true → hasStruct c' t' = true := by
  intro t' j ht' hst
  obtain ⟨a1, c1, q1, q2⟩ := Bld.bind_ok hq
  have q3 : c' = c1.put t h (g a1) := by cases q2; rfl
  subst q3
  have hst1 := hm c a1 c1 q1 t' j ht' hst
  by_cases he : (t', Hint.none) = (t, h)
  · cases he
    rcases hs j ht' rfl with ⟨x, rfl⟩ | h2
    · rw [hc] at hst; cases hst
    · unfold hasStruct; rw [find_put_self]; exact h2 c a1 c1 q1
  · unfold hasStruct; rw [find_put_ne _ _ he]; exact hst1

theorem asStruct_asDec {x : CV} (h : x.asDec = none) : x.asStruct = none := by
  cases x with
  | dec d => cases h
  | enc e => cases e <;> first | rfl | cases h

theorem asStruct_asEnc {x : CV} (h : x.asEnc = none) : x.asStruct = none := by
  cases x with
  | enc d => cases h
  | dec e => cases e <;> first | rfl | cases h

theorem noStruct_of_dec {c : Codecs} {t : Ty} (h : (c.find t Hint.none).bind CV.asDec = none) : hasStruct c t = false := by
  unfold hasStruct
  cases hf : c.find t Hint.none with
  | none => rfl
  | some x => rw [hf] at h; simp only [Option.bind_some] at h ⊢; rw [asStruct_asDec h]; rfl

theorem noStruct_of_enc {c : Codecs} {t : Ty} (h : (c.find t Hint.none).bind CV.asEnc = none) : hasStruct c t = false := by
  unfold hasStruct
  cases hf : c.find t Hint.none with
  | none => rfl
  | some x => rw [hf] at h; simp only [Option.bind_some] at h ⊢; rw [asStruct_asEnc h]; rfl

theorem newDecoder_struct {U : Univ} {o : Options} {fuel : Nat} {t : Ty} {j : Nat} (hb : U.base t = .struct j) (hn : decMeth U t = none)
    {c : Codecs} {d : Dec} {c' : Codecs} (h : newDecoder U o fuel t c = .ok (d, c')) : ∃ r, d = .struct r := by
  cases fuel with
  | zero => rw [newDecoder] at h; cases h
  | succ fuel =>
    rw [newDecoder, hn] at h
    simp only [hb] at h
    obtain ⟨r, c1, _, q2⟩ := Bld.bind_ok h
    cases q2; exact ⟨r, rfl⟩

theorem newEncoder_struct {U : Univ} {o : Options} {fuel : Nat} {t : Ty} {h : Hint} {j : Nat} (hb : U.base t = .struct j) (hn : encMeth U t = none)
    {c : Codecs} {d : Enc} {c' : Codecs} (hq : newEncoder U o fuel t h c = .ok (d, c')) : ∃ r, d = .struct r := by
  cases fuel with
  | zero => rw [newEncoder] at hq; cases hq
  | succ fuel =>
    rw [newEncoder, hn] at hq
    simp only [hb] at hq
    obtain ⟨r, c1, _, q2⟩ := Bld.bind_ok hq
    cases q2; exact ⟨r, rfl⟩

theorem build_keepsS (U : Univ) (o : Options) : ∀ fuel,
    (∀ t, KeepsS U (cacheDecoder U o fuel t)) ∧
    (∀ t, KeepsS U (newDecoder U o fuel t)) ∧
    (∀ t h, KeepsS U (cacheEncoder U o fuel t h)) ∧
    (∀ t h, KeepsS U (newEncoder U o fuel t h)) ∧
    (∀ t j, KeepsS U (newStructCodec U o fuel t j)) ∧
    (∀ r fs i idx, KeepsS U (mergeFields U o fuel r fs i idx)) ∧
    (∀ r t k h idx, KeepsS U (addField U o fuel r t k h idx)) ∧
    (∀ r t k h idx, KeepsS U (buildField U o fuel r t k h idx))
  | 0 => by
    refine ⟨?_, ?_, ?_, ?_, ?_, ?_, ?_, ?_⟩ <;> intros <;>
      simp only [cacheDecoder, newDecoder, cacheEncoder, newEncoder, newStructCodec, mergeFields, addField, buildField] <;> exact keepsS_diverge
  | fuel + 1 => by
    obtain ⟨i1, i2, i3, i4, i5, i6, i7, i8⟩ := build_keepsS U o fuel
    refine ⟨?_, ?_, ?_, ?_, ?_, ?_, ?_, ?_⟩
    · intro t c a c' hq
      rw [cacheDecoder] at hq
      obtain ⟨_, _, q1, q2⟩ := Bld.bind_ok hq
      cases q1
      cases hf : (c.find t Hint.none).bind CV.asDec with
      | some d => simp only [hf] at q2; cases q2; exact fun _ _ _ h => h
      | none =>
        simp only [hf] at q2
        refine keepsS_store (g := .dec) (i2 t) ?_ (noStruct_of_dec hf) q2
        intro j hb _
        cases hm : decMeth U t with
        | some d =>
          cases fuel with
          | zero => right; intro c a c' h; rw [newDecoder] at h; cases h
          | succ fuel => left; exact ⟨d, by rw [newDecoder, hm]⟩
        | none => right; intro c a c' h; obtain ⟨r, rfl⟩ := newDecoder_struct hb hm h; rfl
    · intro t
      rw [newDecoder]
      split
      · exact keepsS_pure _
      · split
        case h_2 => exact (i5 _ _).bind fun _ => keepsS_pure _
        case h_5 =>
          split
          · exact (keepsS_alloc _).bind fun _ => (keepsS_put (.inl (by intro j hj; simp_all))).bind fun _ => (i1 _).bind fun _ =>
              (keepsS_upd _ _).bind fun _ => keepsS_pure _
          · exact keepsS_fail _
        all_goals first
          | exact keepsS_pure _
          | exact keepsS_fail _
          | (split <;> first | exact keepsS_pure _ | exact keepsS_fail _)
          | exact (keepsS_alloc _).bind fun _ => (keepsS_put (.inl (by intro j hj; simp_all))).bind fun _ => (i1 _).bind fun _ =>
              (keepsS_upd _ _).bind fun _ => keepsS_pure _
    · intro t h c a c' hq
      rw [cacheEncoder] at hq
      obtain ⟨_, _, q1, q2⟩ := Bld.bind_ok hq
      cases q1
      cases hf : (c.find t h).bind CV.asEnc with
      | some d => simp only [hf] at q2; cases q2; exact fun _ _ _ h => h
      | none =>
        simp only [hf] at q2
        by_cases hh : h = Hint.none
        · subst hh
          refine keepsS_store (g := .enc) (i4 t Hint.none) ?_ (noStruct_of_enc hf) q2
          intro j hb _
          cases hm : encMeth U t with
          | some d =>
            cases fuel with
            | zero => right; intro c a c' h; rw [newEncoder] at h; cases h
            | succ fuel => left; exact ⟨d, by rw [newEncoder, hm]⟩
          | none => right; intro c a c' h; obtain ⟨r, rfl⟩ := newEncoder_struct hb hm h; rfl
        · exact ((i4 t h).bind fun e => (keepsS_put (.inr (.inl hh))).bind fun _ => keepsS_pure e) c a c' q2
    · intro t h
      rw [newEncoder]
      split
      · exact keepsS_pure _
      · split
        case h_2 => exact (i5 _ _).bind fun _ => keepsS_pure _
        case h_5 =>
          split
          · exact (keepsS_alloc _).bind fun _ => (keepsS_put (.inl (by intro j hj; simp_all))).bind fun _ => (i3 _ _).bind fun _ =>
              (keepsS_upd _ _).bind fun _ => keepsS_pure _
          · exact keepsS_fail _
        all_goals first
          | exact keepsS_pure _
          | exact keepsS_fail _
          | (split <;> first | exact keepsS_pure _ | exact keepsS_fail _)
          | exact (keepsS_alloc _).bind fun _ => (keepsS_put (.inl (by intro j hj; simp_all))).bind fun _ => (i3 _ _).bind fun _ =>
              (keepsS_upd _ _).bind fun _ => keepsS_pure _
    · intro t j
      rw [newStructCodec]
      refine keepsS_get.bind fun c => ?_
      split
      · exact keepsS_pure _
      · exact (keepsS_alloc _).bind fun _ => (keepsS_put (.inr (.inr rfl))).bind fun _ => (i6 _ _ _ _).bind fun _ => keepsS_pure _
    · intro r fs i idx
      cases fs with
      | nil => rw [mergeFields]; exact keepsS_pure _
      | cons f fs =>
        rw [mergeFields]
        simp only
        split
        · exact i6 _ _ _ _
        · split
          · exact i6 _ _ _ _
          · refine KeepsS.bind ?_ fun _ => i6 _ _ _ _
            split
            · exact i6 _ _ _ _
            · exact i7 _ _ _ _ _
    · intro r t k h idx
      rw [addField]
      refine keepsS_get.bind fun c => ?_
      split
      · split
        · exact keepsS_pure _
        · exact i8 _ _ _ _ _
      · exact i8 _ _ _ _ _
    · intro r t k h idx
      rw [buildField]
      exact (i1 _).bind fun _ => (i3 _ _).bind fun _ => (fieldOmiter_keepsS U o fuel _ _ _).bind fun _ => keepsS_upd _ _

/-! ## Measures -/

theorem filter_le {α : Type} {p q : α → Bool} (h : ∀ x, p x = true → q x = true) : ∀ L : List α, (L.filter p).length ≤ (L.filter q).length
  | [] => Nat.le_refl _
  | x :: L => by
    have ih := filter_le h L
    by_cases hp : p x = true
    · rw [List.filter_cons_of_pos hp, List.filter_cons_of_pos (h x hp)]; simpa using ih
    · rw [List.filter_cons_of_neg hp]
      by_cases hq : q x = true
      · rw [List.filter_cons_of_pos hq]; simp; omega
      · rw [List.filter_cons_of_neg hq]; exact ih

theorem filter_lt {α : Type} {p q : α → Bool} (h : ∀ x, p x = true → q x = true) {y : α} (hp : p y = false) (hq : q y = true) :
    ∀ L : List α, y ∈ L → (L.filter p).length < (L.filter q).length
  | [], hm => by cases hm
  | x :: L, hm => by
    have hle := filter_le h L
    by_cases hxy : x = y
    · subst hxy
      rw [List.filter_cons_of_neg (by simp [hp]), List.filter_cons_of_pos hq]; simp; omega
    · have hm' : y ∈ L := by
        rcases List.mem_cons.1 hm with h | h
        · exact absurd h.symm hxy
        · exact h
      have ih := filter_lt h hp hq L hm'
      by_cases hp : p x = true
      · rw [List.filter_cons_of_pos hp, List.filter_cons_of_pos (h x hp)]; simpa using ih
      · rw [List.filter_cons_of_neg hp]
        by_cases hq : q x = true
        · rw [List.filter_cons_of_pos hq]; simp; omega
        · rw [List.filter_cons_of_neg hq]; exact ih

def isStruct (U : Univ) (t : Ty) : Bool :=
  match U.base t with
  | .struct _ => true
  | _ => false

theorem isStruct_iff {U : Univ} {t : Ty} : isStruct U t = true ↔ ∃ j, U.base t = .struct j := by
  unfold isStruct; cases U.base t <;> simp

/-- The struct types without a codec. -/
def leftS (U : Univ) (L : List Ty) (c : Codecs) : Nat := (L.filter fun t => isStruct U t && !hasStruct c t).length
/-- The types without a decoder. -/
def leftD (L : List Ty) (c : Codecs) : Nat := (L.filter fun t => ((c.find t Hint.none).bind CV.asDec).isNone).length
/-- The types without an encoder for the hint. -/
def leftE (L : List Ty) (h : Hint) (c : Codecs) : Nat := (L.filter fun t => ((c.find t h).bind CV.asEnc).isNone).length

theorem leftS_le {U : Univ} {L : List Ty} {α : Type} {m : Bld α} (hm : KeepsS U m) {c : Codecs} {a : α} {c' : Codecs} (h : m c = .ok (a, c')) :
    leftS U L c' ≤ leftS U L c := by
  apply filter_le
  intro t ht
  rw [Bool.and_eq_true, Bool.not_eq_true'] at ht ⊢
  refine ⟨ht.1, ?_⟩
  obtain ⟨j, hj⟩ := isStruct_iff.1 ht.1
  cases hs : hasStruct c t with
  | false => rfl
  | true => rw [hm c a c' h t j hj hs] at ht; cases ht.2

theorem leftS_put {U : Univ} {L : List Ty} {t : Ty} {j : Nat} (hb : U.base t = .struct j) (hL : t ∈ L) {c : Codecs}
    (hs : hasStruct c t = false) {r : Nat} (objs : List Obj) : leftS U L (Codecs.put ⟨objs, c.cache⟩ t Hint.none (.dec (.struct r))) < leftS U L c := by
  refine filter_lt (y := t) ?_ ?_ ?_ L hL
  · intro x hx
    rw [Bool.and_eq_true, Bool.not_eq_true'] at hx ⊢
    refine ⟨hx.1, ?_⟩
    by_cases he : x = t
    · subst he; exact hs
    · have := hx.2
      unfold hasStruct at this ⊢
      rw [find_put_ne _ _ (by simpa using he)] at this
      exact this
  · unfold hasStruct; rw [find_put_self]; simp [CV.asStruct]
  · rw [hs, isStruct_iff.2 ⟨j, hb⟩]; rfl

theorem leftD_put {L : List Ty} {t : Ty} (hL : t ∈ L) {c : Codecs} (hs : (c.find t Hint.none).bind CV.asDec = none) (d : Dec) (objs : List Obj) :
    leftD L (Codecs.put ⟨objs, c.cache⟩ t Hint.none (.dec d)) < leftD L c := by
  refine filter_lt (y := t) ?_ ?_ ?_ L hL
  · intro x hx
    by_cases he : x = t
    · subst he; rw [hs]; rfl
    · rw [find_put_ne _ _ (by simpa using he)] at hx
      exact hx
  · rw [find_put_self]; rfl
  · rw [hs]; rfl

theorem leftE_put {L : List Ty} {t : Ty} {h : Hint} (hL : t ∈ L) {c : Codecs} (hs : (c.find t h).bind CV.asEnc = none) (d : Enc) (objs : List Obj) :
    leftE L h (Codecs.put ⟨objs, c.cache⟩ t h (.enc d)) < leftE L h c := by
  refine filter_lt (y := t) ?_ ?_ ?_ L hL
  · intro x hx
    by_cases he : x = t
    · subst he; rw [hs]; rfl
    · rw [find_put_ne _ _ (by simpa using he)] at hx
      exact hx
  · rw [find_put_self]; rfl
  · rw [hs]; rfl

theorem leftS_put_other {U : Univ} {L : List Ty} {t : Ty} (hb : ∀ j, U.base t ≠ .struct j) {h : Hint} {c : Codecs} (x : CV) (objs : List Obj) :
    leftS U L (Codecs.put ⟨objs, c.cache⟩ t h x) ≤ leftS U L c := by
  have := leftS_le (U := U) (L := L) (m := Bld.put t h x) (keepsS_put (.inl hb)) (c := ⟨objs, c.cache⟩) rfl
  exact this

/-! ## Termination -/

theorem stable_cacheDecoder (U : Univ) (o : Options) (t : Ty) : Stable fun n => cacheDecoder U o n t := fun n => (build_le U o n).1 t
theorem stable_newDecoder (U : Univ) (o : Options) (t : Ty) : Stable fun n => newDecoder U o n t := fun n => (build_le U o n).2.1 t
theorem stable_cacheEncoder (U : Univ) (o : Options) (t : Ty) (h : Hint) : Stable fun n => cacheEncoder U o n t h := fun n => (build_le U o n).2.2.1 t h
theorem stable_newEncoder (U : Univ) (o : Options) (t : Ty) (h : Hint) : Stable fun n => newEncoder U o n t h := fun n => (build_le U o n).2.2.2.1 t h
theorem stable_newStructCodec (U : Univ) (o : Options) (t : Ty) (j : Nat) : Stable fun n => newStructCodec U o n t j := fun n => (build_le U o n).2.2.2.2.1 t j
theorem stable_mergeFields (U : Univ) (o : Options) (r : Nat) (fs : List Field) (i : Nat) (idx : List Int) :
    Stable fun n => mergeFields U o n r fs i idx := fun n => (build_le U o n).2.2.2.2.2.1 r fs i idx
theorem stable_addField (U : Univ) (o : Options) (r : Nat) (t : Ty) (k : Bytes) (h : Hint) (idx : List Int) :
    Stable fun n => addField U o n r t k h idx := fun n => (build_le U o n).2.2.2.2.2.2.1 r t k h idx
theorem stable_fieldOmiter (U : Univ) (o : Options) (t : Ty) (h : Hint) (e : Enc) :
    Stable fun n => (fieldOmiter U o n t h e : Bld Omiter) := fun n => fieldOmiter_le U o n t h e

theorem term_newOmiter {U : Univ} (name : Bytes) {t : Ty} (h : ArrayEnds U t) : ∀ c, Term (fun n => newOmiter U name n t) c := by
  induction h with
  | @elem t n e hb _ ih =>
    intro c
    cases hm : newCustomOmiter U t name with
    | some x => exact ⟨1, by beta_reduce; rw [newOmiter, hm]; intro h; cases h⟩
    | none =>
      refine Term.succ (m' := fun fuel => (newOmiter U name fuel e).bind fun o => Bld.pure (Omiter.array n o)) ?_ ?_
      · exact Term.bind (f := fun _ o => Bld.pure (Omiter.array n o)) (newOmiter_le U name · e) (fun _ => .const _) (ih c) fun _ _ _ _ => .pure _ _
      · intro fuel; rw [newOmiter, hm]; simp only [hb]
  | @leaf t hb =>
    intro c
    refine ⟨1, ?_⟩
    beta_reduce
    rw [newOmiter]
    cases newCustomOmiter U t name with
    | some x => intro h; cases h
    | none =>
      cases hq : U.base t with
      | array n e => exact absurd hq (hb n e)
      | _ => intro h; cases h

theorem term_fieldOmiter {U : Univ} (o : Options) {t : Ty} (ha : ArrayEnds U t) (h : Hint) (e : Enc) (c : Codecs) :
    Term (fun n => (fieldOmiter U o n t h e : Bld Omiter)) c := by
  obtain ⟨N, hN⟩ := term_newOmiter o.omitMethod ha c
  refine ⟨N, ?_⟩
  beta_reduce at hN ⊢
  unfold fieldOmiter
  split
  · cases e with
    | struct r =>
      simp only
      cases c.objs[r]? with
      | none => intro h; cases h
      | some x => cases x <;> (intro h; cases h)
    | _ => exact hN
  · intro h; cases h

section
variable {U : Univ} {o : Options} {t0 : Ty} {L : List Ty}

/-- Codecs of all components end from caches with fewer than `s` struct types to do. -/
def Level (U : Univ) (o : Options) (t0 : Ty) (L : List Ty) (s : Nat) : Prop :=
  ∀ c, leftS U L c < s → (∀ t, Comp U t0 t → Term (fun n => cacheDecoder U o n t) c) ∧
    ∀ t h, Comp U t0 t → Term (fun n => cacheEncoder U o n t h) c

theorem term_buildField (hF : ∀ t', Comp U t0 t' → ArrayEnds U t') {s : Nat} (hl : Level U o t0 L s) {t : Ty} (ht : Comp U t0 t)
    (r : Nat) (key : Bytes) (h : Hint) (idx : List Int) (c : Codecs) (hc : leftS U L c < s) :
    Term (fun n => buildField U o n r t key h idx) c := by
  refine Term.succ (m' := fun fuel => (cacheDecoder U o fuel t).bind fun d => (cacheEncoder U o fuel t h).bind fun e =>
    Bld.bind (fieldOmiter U o fuel t h e) fun om => Bld.upd r (Obj.add ⟨key, idx, d, e, om⟩)) ?_ (fun fuel => by rw [buildField])
  refine Term.bind (f := fun fuel d => (cacheEncoder U o fuel t h).bind fun e =>
    Bld.bind (fieldOmiter U o fuel t h e) fun om => Bld.upd r (Obj.add ⟨key, idx, d, e, om⟩)) (stable_cacheDecoder U o t)
    (fun d => (stable_cacheEncoder U o t h).bind fun e => (stable_fieldOmiter U o t h e).bind fun om => .const _) ((hl c hc).1 t ht) ?_
  intro fuel d c1 h1
  have hc1 := leftS_le (L := L) ((build_keepsS U o fuel).1 t) h1
  refine Term.bind (f := fun fuel e => Bld.bind (fieldOmiter U o fuel t h e) fun om => Bld.upd r (Obj.add ⟨key, idx, d, e, om⟩))
    (stable_cacheEncoder U o t h) (fun e => (stable_fieldOmiter U o t h e).bind fun om => .const _) ((hl c1 (by omega)).2 t h ht) ?_
  intro fuel e c2 _
  exact Term.bind (f := fun _ om => Bld.upd r (Obj.add ⟨key, idx, d, e, om⟩)) (stable_fieldOmiter U o t h e) (fun om => .const _)
    (term_fieldOmiter o (hF t ht) h e c2) fun _ _ _ _ => ⟨0, fun h => by cases h⟩

theorem term_addField (hF : ∀ t', Comp U t0 t' → ArrayEnds U t') {s : Nat} (hl : Level U o t0 L s) {t : Ty} (ht : Comp U t0 t)
    (r : Nat) (key : Bytes) (h : Hint) (idx : List Int) (c : Codecs) (hc : leftS U L c < s) :
    Term (fun n => addField U o n r t key h idx) c := by
  have hb := term_buildField hF hl ht r key h idx c hc
  cases hg : getCodec (c.fieldsOf r) key with
  | none =>
    refine hb.succ fun fuel => ?_
    rw [addField]
    simp only [Bld.bind, Bld.get, hg]
  | some ff =>
    by_cases hi : cmpIndex ff.index idx ≠ -1
    · refine ⟨1, ?_⟩
      beta_reduce
      rw [addField]
      simp only [Bld.bind, Bld.get, hg]
      rw [if_pos hi]
      intro h; cases h
    · refine hb.succ fun fuel => ?_
      rw [addField]
      simp only [Bld.bind, Bld.get, hg]
      rw [if_neg hi]

theorem term_mergeFields (hF : ∀ t', Comp U t0 t' → ArrayEnds U t') {s : Nat} (hl : Level U o t0 L s)
    {fs : List Field} {i : Nat} {idx : List Int} {cs : List Cand} (hcs : Cands U o fs i idx cs) :
    (∀ f ∈ fs, f.exported = true → Comp U t0 f.typ) → ∀ r c, leftS U L c < s → Term (fun n => mergeFields U o n r fs i idx) c := by
  induction hcs with
  | nil => intro _ r c _; exact ⟨1, by beta_reduce; rw [mergeFields]; intro h; cases h⟩
  | @skip f fs i idx cs hs _ ih =>
    intro hf r c hc
    refine Term.succ (ih (fun f hf' => hf f (by simp [hf'])) r c hc) fun fuel => ?_
    rw [mergeFields]
    by_cases he : f.exported = false
    · rw [if_pos he]
    · rw [if_neg he]
      rcases hs with hs | hs
      · exact absurd hs he
      · simp only; rw [if_pos hs]
  | @embed f fs i idx cs ds idx' j he hn hq _ _ ih1 ih2 =>
    intro hf r c hc
    have hft := hf f (by simp) he
    have hj : ∀ g ∈ U.fields j, g.exported = true → Comp U t0 g.typ := by
      intro g hg hge
      rcases embedding_comp hq with h | ⟨e, h1, h2⟩
      · exact hft.trans (.field h hg hge .refl)
      · exact hft.trans (.ptr h1 (.field h2 hg hge .refl))
    refine Term.succ (m' := fun fuel => (mergeFields U o fuel r (U.fields j) 0 idx').bind fun _ => mergeFields U o fuel r fs (i + 1) idx) ?_ fun fuel => ?_
    · refine Term.bind (f := fun fuel _ => mergeFields U o fuel r fs (i + 1) idx) (stable_mergeFields U o r _ _ _)
        (fun _ => stable_mergeFields U o r _ _ _) (ih1 hj r c hc) ?_
      intro fuel a c1 h1
      have hc1 := leftS_le (L := L) ((build_keepsS U o fuel).2.2.2.2.2.1 _ _ _ _) h1
      exact ih2 (fun f hf' => hf f (by simp [hf'])) r c1 (by omega)
    · rw [mergeFields, if_neg (by simp [he])]
      simp only
      rw [if_neg hn, hq]
  | @field f fs i idx cs idx' he hn hq _ ih =>
    intro hf r c hc
    have hft := hf f (by simp) he
    refine Term.succ (m' := fun fuel => (addField U o fuel r f.typ (o.parseField f).1 (o.parseField f).2.1 idx').bind fun _ =>
      mergeFields U o fuel r fs (i + 1) idx) ?_ fun fuel => ?_
    · refine Term.bind (f := fun fuel _ => mergeFields U o fuel r fs (i + 1) idx) (stable_addField U o r _ _ _ _)
        (fun _ => stable_mergeFields U o r _ _ _) (term_addField hF hl hft r _ _ _ c hc) ?_
      intro fuel a c1 h1
      have hc1 := leftS_le (L := L) ((build_keepsS U o fuel).2.2.2.2.2.2.1 _ _ _ _ _) h1
      exact ih (fun f hf' => hf f (by simp [hf'])) r c1 (by omega)
    · rw [mergeFields, if_neg (by simp [he])]
      simp only
      rw [if_neg hn, hq]

theorem term_newStructCodec (hF : Finite U o t0) (hL : ∀ t', Comp U t0 t' → t' ∈ L) {s : Nat} (hl : Level U o t0 L s) {t : Ty} {j : Nat}
    (ht : Comp U t0 t) (hb : U.base t = .struct j) (c : Codecs) (hc : leftS U L c ≤ s) : Term (fun n => newStructCodec U o n t j) c := by
  cases hf : (c.find t Hint.none).bind CV.asStruct with
  | some r =>
    refine ⟨1, ?_⟩
    beta_reduce
    rw [newStructCodec]
    simp only [Bld.bind, Bld.get, hf]
    intro h; cases h
  | none =>
    have hs : hasStruct c t = false := by unfold hasStruct; rw [hf]; rfl
    obtain ⟨cs, hcs⟩ := hF.embeds t j ht hb
    have hlt := leftS_put hb (hL t ht) hs (r := c.objs.length) (c.objs ++ [.struct t []])
    have hm := term_mergeFields hF.arrays hl hcs (fun f hf he => ht.trans (.field hb hf he .refl)) c.objs.length
      (Codecs.put ⟨c.objs ++ [.struct t []], c.cache⟩ t Hint.none (.dec (.struct c.objs.length))) (by omega)
    refine Term.succ (m' := fun fuel => (Bld.alloc (.struct t [])).bind fun r => (Bld.put t Hint.none (.dec (.struct r))).bind fun _ =>
        (mergeFields U o fuel r (U.fields j) 0 []).bind fun _ => Bld.pure r) ?_ fun fuel => ?_
    · exact Term.bind (f := fun _ _ => Bld.pure c.objs.length) (stable_mergeFields U o c.objs.length _ _ _) (fun _ => .const _) hm fun _ _ _ _ => .pure _ _
    · rw [newStructCodec]
      simp only [Bld.bind, Bld.get, hf]

theorem term_cacheDecoder (hF : Finite U o t0) (hL : ∀ t', Comp U t0 t' → t' ∈ L) {s : Nat} (hl : Level U o t0 L s) : ∀ (d : Nat) (c : Codecs),
    leftS U L c ≤ s → leftD L c < d → ∀ t, Comp U t0 t → Term (fun n => cacheDecoder U o n t) c := by
  intro d
  induction d with
  | zero => intro c _ h; omega
  | succ d ih =>
    intro c hc hd t ht
    cases hf : (c.find t Hint.none).bind CV.asDec with
    | some x =>
      refine ⟨1, ?_⟩
      beta_reduce
      rw [cacheDecoder]
      simp only [Bld.bind, Bld.get, hf]
      intro h; cases h
    | none =>
      refine Term.succ (m' := fun fuel => (newDecoder U o fuel t).bind fun d => (Bld.put t Hint.none (.dec d)).bind fun _ => Bld.pure d) ?_ fun fuel => ?_
      · refine Term.bind (f := fun _ d => (Bld.put t Hint.none (.dec d)).bind fun _ => Bld.pure d) (stable_newDecoder U o t) (fun _ => .const _) ?_
          fun _ _ _ _ => ⟨0, fun h => by cases h⟩
        have wrap : ∀ (x : Obj) (y : Nat → Dec) (e : Ty), (∀ j, U.base t ≠ .struct j) → Comp U t0 e →
            Term (fun fuel => (Bld.alloc x).bind fun r => (Bld.put t Hint.none (.dec (y r))).bind fun _ =>
              (cacheDecoder U o fuel e).bind fun d => (Bld.upd r (Obj.setDec d)).bind fun _ => Bld.pure (y r)) c := by
          intro x y e hns he
          have h1 := leftD_put (hL t ht) hf (y c.objs.length) (c.objs ++ [x])
          have h2 := leftS_put_other (L := L) hns (h := Hint.none) (c := c) (.dec (y c.objs.length)) (c.objs ++ [x])
          have := ih (Codecs.put ⟨c.objs ++ [x], c.cache⟩ t Hint.none (.dec (y c.objs.length))) (by omega) (by omega) e he
          exact Term.bind (f := fun _ d => (Bld.upd c.objs.length (Obj.setDec d)).bind fun _ => Bld.pure (y c.objs.length)) (stable_cacheDecoder U o e)
            (fun _ => .const _) this fun _ _ _ _ => ⟨0, fun h => by cases h⟩
        cases hm : decMeth U t with
        | some x => exact ⟨1, by beta_reduce; rw [newDecoder, hm]; intro h; cases h⟩
        | none =>
          have leaf : (newDecoder U o 1 t c ≠ .diverge) → Term (fun n => newDecoder U o n t) c := fun h => ⟨1, h⟩
          cases hb : U.base t with
          | ptr e =>
            exact (wrap (.ptrD e none) .ptr e (by rw [hb]; intro j h; cases h) (ht.trans (.ptr hb .refl))).succ fun fuel => by rw [newDecoder, hm]; simp only [hb]
          | slice e =>
            exact (wrap (.sliceD t none) .slice e (by rw [hb]; intro j h; cases h) (ht.trans (.slice hb .refl))).succ fun fuel => by rw [newDecoder, hm]; simp only [hb]
          | array n e =>
            exact (wrap (.arrayD n e none) .array e (by rw [hb]; intro j h; cases h) (ht.trans (.array hb .refl))).succ fun fuel => by rw [newDecoder, hm]; simp only [hb]
          | map k e =>
            by_cases hk : keyOk U k = true
            · exact (wrap (.mapD t none) .map e (by rw [hb]; intro j h; cases h) (ht.trans (.map hb .refl))).succ fun fuel => by
                rw [newDecoder, hm]; simp only [hb]; rw [if_pos hk]
            · apply leaf; rw [newDecoder, hm]; simp only [hb]; rw [if_neg hk]; intro h; cases h
          | struct j =>
            refine Term.succ (m' := fun fuel => (newStructCodec U o fuel t j).bind fun r => Bld.pure (.struct r)) ?_ fun fuel => by rw [newDecoder, hm]; simp only [hb]
            exact Term.bind (f := fun _ r => Bld.pure (Dec.struct r)) (stable_newStructCodec U o t j) (fun _ => .const _)
              (term_newStructCodec hF hL hl ht hb c hc) fun _ _ _ _ => .pure _ _
          | iface m i =>
            apply leaf; rw [newDecoder, hm]; simp only [hb]; split <;> (intro h; cases h)
          | _ => apply leaf; rw [newDecoder, hm]; simp only [hb]; intro h; cases h
      · rw [cacheDecoder]
        simp only [Bld.bind, Bld.get, hf]

/-- One encoder, when the encoders of components end from the next caches. -/
theorem term_newEncoder (hF : Finite U o t0) (hL : ∀ t', Comp U t0 t' → t' ∈ L) {s : Nat} (hl : Level U o t0 L s) {t : Ty} (h : Hint)
    (ht : Comp U t0 t) (c : Codecs) (hc : leftS U L c ≤ s)
    (hsame : ∀ x objs e, (∀ j, U.base t ≠ .struct j) → Comp U t0 e → Term (fun n => cacheEncoder U o n e h) (Codecs.put ⟨objs, c.cache⟩ t h (.enc x)))
    (hmap : ∀ x objs e, (∀ j, U.base t ≠ .struct j) → Comp U t0 e →
      Term (fun n => cacheEncoder U o n e Hint.none) (Codecs.put ⟨objs, c.cache⟩ t Hint.none (.enc x))) :
    Term (fun n => newEncoder U o n t h) c := by
  have wrap : ∀ (x : Obj) (y : Nat → Enc) (e : Ty), (∀ j, U.base t ≠ .struct j) → Comp U t0 e →
      Term (fun fuel => (Bld.alloc x).bind fun r => (Bld.put t h (.enc (y r))).bind fun _ =>
        (cacheEncoder U o fuel e h).bind fun d => (Bld.upd r (Obj.setEnc d)).bind fun _ => Bld.pure (y r)) c := by
    intro x y e hns he
    exact Term.bind (f := fun _ d => (Bld.upd c.objs.length (Obj.setEnc d)).bind fun _ => Bld.pure (y c.objs.length)) (stable_cacheEncoder U o e h)
      (fun _ => .const _) (hsame (y c.objs.length) (c.objs ++ [x]) e hns he) fun _ _ _ _ => ⟨0, fun h => by cases h⟩
  cases hm : encMeth U t with
  | some x => exact ⟨1, by beta_reduce; rw [newEncoder, hm]; intro h; cases h⟩
  | none =>
    have leaf : (newEncoder U o 1 t h c ≠ .diverge) → Term (fun n => newEncoder U o n t h) c := fun h => ⟨1, h⟩
    cases hb : U.base t with
    | ptr e =>
      exact (wrap (.ptrE t h none) .ptr e (by rw [hb]; intro j h; cases h) (ht.trans (.ptr hb .refl))).succ fun fuel => by rw [newEncoder, hm]; simp only [hb]
    | slice e =>
      exact (wrap (.sliceE t h none) .slice e (by rw [hb]; intro j h; cases h) (ht.trans (.slice hb .refl))).succ fun fuel => by rw [newEncoder, hm]; simp only [hb]
    | array n e =>
      exact (wrap (.arrayE t h n none) .array e (by rw [hb]; intro j h; cases h) (ht.trans (.array hb .refl))).succ fun fuel => by rw [newEncoder, hm]; simp only [hb]
    | map k e =>
      cases hk : keyEnc U k with
      | some ke =>
        refine Term.succ (m' := fun fuel => (Bld.alloc (.mapE t ke none)).bind fun r => (Bld.put t Hint.none (.enc (.map r))).bind fun _ =>
            (cacheEncoder U o fuel e Hint.none).bind fun d => (Bld.upd r (Obj.setEnc d)).bind fun _ => Bld.pure (.map r)) ?_ fun fuel => by
              rw [newEncoder, hm]; simp only [hb, hk]
        exact Term.bind (f := fun _ d => (Bld.upd c.objs.length (Obj.setEnc d)).bind fun _ => Bld.pure (Enc.map c.objs.length)) (stable_cacheEncoder U o e Hint.none)
          (fun _ => .const _) (hmap (.map c.objs.length) (c.objs ++ [.mapE t ke none]) e (by rw [hb]; intro j h; cases h) (ht.trans (.map hb .refl)))
          fun _ _ _ _ => ⟨0, fun h => by cases h⟩
      | none => apply leaf; rw [newEncoder, hm]; simp only [hb, hk]; intro h; cases h
    | struct j =>
      refine Term.succ (m' := fun fuel => (newStructCodec U o fuel t j).bind fun r => Bld.pure (.struct r)) ?_ fun fuel => by rw [newEncoder, hm]; simp only [hb]
      exact Term.bind (f := fun _ r => Bld.pure (Enc.struct r)) (stable_newStructCodec U o t j) (fun _ => .const _)
        (term_newStructCodec hF hL hl ht hb c hc) fun _ _ _ _ => .pure _ _
    | iface m i =>
      apply leaf; rw [newEncoder, hm]; simp only [hb]; split <;> (intro h; cases h)
    | float k => apply leaf; rw [newEncoder, hm]; cases k <;> (simp only [hb]; intro h; cases h)
    | _ => apply leaf; rw [newEncoder, hm]; simp only [hb]; intro h; cases h

theorem term_cacheEncoder_of_new {t : Ty} {h : Hint} {c : Codecs}
    (hn : (c.find t h).bind CV.asEnc = none → Term (fun n => newEncoder U o n t h) c) : Term (fun n => cacheEncoder U o n t h) c := by
  cases hf : (c.find t h).bind CV.asEnc with
  | some x =>
    refine ⟨1, ?_⟩
    beta_reduce
    rw [cacheEncoder]
    simp only [Bld.bind, Bld.get, hf]
    intro h; cases h
  | none =>
    refine Term.succ (m' := fun fuel => (newEncoder U o fuel t h).bind fun d => (Bld.put t h (.enc d)).bind fun _ => Bld.pure d) ?_ fun fuel => ?_
    · exact Term.bind (f := fun _ d => (Bld.put t h (.enc d)).bind fun _ => Bld.pure d) (stable_newEncoder U o t h) (fun _ => .const _) (hn hf)
        fun _ _ _ _ => ⟨0, fun h => by cases h⟩
    · rw [cacheEncoder]
      simp only [Bld.bind, Bld.get, hf]

theorem term_cacheEncoder_none (hF : Finite U o t0) (hL : ∀ t', Comp U t0 t' → t' ∈ L) {s : Nat} (hl : Level U o t0 L s) : ∀ (d : Nat) (c : Codecs),
    leftS U L c ≤ s → leftE L Hint.none c < d → ∀ t, Comp U t0 t → Term (fun n => cacheEncoder U o n t Hint.none) c := by
  intro d
  induction d with
  | zero => intro c _ h; omega
  | succ d ih =>
    intro c hc hd t ht
    refine term_cacheEncoder_of_new fun hf => ?_
    have hnext : ∀ x objs e, (∀ j, U.base t ≠ .struct j) → Comp U t0 e →
        Term (fun n => cacheEncoder U o n e Hint.none) (Codecs.put ⟨objs, c.cache⟩ t Hint.none (.enc x)) := by
      intro x objs e hns he
      have h1 := leftE_put (hL t ht) hf x objs
      have h2 := leftS_put_other (L := L) hns (h := Hint.none) (c := c) (.enc x) objs
      exact ih _ (by omega) (by omega) e he
    exact term_newEncoder hF hL hl Hint.none ht c hc hnext hnext

theorem term_cacheEncoder (hF : Finite U o t0) (hL : ∀ t', Comp U t0 t' → t' ∈ L) {s : Nat} (hl : Level U o t0 L s) (h : Hint) : ∀ (d : Nat) (c : Codecs),
    leftS U L c ≤ s → leftE L h c < d → ∀ t, Comp U t0 t → Term (fun n => cacheEncoder U o n t h) c := by
  intro d
  induction d with
  | zero => intro c _ h; omega
  | succ d ih =>
    intro c hc hd t ht
    refine term_cacheEncoder_of_new fun hf => ?_
    refine term_newEncoder hF hL hl h ht c hc ?_ ?_
    · intro x objs e hns he
      have h1 := leftE_put (hL t ht) hf x objs
      have h2 := leftS_put_other (L := L) hns (h := h) (c := c) (.enc x) objs
      exact ih _ (by omega) (by omega) e he
    · intro x objs e hns he
      have h2 := leftS_put_other (L := L) hns (h := Hint.none) (c := c) (.enc x) objs
      exact term_cacheEncoder_none hF hL hl _ _ (by omega) (Nat.lt_succ_self _) e he

theorem term_level (hF : Finite U o t0) (hL : ∀ t', Comp U t0 t' → t' ∈ L) : ∀ s, Level U o t0 L s := by
  intro s
  induction s with
  | zero => intro c h; omega
  | succ s ih =>
    intro c hc
    exact ⟨fun t ht => term_cacheDecoder hF hL ih _ c (by omega) (Nat.lt_succ_self _) t ht,
      fun t h ht => term_cacheEncoder hF hL ih h _ c (by omega) (Nat.lt_succ_self _) t ht⟩

end

theorem find_empty (t : Ty) (h : Hint) : Codecs.empty.find t h = none := rfl

theorem term_decoder {U : Univ} {o : Options} {t : Ty} (hF : Finite U o t) : Term (fun n => newDecoder U o n t) Codecs.empty := by
  obtain ⟨L, hL⟩ := hF.types
  obtain ⟨N, hN⟩ := (term_level hF hL _ Codecs.empty (Nat.lt_succ_self _)).1 t .refl
  cases N with
  | zero => beta_reduce at hN; rw [cacheDecoder] at hN; exact absurd rfl hN
  | succ N =>
    refine ⟨N, fun h => hN ?_⟩
    beta_reduce at h ⊢
    rw [cacheDecoder]
    simp only [Bld.bind, Bld.get, find_empty, Option.bind_none, h]

theorem term_encoder {U : Univ} {o : Options} {t : Ty} (hF : Finite U o t) (h : Hint) : Term (fun n => newEncoder U o n t h) Codecs.empty := by
  obtain ⟨L, hL⟩ := hF.types
  obtain ⟨N, hN⟩ := (term_level hF hL _ Codecs.empty (Nat.lt_succ_self _)).2 t h .refl
  cases N with
  | zero => beta_reduce at hN; rw [cacheEncoder] at hN; exact absurd rfl hN
  | succ N =>
    refine ⟨N, fun h => hN ?_⟩
    beta_reduce at h ⊢
    rw [cacheEncoder]
    simp only [Bld.bind, Bld.get, find_empty, Option.bind_none, h]

end Verif.Unjson
