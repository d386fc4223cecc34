import Verif.Proofs.UnTyped
import Verif.Spec.UnFits

/-! # More fuel does not change what construction returns -/

namespace Verif.Unjson
open Verif Verif.Float Verif.Spec Verif.Njson

/-- `m'` has the results of `m`, and may return where `m` does not. -/
def Bld.Le {α : Type} (m m' : Bld α) : Prop := ∀ c, m c = .diverge ∨ m' c = m c

theorem Bld.Le.refl {α : Type} (m : Bld α) : m.Le m := fun _ => .inr rfl

theorem Bld.Le.bind {α β : Type} {m m' : Bld α} {f f' : α → Bld β} (h : m.Le m') (hf : ∀ a, (f a).Le (f' a)) :
    (m.bind f).Le (m'.bind f') := by
  intro c
  unfold Bld.bind
  rcases h c with h | h
  · left; rw [h]
  · rw [h]
    cases m c with
    | ok p => exact hf p.1 p.2
    | err e => exact .inr rfl
    | diverge => exact .inl rfl

theorem Bld.diverge_le {α : Type} (m : Bld α) : (Bld.diverge (α := α)).Le m := fun _ => .inl rfl

theorem newOmiter_le (U : Univ) (name : Bytes) : ∀ fuel t, (newOmiter U name fuel t).Le (newOmiter U name (fuel + 1) t)
  | 0, t => by unfold newOmiter; exact Bld.diverge_le _
  | fuel + 1, t => by
    rw [newOmiter, newOmiter.eq_def U name (fuel + 1 + 1)]
    simp only
    split
    · exact .refl _
    · split <;> first | exact .refl _ | exact (newOmiter_le U name fuel _).bind fun _ => .refl _

theorem fieldOmiter_le (U : Univ) (o : Options) (fuel : Nat) (t : Ty) (h : Hint) (e : Enc) :
    Bld.Le (fieldOmiter U o fuel t h e) (fieldOmiter U o (fuel + 1) t h e) := by
  intro c
  unfold fieldOmiter
  split
  · split
    · exact .inr rfl
    · exact newOmiter_le U _ _ _ _
  · exact .inr rfl

theorem build_le (U : Univ) (o : Options) : ∀ fuel,
    (∀ t, (cacheDecoder U o fuel t).Le (cacheDecoder U o (fuel + 1) t)) ∧
    (∀ t, (newDecoder U o fuel t).Le (newDecoder U o (fuel + 1) t)) ∧
    (∀ t h, (cacheEncoder U o fuel t h).Le (cacheEncoder U o (fuel + 1) t h)) ∧
    (∀ t h, (newEncoder U o fuel t h).Le (newEncoder U o (fuel + 1) t h)) ∧
    (∀ t j, (newStructCodec U o fuel t j).Le (newStructCodec U o (fuel + 1) t j)) ∧
    (∀ r fs i idx, (mergeFields U o fuel r fs i idx).Le (mergeFields U o (fuel + 1) r fs i idx)) ∧
    (∀ r t k h idx, (addField U o fuel r t k h idx).Le (addField U o (fuel + 1) r t k h idx)) ∧
    (∀ r t k h idx, (buildField U o fuel r t k h idx).Le (buildField U o (fuel + 1) r t k h idx))
  | 0 => by
    refine ⟨?_, ?_, ?_, ?_, ?_, ?_, ?_, ?_⟩ <;> intros <;>
      simp only [cacheDecoder, newDecoder, cacheEncoder, newEncoder, newStructCodec, mergeFields, addField, buildField] <;> exact Bld.diverge_le _
  | fuel + 1 => by
    obtain ⟨i1, i2, i3, i4, i5, i6, i7, i8⟩ := build_le U o fuel
    refine ⟨?_, ?_, ?_, ?_, ?_, ?_, ?_, ?_⟩
    · intro t
      rw [cacheDecoder, cacheDecoder]
      refine (Bld.Le.refl _).bind fun c => ?_
      split
      · exact .refl _
      · exact (i2 t).bind fun _ => .refl _
    · intro t
      rw [newDecoder, newDecoder]
      split
      · exact .refl _
      · split <;> first
          | exact .refl _
          | exact (Bld.Le.refl _).bind fun _ => (Bld.Le.refl _).bind fun _ => (i1 _).bind fun _ => .refl _
          | exact (i5 _ _).bind fun _ => .refl _
          | (split
             · exact (Bld.Le.refl _).bind fun _ => (Bld.Le.refl _).bind fun _ => (i1 _).bind fun _ => .refl _
             · exact .refl _)
    · intro t h
      rw [cacheEncoder, cacheEncoder]
      refine (Bld.Le.refl _).bind fun c => ?_
      split
      · exact .refl _
      · exact (i4 t h).bind fun _ => .refl _
    · intro t h
      rw [newEncoder, newEncoder]
      split
      · exact .refl _
      · split <;> first
          | exact .refl _
          | exact (Bld.Le.refl _).bind fun _ => (Bld.Le.refl _).bind fun _ => (i3 _ _).bind fun _ => .refl _
          | exact (i5 _ _).bind fun _ => .refl _
          | (split
             · exact (Bld.Le.refl _).bind fun _ => (Bld.Le.refl _).bind fun _ => (i3 _ _).bind fun _ => .refl _
             · exact .refl _)
    · intro t j
      rw [newStructCodec, newStructCodec]
      refine (Bld.Le.refl _).bind fun c => ?_
      split
      · exact .refl _
      · exact (Bld.Le.refl _).bind fun _ => (Bld.Le.refl _).bind fun _ => (i6 _ _ _ _).bind fun _ => .refl _
    · intro r fs i idx
      cases fs with
      | nil => rw [mergeFields, mergeFields]; exact .refl _
      | cons f fs =>
        rw [mergeFields, mergeFields.eq_def U o (fuel + 1 + 1)]
        simp only
        split
        · exact i6 _ _ _ _
        · split
          · exact i6 _ _ _ _
          · refine Bld.Le.bind ?_ fun _ => i6 _ _ _ _
            split
            · exact i6 _ _ _ _
            · exact i7 _ _ _ _ _
    · intro r t k h idx
      rw [addField, addField]
      refine (Bld.Le.refl _).bind fun c => ?_
      split
      · split
        · exact .refl _
        · exact i8 _ _ _ _ _
      · exact i8 _ _ _ _ _
    · intro r t k h idx
      rw [buildField, buildField]
      exact (i1 _).bind fun _ => (i3 _ _).bind fun _ => (fieldOmiter_le U o fuel _ _ _).bind fun _ => .refl _

/-- A family of computations, one for each fuel, in which more fuel does not change results. -/
def Stable {α : Type} (m : Nat → Bld α) : Prop := ∀ fuel, (m fuel).Le (m (fuel + 1))

/-- With enough fuel the computation returns. -/
def Term {α : Type} (m : Nat → Bld α) (c : Codecs) : Prop := ∃ fuel, m fuel c ≠ .diverge

theorem Stable.le {α : Type} {m : Nat → Bld α} (h : Stable m) {a b : Nat} (hab : a ≤ b) (c : Codecs) : m a c = .diverge ∨ m b c = m a c := by
  obtain ⟨k, rfl⟩ : ∃ k, b = a + k := ⟨b - a, by omega⟩
  induction k with
  | zero => exact .inr rfl
  | succ k ih =>
    rcases ih (by omega) with ih | ih
    · exact .inl ih
    · rcases h (a + k) c with h | h
      · left; rw [← ih]; exact h
      · right; rw [← ih]; exact h

theorem Stable.const {α : Type} (m : Bld α) : Stable fun _ => m := fun _ => .refl _

theorem Stable.bind {α β : Type} {m : Nat → Bld α} {f : Nat → α → Bld β} (h : Stable m) (hf : ∀ a, Stable fun n => f n a) :
    Stable fun n => (m n).bind (f n) := fun fuel => (h fuel).bind fun a => hf a fuel

theorem Term.bind {α β : Type} {m : Nat → Bld α} {f : Nat → α → Bld β} {c : Codecs} (hs : Stable m) (hf : ∀ a, Stable fun n => f n a)
    (h : Term m c) (h2 : ∀ fuel a c', m fuel c = .ok (a, c') → Term (fun n => f n a) c') : Term (fun n => (m n).bind (f n)) c := by
  obtain ⟨N, h⟩ := h
  cases hm : m N c with
  | diverge => exact absurd hm h
  | err e => exact ⟨N, by simp only [Bld.bind, hm]; exact fun h => by cases h⟩
  | ok p =>
    obtain ⟨a, c'⟩ := p
    obtain ⟨M, h2⟩ := h2 N a c' hm
    refine ⟨max N M, ?_⟩
    have q1 : m (max N M) c = .ok (a, c') := by
      rcases hs.le (Nat.le_max_left N M) c with h | h
      · rw [hm] at h; cases h
      · rw [h, hm]
    simp only [Bld.bind, q1]
    rcases (hf a).le (Nat.le_max_right N M) c' with h | h
    · exact absurd h h2
    · rw [h]; exact h2

theorem Term.pure {α : Type} (a : α) (c : Codecs) : Term (fun _ => Bld.pure a) c := ⟨0, fun h => by cases h⟩
theorem Term.fail {α : Type} (e : UErr) (c : Codecs) : Term (fun _ => Bld.fail (α := α) e) c := ⟨0, fun h => by cases h⟩

/-- One more unit of fuel for the call itself. -/
theorem Term.succ {α : Type} {m m' : Nat → Bld α} {c : Codecs} (h : Term m' c) (he : ∀ fuel, m (fuel + 1) c = m' fuel c) : Term m c := by
  obtain ⟨N, h⟩ := h
  exact ⟨N + 1, by rw [he]; exact h⟩

end Verif.Unjson
