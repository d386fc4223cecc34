import Verif.Model.UnIface
import Verif.Props.UnTotal

/-! # A constructor that returns an error returns no codec (C135) -/

namespace Verif.Props
open Verif Verif.Float Verif.Spec Verif.Njson Verif.Unjson

/-- **C135**, decoders: `NewTypeDecoder` returns a nil `Decoder` exactly if it returns an error. -/
theorem C135_decoder {U : Univ} {tag : Bytes} {fuel : Nat} {t : Option Ty} {d : DecIface} {err : Option UErr} (h : newTypeDecoderI U tag fuel t = some (d, err)) :
    d = .nil ↔ err ≠ none := by
  cases t with
  | none => cases h; simp
  | some t =>
    unfold newTypeDecoderI at h
    simp only at h
    cases hn : newTypeDecoder U tag fuel t <;> rw [hn] at h <;> cases h <;> simp

/-- **C135**, `Cache.Decoder`: the same, whatever is in the cache. -/
theorem C135_cache_decoder {U : Univ} {o : Options} {fuel : Nat} {dec : DecIface} {t : Option Ty} {d : DecIface} {err : Option UErr}
    (h : cacheDecoderI U o fuel dec t = some (d, err)) : d = .nil ↔ err ≠ none := by
  unfold cacheDecoderI at h
  cases dec with
  | val c => cases h; simp
  | nil =>
    simp only at h
    cases hn : newTypeDecoderI U o.tag fuel t with
    | none => rw [hn] at h; cases h
    | some r =>
      obtain ⟨d', e⟩ := r
      have := C135_decoder hn
      rw [hn] at h
      cases e <;> cases h
      · exact this
      · simp

/-- **C135 (partial)**, `NewTypeEncoder`: without an error, the `Encoder` can be used. Missing: with an error it is not nil (`C135_false`). -/
theorem C135_encoder_partial {U : Univ} {o : Options} {fuel : Nat} {t : Option Ty} {e : EncIface} (h : newTypeEncoderI U o fuel t = some (e, none)) :
    ∃ m, e = .ptr (some m) ∧ ∃ t', t = some t' ∧ newTypeEncoder U o fuel t' = .ok m := by
  unfold newTypeEncoderI at h
  obtain ⟨⟨p, err⟩, h1, h2⟩ := Option.map_eq_some_iff.1 h
  cases h2
  cases t with
  | none => cases h1
  | some t =>
    unfold encoderPtr at h1
    simp only at h1
    cases hn : newTypeEncoder U o fuel t <;> rw [hn] at h1 <;> cases h1
    exact ⟨_, rfl, t, rfl, hn⟩

/-- **C135**, `Cache.Encoder`: nil exactly with an error, if what is in the cache has come from `Cache.Encoder`. -/
theorem C135_cache_encoder {U : Univ} {o : Options} {fuel : Nat} {enc : EncIface} (hc : enc ≠ .ptr none) {t : Option Ty} {e : EncIface} {err : Option UErr}
    (h : cacheEncoderI U o fuel enc t = some (e, err)) : (e = .nil ↔ err ≠ none) ∧ e ≠ .ptr none := by
  unfold cacheEncoderI at h
  cases enc with
  | ptr p => cases h; exact ⟨by simp, hc⟩
  | nil =>
    simp only at h
    cases hn : newTypeEncoderI U o fuel t with
    | none => rw [hn] at h; cases h
    | some r =>
      obtain ⟨d', er⟩ := r
      rw [hn] at h
      cases er <;> cases h
      · obtain ⟨m, rfl, _⟩ := C135_encoder_partial hn
        simp
      · simp

/-- **C135** is false of `NewTypeEncoder`: whenever it returns an error, the `Encoder` is not nil, and `Encode` on it panics for every argument but nil. -/
theorem C135_false {U : Univ} {o : Options} {fuel : Nat} {t : Option Ty} {e : EncIface} {err : UErr} (h : newTypeEncoderI U o fuel t = some (e, some err)) :
    e ≠ .nil ∧ ∀ fuel' b x, e.encode U fuel' b (some x) = some .panic := by
  unfold newTypeEncoderI at h
  obtain ⟨⟨p, er⟩, h1, h2⟩ := Option.map_eq_some_iff.1 h
  cases h2
  refine ⟨by simp, ?_⟩
  cases t with
  | none => cases h1; exact fun _ _ _ => rfl
  | some t =>
    unfold encoderPtr at h1
    simp only at h1
    cases hn : newTypeEncoder U o fuel t <;> rw [hn] at h1 <;> cases h1
    exact fun _ _ _ => rfl

/-- There are such types: a nil type, a channel. Others have an encoder. -/
theorem C135_false_exists : newTypeEncoderI exU {} 30 none = some (.ptr none, some .invalidType) ∧
    newTypeEncoderI exU {} 30 (some .other) = some (.ptr none, some .invalidType) ∧ cacheEncoderI exU {} 30 .nil (some .other) = some (.nil, some .invalidType) ∧
    newTypeDecoderI exU [] 30 (some .other) = some (.nil, some .invalidType) ∧
    ∃ m, newTypeEncoderI exU {} 30 (some (.struct 0)) = some (.ptr (some m), none) := by
  have h1 : newTypeEncoder exU {} 30 .other = .err .invalidType := by
    have h : (match newTypeEncoder exU {} 30 .other with | .err .invalidType => true | _ => false) = true := by decide +kernel
    revert h
    cases newTypeEncoder exU {} 30 .other with
    | err e => cases e <;> intro h <;> first | rfl | cases h
    | ok m => intro h; cases h
    | diverge => intro h; cases h
  have h2 : newTypeEncoderI exU {} 30 (some .other) = some (.ptr none, some .invalidType) := by
    unfold newTypeEncoderI encoderPtr
    simp only [h1]
    rfl
  refine ⟨rfl, h2, by unfold cacheEncoderI; simp only [h2], rfl, ?_⟩
  have h : (match newTypeEncoder exU {} 30 (.struct 0) with | .ok _ => true | _ => false) = true := by decide +kernel
  unfold newTypeEncoderI encoderPtr
  simp only
  cases hn : newTypeEncoder exU {} 30 (.struct 0) with
  | ok m => exact ⟨m, rfl⟩
  | err e => rw [hn] at h; cases h
  | diverge => rw [hn] at h; cases h

end Verif.Props
