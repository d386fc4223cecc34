import Verif.Spec.UnFloat
import Verif.Props.NumInt
import Verif.Props.UnRound

/-!
# Unmarshal into float variables (C108)
-/

namespace Verif.Props
open Verif Verif.Float Verif.Spec Verif.NumJson Verif.Unjson Verif.Njson

theorem fitsIn_setFloat (k : FKind) (f : Flt) : FitsIn k f (setFloat k f) := by
  cases k
  case b64 => rfl
  case b32 =>
    cases f with
    | nan => rfl
    | num neg x =>
      cases x with
      | inf => rfl
      | fin m e => exact ⟨_, rfl, toF32_nearest m e⟩

theorem float_accepted {U : Univ} {t e : Ty} {x : GV} (ha : UnmarshalArg U t e x) {k : FKind} (hb : U.base e = .float k) (fuel : Nat) :
    ∀ err, newTypeDecoder U [] fuel t ≠ .err err := by
  intro err h
  unfold newTypeDecoder at h
  rw [ha.base] at h
  simp only at h
  rw [if_neg (by simp [ha.noMethod.1]), if_neg (by simp [ha.noMethod.2.1]), if_neg (by simp [ha.noMethod.2.2])] at h
  cases fuel with
  | zero => simp [newDecoder, Bld.diverge] at h
  | succ f => simp [newDecoder, decMeth_none (ha.plain e .refl), hb, Bld.pure] at h

/-- **C108**, what is stored: the float that ParseFloat returns, in a float32 variable the float32 nearest to it, and there is no error; when
ParseFloat returns NaN, the same with the float that strconv.ParseFloat returns, or its error, and then the variable is left alone. -/
theorem C108_stored {U : Univ} (hU : U.Ok) (hE : U.EmbedsStructs) {t e : Ty} {k : FKind} {x : Flt} (ha : UnmarshalArg U t e (.float x))
    (hb : U.base e = .float k) (fuel : Nat) {d : Doc} (hd : d.Wf) (s : Bytes) {d' : Doc} {id : Nat} {raw : Bytes} {tail : Bytes}
    (hp : Parses d s d' id (.num raw) tail)
    (r : Out (Option (Ty × GV))) (h : unmarshal U fuel d s (some (t, .ptr (.float x))) = some r) :
    (parseFloat raw ≠ .nan → ∃ g, r = .done (some (t, .ptr (.float g))) none ∧ FitsIn k (parseFloat raw) g) ∧
    (parseFloat raw = .nan → ∀ f, U.atof raw = some f → ∃ g, r = .done (some (t, .ptr (.float g))) none ∧ FitsIn k f g) ∧
    (parseFloat raw = .nan → U.atof raw = none → r = .done (some (t, .ptr (.float x))) (some .strconv)) := by
  rcases unmarshal_tree hU hE ha fuel hd s r h hp with ⟨_, h, _⟩ | ⟨r', hq, rfl⟩
  · exact absurd h (float_accepted ha hb fuel _)
  · have read : ∀ f, readFloat U raw = some f → ∃ g, r'.map (fun y => some (t, GV.ptr y)) = .done (some (t, .ptr (.float g))) none ∧ FitsIn k f g := by
      intro f hf
      rw [decodes_unique hq _ (.float (o := decodeOptions) (x := x) hb hf)]
      exact ⟨_, rfl, fitsIn_setFloat k f⟩
    refine ⟨fun hn => read _ ?_, fun hn f hf => read _ ?_, fun hn hf => ?_⟩
    · unfold readFloat
      cases hf : parseFloat raw with
      | nan => exact absurd hf hn
      | num neg m => rfl
    · unfold readFloat; rw [hn]; exact hf
    · rw [decodes_unique hq _ (.floatErr (o := decodeOptions) (x := x) hb (by unfold readFloat; rw [hn]; exact hf))]
      rfl

/-- **C108 (partial)**: a number of moderate size is stored in a float64 variable up to a relative error of 2^-49. Missing: that it is the
nearest float64 (false, `C108_false`), digit strings that overflow an uint64 (`C44_wraps`), tiny and huge numbers. -/
theorem C108_close_partial {U : Univ} (hU : U.Ok) (hE : U.EmbedsStructs) {t e : Ty} {x : Flt} (ha : UnmarshalArg U t e (.float x))
    (hb : U.base e = .float .b64) (fuel : Nat) {d : Doc} (hd : d.Wf) (s : Bytes) {d' : Doc} {id : Nat} {tail : Bytes} (y : NumText)
    (hp : Parses d s d' id (.num y.text) tail) (hy : y.Ok) (hi : natOf y.ip < 2 ^ 64) (hf : natOf y.frac < 2 ^ 64)
    (hil : y.ip.length ≤ 300) (hfl : y.frac.length ≤ 300) (he : y.expAbs ≤ 300)
    (hr : y.value = 0 ∨ (10 ^ (-307 : ℤ) ≤ y.value ∧ y.value ≤ 10 ^ 308))
    (r : Out (Option (Ty × GV))) (h : unmarshal U fuel d s (some (t, .ptr (.float x))) = some r) :
    ∃ m e, r = .done (some (t, .ptr (.float (.num y.neg (.fin m e))))) none ∧ |val m e - y.value| ≤ y.value / 2 ^ 49 := by
  obtain ⟨m, e', h1, _, h2⟩ := C63_error y hy hi hf hil hfl he hr
  obtain ⟨g, h3, h4⟩ := (C108_stored hU hE ha hb fuel hd s hp r h).1 (by rw [h1]; simp)
  rw [h1] at h4
  cases h4
  exact ⟨m, e', h3, h2⟩

/-- A well-formed number is never rejected, however large (exponents of 2^63 and more excepted). -/
theorem C108_accepted {U : Univ} (hU : U.Ok) (hE : U.EmbedsStructs) {t e : Ty} {k : FKind} {x : Flt} (ha : UnmarshalArg U t e (.float x))
    (hb : U.base e = .float k) (fuel : Nat) {d : Doc} (hd : d.Wf) (s : Bytes) {d' : Doc} {id : Nat} {tail : Bytes} (y : NumText)
    (hp : Parses d s d' id (.num y.text) tail) (hy : y.Ok) (hl : y.text.length < 2 ^ 63) (he : y.expAbs < 2 ^ 63)
    (r : Out (Option (Ty × GV))) (h : unmarshal U fuel d s (some (t, .ptr (.float x))) = some r) :
    ∃ g, r = .done (some (t, .ptr (.float g))) none := by
  obtain ⟨g, h1, _⟩ := (C108_stored hU hE ha hb fuel hd s hp r h).1 (C40_wellformed_partial y hy hl he)
  exact ⟨g, h1⟩

/-- **C108 is refuted** for every integer numeral beyond the range of the type: an infinity is stored, and no error is returned. -/
theorem C108_overflow {U : Univ} (hU : U.Ok) (hE : U.EmbedsStructs) {t e : Ty} {k : FKind} {x : Flt} (ha : UnmarshalArg U t e (.float x))
    (hb : U.base e = .float k) (fuel : Nat) {d : Doc} (hd : d.Wf) (s : Bytes) {d' : Doc} {id : Nat} {raw : Bytes} {tail : Bytes}
    (hp : Parses d s d' id (.num raw) tail) {i : ℤ} (hi : IsDecimal i raw)
    (hbig : overflow (match k with | .b32 => f32 | .b64 => f64) ≤ i.natAbs)
    (r : Out (Option (Ty × GV))) (h : unmarshal U fuel d s (some (t, .ptr (.float x))) = some r) :
    r = .done (some (t, .ptr (.float (.num (decide (i < 0)) .inf)))) none := by
  obtain ⟨q, h1, h2⟩ := C41_rounded i raw hi
  obtain ⟨g, h3, h4⟩ := (C108_stored hU hE ha hb fuel hd s hp r h).1 (by rw [h1]; simp)
  rw [h1] at h4
  cases k
  case b64 =>
    cases q with
    | inf => cases h4; exact h3
    | fin m e => exact absurd h2.2.1 (not_lt.2 hbig)
  case b32 =>
    cases q with
    | inf => cases h4; exact h3
    | fin m e =>
      obtain ⟨q', rfl, hq'⟩ := h4
      cases q' with
      | inf => exact h3
      | fin m' e' =>
        exfalso
        -- the float64 is at least the bound, which is a float64 itself
        have hb : overflow f32 = val (2 ^ 53 - 2 ^ 28) 75 := by
          unfold overflow val f32
          norm_num
        have hge := nearest_ge h2 (m' := 2 ^ 53 - 2 ^ 28) (e' := 75) ⟨by decide, by decide, by decide, .inl (by decide)⟩ (by rw [← hb]; exact hbig)
        rw [← hb] at hge
        exact absurd hq'.2.1 (not_lt.2 hge)

/-- **C108 is false** of the code: 0.3 is not stored as the nearest float64; numbers beyond the largest float64 or float32 are stored as an
infinity, without an error. -/
theorem C108_false :
    unmarshal exU 30 Doc.empty b!"0.3" (some (.ptr (.float .b64), .ptr (.float (.num false (.fin 0 (-1074)))))) =
      some (.done (some (.ptr (.float .b64), .ptr (.float (.num false (.fin 5404319552844596 (-54)))))) none) ∧
    ¬ Nearest f64 (3 / 10) (.fin 5404319552844596 (-54)) ∧
    unmarshal exU 30 Doc.empty b!"1e400" (some (.ptr (.float .b64), .ptr (.float (.num false (.fin 0 (-1074)))))) =
      some (.done (some (.ptr (.float .b64), .ptr (.float (.num false .inf)))) none) ∧
    unmarshal exU 30 Doc.empty b!"-1e39" (some (.ptr (.float .b32), .ptr (.float (.num false (.fin 0 (-1074)))))) =
      some (.done (some (.ptr (.float .b32), .ptr (.float (.num true .inf)))) none) := by
  refine ⟨eq_of_sameX (by decide +kernel), ?_, eq_of_sameX (by decide +kernel), eq_of_sameX (by decide +kernel)⟩
  intro h
  have h1 := (h.2.2 5404319552844595 (-54) ⟨by decide, by decide, by decide, Or.inl (by decide)⟩).1
  unfold val at h1
  norm_num at h1

-- the hypotheses hold for a float32 variable and the text 1.5
example : UnmarshalArg exU (.ptr (.float .b32)) (.float .b32) (exU.zero (.float .b32)) ∧
    (∃ d' id, Parses Doc.empty b!"1.5" d' id (.num b!"1.5") []) ∧
    unmarshal exU 30 Doc.empty b!"1.5" (some (.ptr (.float .b32), .ptr (exU.zero (.float .b32)))) =
      some (.done (some (.ptr (.float .b32), .ptr (.float (.num false (.fin 12582912 (-23)))))) none) :=
  ⟨exU_arg (hasTy_zero exU_ok _), (parses_iff empty_wf).2 ⟨3, by rfl⟩, eq_of_sameX (by decide +kernel)⟩

end Verif.Props
