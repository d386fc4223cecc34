import Verif.Proofs.UnPanic
import Verif.Props.UnTotal
import Verif.Props.Parse

/-! # Exactly the types into which Unmarshal can panic (C50) -/

namespace Verif.Props
open Verif Verif.Float Verif.Spec Verif.Njson Verif.Unjson

/-- **C50**, exactly, by type: some text makes `Unmarshal` into a zero variable of a supported type panic if and only if the
text can lead to a map or to a variable of a defined empty interface type. When it cannot, no text makes it panic, whatever the content of the variable. -/
theorem C50_types {U : Univ} (hU : U.Ok) (hE : U.EmbedsStructs) {t e : Ty} (hb : U.base t = .ptr e) (hn : NoUnmarshal U t) (hp : PlainTy U e)
    {d : Doc} (hd : d.Wf) :
    ((¬ ∃ t', Reach U decodeOptions e t' ∧ Touchy U t') → ∀ x, HasTy U e x → ∀ s fuel, unmarshal U fuel d s (some (t, .ptr x)) ≠ some .panic) ∧
    (Supported U e → Finite U decodeOptions e → (∀ t', Comp U e t' → PtrEnds U t') → (∃ t', Reach U decodeOptions e t' ∧ Touchy U t') →
      ∃ s N, ∀ fuel, N ≤ fuel → unmarshal U fuel d s (some (t, .ptr (U.zero e))) = some .panic) := by
  refine ⟨fun hno x hx s fuel h => hno ?_, ?_⟩
  · rcases unmarshal_spec hU hE ⟨hb, hn, hp, hx⟩ fuel hd s _ h with ⟨_, _, h⟩ | ⟨_, h⟩ | ⟨d', id, j, tail, r', h1, h2, h3⟩
    · cases h
    · cases h
    · obtain ⟨w, v, _, _, hv, _⟩ := (C11_language d hd s j tail).1 ⟨d', id, h1⟩
      exact panic_hit hU hE h2 hx (gval_allRaw hv) (by cases r' with | panic => rfl | done _ _ => cases h3)
  · rintro hs hF hP ⟨t', hr, ht⟩
    obtain ⟨j, h1, h2, h3, h4⟩ := hit_panic hU hE hr ht hs
    obtain ⟨d', id, hpar⟩ := (C11_language d hd j.ser j []).2 ⟨[], j.ser, by simp, by intro b hb; simp at hb, ser_gval h2, by
      cases j with
      | num raw => exact .inl rfl
      | _ => trivial⟩
    obtain ⟨N, r, hN⟩ := C74_returns hE (t := t) (.ptr (U.zero e)) (fun e' hb' => by rw [hb] at hb'; cases hb'; exact ⟨hF, hP⟩) hd j.ser
    refine ⟨j.ser, N, fun fuel hf => ?_⟩
    have hr := hN fuel hf
    rw [hr]
    rcases unmarshal_tree hU hE ⟨hb, hn, hp, hasTy_zero hU e⟩ fuel hd j.ser r hr hpar with ⟨err, h, _⟩ | ⟨r', h, rfl⟩
    · exact absurd h (newTypeDecoder_accepts hU hb hs err)
    · rw [decodes_unique h _ h4]; rfl

theorem exU_comp3 {t' : Ty} (h : Comp exU (.struct 3) t') : t' = .struct 3 ∨ t' = .map .string .bool ∨ t' = .bool := by
  cases h with
  | refl => exact .inl rfl
  | @field _ j f _ hb hf _ h =>
    cases hb
    have : f = fld b!"M" (.map .string .bool) := by simpa [exU, exFields] using hf
    subst this
    cases h with
    | refl => exact .inr (.inl rfl)
    | map hb h =>
      cases hb
      cases h with
      | refl => exact .inr (.inr rfl)
      | _ => rename_i hb _ ; cases hb
    | _ => rename_i hb _ ; cases hb
  | _ => rename_i hb _ ; cases hb

theorem exU_cands3 : Cands exU decodeOptions (exU.fields 3) 0 [] [⟨b!"M", [0], .map .string .bool, Hint.none⟩] :=
  .field (f := fld b!"M" (.map .string .bool)) (idx' := [0]) rfl (by decide +kernel) rfl .nil

/-- A struct with a map: some text makes `Unmarshal` panic. -/
example : ∃ s N, ∀ fuel, N ≤ fuel → unmarshal exU fuel Doc.empty s (some (.ptr (.struct 3), .ptr (.struct [.nilMap]))) = some .panic := by
  refine (C50_types exU_ok exU_embeds (t := .ptr (.struct 3)) rfl ⟨rfl, rfl, rfl⟩ ?_ empty_wf).2 ?_ ⟨?_, ?_, ?_⟩ ?_ ?_
  · intro t' h; rcases exU_comp3 h with rfl | rfl | rfl <;> exact ⟨rfl, rfl, rfl⟩
  · intro t' h; rcases exU_comp3 h with rfl | rfl | rfl <;> simp [Univ.base]
  · exact ⟨[.struct 3, .map .string .bool, .bool], fun t' h => by simpa using exU_comp3 h⟩
  · intro t' h; rcases exU_comp3 h with rfl | rfl | rfl <;> exact .leaf (by simp [Univ.base])
  · intro t' j h hb
    rcases exU_comp3 h with rfl | rfl | rfl <;> cases hb
    exact ⟨_, exU_cands3⟩
  · intro t' h; rcases exU_comp3 h with rfl | rfl | rfl <;> exact .leaf (by simp [Univ.base])
  · exact ⟨_, .field rfl exU_cands3 (key := b!"M") (c := ⟨b!"M", [0], .map .string .bool, Hint.none⟩) rfl (.plain (by decide) (by decide) .nil) .refl, .inl ⟨.string, .bool, rfl⟩⟩

/-- An empty array of maps: no text does, although there is a map in the type. -/
example (x : GV) (hx : HasTy exU (.array 0 (.map .string .bool)) x) (s : Bytes) (fuel : Nat) :
    unmarshal exU fuel Doc.empty s (some (.ptr (.array 0 (.map .string .bool)), .ptr x)) ≠ some .panic := by
  refine (C50_types exU_ok exU_embeds (t := .ptr (.array 0 (.map .string .bool))) rfl ⟨rfl, rfl, rfl⟩ ?_ empty_wf).1 ?_ x hx s fuel
  · intro t' h
    have : t' = .array 0 (.map .string .bool) ∨ t' = .map .string .bool ∨ t' = .bool := by
      cases h with
      | refl => exact .inl rfl
      | array hb h =>
        cases hb
        cases h with
        | refl => exact .inr (.inl rfl)
        | map hb h =>
          cases hb
          cases h with
          | refl => exact .inr (.inr rfl)
          | _ => rename_i hb _ ; cases hb
        | _ => rename_i hb _ ; cases hb
      | _ => rename_i hb _ ; cases hb
    rcases this with rfl | rfl | rfl <;> exact ⟨rfl, rfl, rfl⟩
  · rintro ⟨t', h, ht⟩
    cases h with
    | refl => rcases ht with ⟨_, _, h⟩ | ⟨_, h, _⟩ <;> cases h
    | array hb hn => cases hb; exact hn rfl
    | _ => rename_i hb _ ; cases hb

end Verif.Props
