import Verif.Proofs.UnEndsM
import Verif.Props.UnMeth

/-! # Marshal returns, whatever methods the types have (C73, C87) -/

namespace Verif.Props
open Verif Verif.Float Verif.Spec Verif.Njson Verif.Unjson

/-- **C73**: `AppendJSON` returns for every argument, also for types with marshal and omit methods, if its type and the dynamic types in
the value are made of finitely many types and embed no struct in itself. -/
theorem C73_returns_any {U : Univ} {t : Ty} {v : GV} (hF : Finite U defaultOptions t) (hd : ∀ t', Holds v t' → Finite U defaultOptions t')
    (out : Bytes) : ∃ N r, ∀ fuel, N ≤ fuel → Unjson.appendJSON U fuel out (some (t, v)) = some r := by
  obtain ⟨N, q, hq, hN⟩ := newTypeEncoder_ends (o := {}) hF
  cases q with
  | diverge => exact absurd rfl hq
  | err e => exact ⟨N, .done [] (some e), fun fuel hf => by unfold Unjson.appendJSON; simp only [hN fuel hf]⟩
  | ok m =>
    obtain ⟨N', h'⟩ := typeEncoder_returns (newTypeEncoder_paths (hN N (Nat.le_refl _))) (t := t) hd
    cases hr : m.encode U (max N N') out t v with
    | none => exact absurd hr (h' _ (by omega) _)
    | some r =>
      have happ : Unjson.appendJSON U (max N N') out (some (t, v)) = some r := by
        unfold Unjson.appendJSON; simp only [hN (max N N') (by omega)]; exact hr
      exact ⟨max N N', r, (C73_fuel U out _ _ _ happ).1⟩

/-- **C87**: `AppendJSON` returns, and what it returns is the outcome that `WArg` describes. -/
theorem C87_total {U : Univ} (hU : U.Program) {t : Ty} {v : GV} (hv : HasTy U t v) (hF : Finite U defaultOptions t)
    (hd : ∀ t', Holds v t' → Finite U defaultOptions t') (out : Bytes) :
    ∃ w N r, WArg U defaultOptions t v w ∧ Agrees out w r ∧ ∀ fuel, N ≤ fuel → Unjson.appendJSON U fuel out (some (t, v)) = some r := by
  obtain ⟨N, r, h⟩ := C73_returns_any hF hd out
  obtain ⟨w, h1, h2⟩ := C87_exact hU hv N out r (h N (Nat.le_refl _))
  exact ⟨w, N, r, h1, h2, h⟩

theorem exM_comp1 {t' : Ty} (h : Comp (exM false) (.struct 1) t') : t' = .struct 1 ∨ t' = .struct 0 := by
  have key : ∀ {t t'}, Comp (exM false) t t' → (t = .struct 1 ∨ t = .struct 0) → (t' = .struct 1 ∨ t' = .struct 0) := by
    intro t t' h
    induction h with
    | refl => exact id
    | ptr hb _ ih => rintro (rfl | rfl) <;> cases hb
    | slice hb _ ih => rintro (rfl | rfl) <;> cases hb
    | array hb _ ih => rintro (rfl | rfl) <;> cases hb
    | map hb _ ih => rintro (rfl | rfl) <;> cases hb
    | field hb hf _ _ ih =>
      rintro (rfl | rfl) <;> cases hb
      · rw [show (exM false).fields 1 = [fld b!"T" (.struct 0)] from rfl] at hf
        rw [List.mem_singleton.1 hf] at ih
        exact ih (.inr rfl)
      · cases hf
  exact key h (.inl rfl)

/-- The hypotheses hold for a struct with a field of a type with a marshal method. -/
theorem exM_finite : Finite (exM false) defaultOptions (.struct 1) where
  types := ⟨[.struct 1, .struct 0], fun t' hc => by simpa using exM_comp1 hc⟩
  arrays := fun t' hc => by rcases exM_comp1 hc with rfl | rfl <;> exact .leaf (by simp [Univ.base])
  embeds := fun t' j hc hb => by
    rcases exM_comp1 hc with rfl | rfl <;> cases hb
    · exact ⟨_, .field rfl (by decide) rfl .nil⟩
    · exact ⟨_, .nil⟩

example : ∃ N, ∀ fuel, N ≤ fuel → marshal (exM false) fuel (some (.struct 1, .struct [.struct []])) = some (.done b!"{\"T\":{}}" none) := by
  obtain ⟨w, N, r, _, _, h⟩ := C87_total exM_program exM_time exM_finite (by
    intro t' h
    cases h with
    | struct hm h =>
      rw [List.mem_singleton.1 hm] at h
      cases h with
      | struct hm _ => cases hm) []
  refine ⟨N, fun fuel hf => ?_⟩
  have := (C73_fuel _ _ _ _ _ (h N (Nat.le_refl _))).2 30 _ C87_false.2.2.1
  rw [this]
  exact h fuel hf

end Verif.Props
