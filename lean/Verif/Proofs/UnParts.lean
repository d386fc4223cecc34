import Verif.Proofs.UnEncTotal
import Verif.Proofs.UnRound

/-! # Values that survive have nothing in them that is an error or does not end -/

namespace Verif.Unjson
open Verif Verif.Float Verif.Spec Verif.Njson

theorem parts_zero {U : Univ} (hU : U.Ok) {F : Options → Flt → Prop} {D : Ty → Prop} (hF : ∀ o, F o (.num false (.fin 0 f64.emin))) (o : Options) (t : Ty) :
    Parts U F D o t (U.zero t) := by
  have leaf : ∀ {t v}, (U.base t = .bool ∨ U.base t = .string ∨ U.base t = .other ∨ (∃ k, U.base t = .int k) ∨ ∃ k, U.base t = .uint k) → Parts U F D o t v := by
    rintro t v (h | h | h | ⟨k, h⟩ | ⟨k, h⟩) <;> exact .leaf (by simp [h]) (by simp [h]) (by simp [h]) (by simp [h]) (by simp [h]) (by simp [h]) (by simp [h])
  refine zero_ind hU (P := fun v => ∀ t, HasTy U t v → Parts U F D o t v) ?_ ?_ ?_ ?_ ?_ ?_ ?_ ?_ ?_ ?_ ?_ ?_ t t (hasTy_zero hU t)
  · intro t h; cases h with | bool hb => exact leaf (.inl hb)
  · intro t h; cases h with | int hb => exact leaf (.inr (.inr (.inr (.inl ⟨_, hb⟩))))
  · intro t h; cases h with | uint hb => exact leaf (.inr (.inr (.inr (.inr ⟨_, hb⟩))))
  · intro t h; cases h with | float hb => exact .float hb (hF o)
  · intro t h; cases h with | str hb => exact leaf (.inr (.inl hb))
  · intros; exact .nilPtr
  · intros; exact .nilSlice
  · intros; exact .nilMap
  · intros; exact .nilIface
  · intro t h; cases h with | «opaque» hb => exact leaf (.inr (.inr (.inl hb)))
  · intro xs ih t h; cases h with | array hb _ hx => exact .array hb fun x hx' => ih x hx' _ (hx x hx')
  · intro xs ih t h; cases h with | struct hb _ hx => exact .struct hb fun i f v hf hv _ => ih v (List.mem_of_getElem? hv) _ (hx i f v hf hv)

theorem jsonAny_parts {U : Univ} {F : Options → Flt → Prop} {D : Ty → Prop} (hF : ∀ o neg m e, F o (.num neg (.fin m e)))
    (hD : D .bool ∧ D (.float .b64) ∧ D .string ∧ D (.slice .any) ∧ D (.map .string .any)) {v : GV} (h : JsonAny U v) :
    ∀ o, Parts U F D o .any v := by
  induction h with
  | nil => intro o; exact .nilIface
  | bool => intro o; exact .iface hD.1 (.leaf (by simp [Univ.base]) (by simp [Univ.base]) (by simp [Univ.base]) (by simp [Univ.base]) (by simp [Univ.base]) (by simp [Univ.base]) (by simp [Univ.base]))
  | float => intro o; exact .iface hD.2.1 (.float (k := .b64) rfl (hF _ _ _ _))
  | str => intro o; exact .iface hD.2.2.1 (.leaf (by simp [Univ.base]) (by simp [Univ.base]) (by simp [Univ.base]) (by simp [Univ.base]) (by simp [Univ.base]) (by simp [Univ.base]) (by simp [Univ.base]))
  | slice _ _ ih => intro o; exact .iface hD.2.2.2.1 (.slice (e := .any) rfl fun x hx => ih x hx _)
  | map _ _ _ ih => intro o; exact .iface hD.2.2.2.2 (.map (k := .string) (e := .any) rfl fun x hx => ih x hx _)

theorem survives_parts {U : Univ} (hU : U.Ok) {F : Options → Flt → Prop} {D : Ty → Prop} (hF : ∀ o neg m e, F o (.num neg (.fin m e)))
    (hD : D .bool ∧ D (.float .b64) ∧ D .string ∧ D (.slice .any) ∧ D (.map .string .any)) (o : Options) {h : Hint} {t : Ty} {v : GV}
    (hs : Survives U h t v) : Parts U F D o t v := by
  have leaf : ∀ {t v}, (U.base t = .bool ∨ U.base t = .string ∨ (∃ k, U.base t = .int k) ∨ ∃ k, U.base t = .uint k) → Parts U F D o t v := by
    rintro t v (h | h | ⟨k, h⟩ | ⟨k, h⟩) <;> exact .leaf (by simp [h]) (by simp [h]) (by simp [h]) (by simp [h]) (by simp [h]) (by simp [h]) (by simp [h])
  have hz := parts_zero (D := D) hU (fun o => hF o _ _ _) o
  have cons : ∀ {f : Field} {fs : List Field} {v vs}, Parts U F D o f.typ v →
      (∀ (i : Nat) g w, fs[i]? = some g → vs[i]? = some w → g.exported = true → Parts U F D o g.typ w) →
      ∀ (i : Nat) g w, (f :: fs)[i]? = some g → (v :: vs)[i]? = some w → g.exported = true → Parts U F D o g.typ w := by
    intro f fs v vs h1 h2 i g w hg hw he
    cases i with
    | zero => cases hg; cases hw; exact h1
    | succ i => exact h2 i g w (by simpa using hg) (by simpa using hw) he
  refine Survives.rec (motive_1 := fun h t v _ => Parts U F D o t v)
    (motive_2 := fun fs ws _ => ∀ (i : Nat) f v, fs[i]? = some f → ws[i]? = some v → f.exported = true → Parts U F D o f.typ v)
    ?_ ?_ ?_ ?_ ?_ ?_ ?_ ?_ ?_ ?_ ?_ ?_ ?_ ?_ ?_ ?_ ?_ ?_ hs
  · intro h t b hb; exact leaf (.inl hb)
  · intro h t k i hb _ _ _; exact leaf (.inr (.inr (.inl ⟨k, hb⟩)))
  · intro h t k n hb _ _; exact leaf (.inr (.inr (.inr ⟨k, hb⟩)))
  · intro h t k neg m e hb _ _ _; exact .float hb (hF _ _ _ _)
  · intro h t s hb _ _; exact leaf (.inr (.inl hb))
  · intros; exact .nilPtr
  · intro h t e v hb _ _ _ _ ih; exact .ptr hb ih
  · intro h t e arr len hb _ _ ih; exact .slice hb ih
  · intro h t n e xs hb _ _ ih; exact .array hb ih
  · intros; exact .nilMap
  · intro h v hv; exact jsonAny_parts hF hD hv o
  · intro h t j fs cs hb _ _ _ ih; exact .struct hb ih
  · intro i f v hf; simp at hf
  · intro f fs vs _ _ ih; exact cons (hz _) ih
  · intro f fs vs j ws _ _ _ _ hb _ _ ih1 ih2; exact cons (.struct hb ih1) ih2
  · intro f fs vs e _ _ _ _ _ ih; exact cons .nilPtr ih
  · intro f fs vs v idx _ _ _ _ _ _ ih1 ih2; exact cons ih1 ih2
  · intro f fs vs idx _ _ _ _ _ ih; exact cons (hz _) ih

end Verif.Unjson
