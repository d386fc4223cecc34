import Verif.Spec.OmitNew
import Verif.Proofs.UnExample

/-!
# Property C140: the omiter of a field can be made for every type

False of the code: `MethodByName` of an interface type returns a method without `Func`, and `customOmiter` calls `method.Func.Type()`, which panics.
`C140_exact` says for which types it does; for all others the omiter is that of UnCodec.lean.
-/

namespace Verif.Props
open Verif Verif.Unjson

theorem custom_panic {U : Univ} {M : ByName} {name : Bytes} {t : Ty} : customOmiterP U M t name = .panic ↔ U.isIface t = true ∧ M t name ≠ none := by
  unfold customOmiterP
  split
  · rename_i h; simp [h]
  · rename_i h; split <;> simp_all

theorem custom_made {U : Univ} {M : ByName} {name : Bytes} {t : Ty} {b : Bool} (h : customOmiterP U M t name = .made b) :
    (M t name = some true ↔ b = true) ∧ (U.isIface t = true → M t name = none ∧ b = false) := by
  unfold customOmiterP at h
  split at h
  · rename_i hm; simp at h; simp [hm, h]
  · rename_i hm
    split at h
    · simp at h
    · rename_i hi; simp at h; simp [hm, h, hi]

theorem custom_ptr {U : Univ} {M : ByName} {name : Bytes} {t : Ty} : customOmiterP U M (.ptr t) name ≠ .panic := by
  intro h
  have := (custom_panic.1 h).1
  simp [Univ.isIface, Univ.base] at this

/-- a type has an omit method of its own, of its pointer type or of its element type -/
theorem newCustom_cases {U : Univ} {M : ByName} {name : Bytes} (hne : name ≠ []) (t : Ty) :
    (newCustomOmiterP U M t name = .panic ↔ (U.isIface t = true ∧ M t name ≠ none) ∨
      ∃ e, U.base t = .ptr e ∧ M t name ≠ some true ∧ U.isIface e = true ∧ M e name ≠ none) ∧
    (newCustomOmiterP U M t name = .made none → M t name ≠ some true ∧ ((∀ e, U.base t ≠ .ptr e) → M (.ptr t) name ≠ some true)) ∧
    (∀ o, newCustomOmiterP U M t name = .made (some o) → M t name = some true ∨ (M (.ptr t) name = some true ∧ ∀ e, U.base t ≠ .ptr e) ∨ ∃ e, U.base t = .ptr e) := by
  have hb : ∀ e, U.base t = .ptr e → U.isIface t = false := fun e h => by unfold Univ.isIface; rw [h]
  unfold newCustomOmiterP
  have hn : (if name = [] then defaultOmitMethod else name) = name := if_neg hne
  simp only [hn]
  cases hc : customOmiterP U M t name with
  | panic => simp only [true_iff, reduceCtorEq, false_implies, implies_true, and_true]; exact Or.inl (custom_panic.1 hc)
  | made b =>
    obtain ⟨c1, c2⟩ := custom_made hc
    have c3 : ¬ (U.isIface t = true ∧ M t name ≠ none) := fun h => by rw [custom_panic.2 h] at hc; simp at hc
    cases b with
    | true =>
      refine ⟨⟨fun h => by simp at h, ?_⟩, fun h => by simp at h, fun o _ => Or.inl (c1.2 rfl)⟩
      rintro (h | ⟨e, _, h, _⟩)
      · exact absurd h c3
      · exact absurd (c1.2 rfl) h
    | false =>
      have c4 : M t name ≠ some true := fun h => by simp [c1] at h
      by_cases hp : ∃ e, U.base t = .ptr e
      · obtain ⟨e, he⟩ := hp
        simp only [he]
        cases hce : customOmiterP U M e name with
        | panic =>
          obtain ⟨g1, g2⟩ := custom_panic.1 hce
          exact ⟨⟨fun _ => Or.inr ⟨e, rfl, c4, g1, g2⟩, fun _ => rfl⟩, fun h => by simp at h, fun o h => by simp at h⟩
        | made b =>
          refine ⟨⟨fun h => by simp at h, ?_⟩, fun _ => ⟨c4, fun h => absurd rfl (h e)⟩, fun o _ => Or.inr (Or.inr ⟨e, rfl⟩)⟩
          rintro (h | ⟨e', he', _, h⟩)
          · exact absurd h c3
          · simp at he'; subst he'
            rw [custom_panic.2 h] at hce; simp at hce
      · have hp' : ∀ e, U.base t ≠ .ptr e := fun e h => hp ⟨e, h⟩
        cases hce : customOmiterP U M (.ptr t) name with
        | panic => exact absurd hce custom_ptr
        | made b =>
          obtain ⟨d1, _⟩ := custom_made hce
          refine ⟨⟨fun h => by simp at h, ?_⟩, fun h => ⟨c4, fun _ h' => ?_⟩, fun o h => ?_⟩
          · rintro (h | ⟨e', he', _⟩)
            · exact absurd h c3
            · exact absurd he' (hp' e')
          · rw [d1.1 h'] at h; simp at h
          · cases b with
            | true => exact Or.inr (Or.inl ⟨d1.2 rfl, hp'⟩)
            | false => simp at h

/-- **C140, exactly**: making the omiter of a type panics exactly if the type is an interface with a method of the name that is looked for (`Omit`, if no other name
is set), whatever its signature, a pointer to such an interface, or an array of one of these, of any depth, without an omit method of its own. -/
theorem C140_exact (U : Univ) (M : ByName) (name : Bytes) (hne : name ≠ []) (t : Ty) :
    (∃ fuel, newOmiterP U M name fuel t = some .panic) ↔ OmitBad U M name t := by
  constructor
  · rintro ⟨fuel, h⟩
    induction fuel generalizing t with
    | zero => simp [newOmiterP] at h
    | succ fuel ih =>
      obtain ⟨k1, k2, _⟩ := newCustom_cases (U := U) (M := M) hne t
      unfold newOmiterP at h
      split at h
      · rename_i hp
        rcases k1.1 hp with ⟨g1, g2⟩ | ⟨e, g1, g2, g3, g4⟩
        · exact .iface g1 g2
        · exact .ptr g1 g2 g3 g4
      · simp at h
      · rename_i hm
        obtain ⟨m1, m2⟩ := k2 hm
        split at h <;> try (simp at h; done)
        rename_i n e he
        refine .array he m1 (m2 (by simp [he])) (ih e ?_)
        split at h
        · simp at h
        · exact h
  · intro h
    induction h with
    | @iface t g1 g2 => exact ⟨1, by unfold newOmiterP; rw [(newCustom_cases hne t).1.2 (Or.inl ⟨g1, g2⟩)]⟩
    | @ptr t e g1 g2 g3 g4 => exact ⟨1, by unfold newOmiterP; rw [(newCustom_cases hne t).1.2 (Or.inr ⟨e, g1, g2, g3, g4⟩)]⟩
    | @array t n e g1 g2 g3 g4 ih =>
      obtain ⟨fuel, ih⟩ := ih
      refine ⟨fuel + 1, ?_⟩
      obtain ⟨k1, k2, k3⟩ := newCustom_cases (U := U) (M := M) hne t
      unfold newOmiterP
      cases hc : newCustomOmiterP U M t name with
      | panic => rfl
      | made o =>
        cases o with
        | some o =>
          rcases k3 o hc with h | ⟨h, _⟩ | ⟨e', h⟩
          · exact absurd h g2
          · exact absurd h g3
          · rw [g1] at h; simp at h
        | none => simp only [g1, ih]

theorem custom_same {U : Univ} {M : ByName} (hM : M.Ok U) {t : Ty} {name : Bytes} {b : Bool} (h : customOmiterP U M t name = .made b) :
    (U.omitMethod name t).isSome = b := by
  obtain ⟨c1, c2⟩ := custom_made h
  cases hi : U.isIface t with
  | true => rw [hM.none t name hi, (c2 hi).2]; rfl
  | false => exact Bool.eq_iff_iff.2 ((hM.same t name hi).trans c1)

theorem newCustom_same {U : Univ} {M : ByName} (hM : M.Ok U) {t : Ty} {name : Bytes} {o : Option Omiter} (h : newCustomOmiterP U M t name = .made o) :
    newCustomOmiter U t name = o := by
  unfold newCustomOmiterP at h
  unfold newCustomOmiter
  dsimp only at h ⊢
  generalize (if name = [] then defaultOmitMethod else name) = nm at h ⊢
  cases hc : customOmiterP U M t nm with
  | panic => rw [hc] at h; simp at h
  | made b =>
    rw [hc] at h
    rw [custom_same hM hc]
    cases b with
    | true => simpa using h
    | false =>
      simp only [Bool.false_eq_true, if_false]
      dsimp only at h
      split at h
      · rename_i e he
        rw [he]; dsimp only
        cases hce : customOmiterP U M e nm with
        | panic => rw [hce] at h; simp at h
        | made b => rw [hce] at h; rw [custom_same hM hce]; simpa using h
      · rename_i hp
        cases hce : customOmiterP U M (.ptr t) nm with
        | panic => rw [hce] at h; simp at h
        | made b =>
          rw [hce] at h
          split
          · rename_i e he; exact absurd he (hp e)
          · rw [custom_same hM hce]; simpa using h

/-- **C140 (partial)**: if the omiter of a type is made, it is the one of `newOmiter` in UnCodec.lean, which all other claims about codecs are about.
Missing: the types of `OmitBad`, for which it is not made (`C140_exact`, `C140_false`). -/
theorem C140_made_partial (U : Univ) (M : ByName) (hM : M.Ok U) (name : Bytes) (fuel : Nat) (t : Ty) (o : Omiter)
    (h : newOmiterP U M name fuel t = some (.made o)) (c : Codecs) : newOmiter U name fuel t c = .ok (o, c) := by
  suffices hs : newOmiter U name fuel t = Bld.pure o by rw [hs]; rfl
  induction fuel generalizing t o with
  | zero => simp [newOmiterP] at h
  | succ fuel ih =>
    unfold newOmiterP at h
    unfold newOmiter
    split at h
    · simp at h
    · rename_i o' ho
      rw [newCustom_same hM ho]
      simp at h; rw [h]
    · rename_i hn
      rw [newCustom_same hM hn]
      dsimp only
      split at h
      case h_6 n e he =>
        rw [he]; dsimp only
        split at h
        · rename_i o' ho
          rw [ih e o' ho]
          simp at h; rw [← h]; rfl
        · rename_i hno
          exact absurd h (hno o)
      all_goals (rename_i he; rw [he]; simp at h; rw [← h])

/-- **C140 (partial)**: without interface types that have a method of the name, making an omiter never panics. -/
theorem C140_safe_partial (U : Univ) (M : ByName) (name : Bytes) (hne : name ≠ []) (h : ∀ t, U.isIface t = true → M t name = none) (fuel : Nat) (t : Ty) :
    newOmiterP U M name fuel t ≠ some .panic := by
  intro hp
  have := (C140_exact U M name hne t).1 ⟨fuel, hp⟩
  induction this generalizing fuel with
  | iface a b => exact b (h _ a)
  | ptr _ _ a b => exact b (h _ a)
  | array a b c d ih =>
    obtain ⟨f, hf⟩ := (C140_exact U M name hne _).2 d
    exact ih f hf

/-- The empty name stands for `Omit`. -/
theorem C140_default (U : Univ) (M : ByName) (fuel : Nat) (t : Ty) : newOmiterP U M [] fuel t = newOmiterP U M b!"Omit" fuel t := by
  have hc : ∀ t, newCustomOmiterP U M t [] = newCustomOmiterP U M t b!"Omit" := fun t => by
    unfold newCustomOmiterP
    have h1 : (if ([] : Bytes) = [] then defaultOmitMethod else []) = b!"Omit" := rfl
    have h2 : (if (b!"Omit" : Bytes) = [] then defaultOmitMethod else b!"Omit") = b!"Omit" := rfl
    rw [h1, h2]
  induction fuel generalizing t with
  | zero => rfl
  | succ fuel ih =>
    unfold newOmiterP
    rw [hc t]
    simp only [ih]

/-- `interface{ Omit() string }` and, beside it, the struct type 0 with a method `Omit() bool` -/
def omitIface : ByName := fun t name =>
  if name = b!"Omit" then (match t with | .iface (_ + 1) _ => some false | .struct 0 => some true | .ptr (.struct 0) => some true | _ => none) else none

/-- `exU`, where the struct type 0 has this method -/
def exOmitU : Univ := { exU with omitMethod := fun name t => if omitIface t name = some true then some fun _ => false else none }

theorem omitIface_ok : omitIface.Ok exOmitU where
  ptrIface := by
    intro t name h
    unfold omitIface
    split
    · split <;> simp_all [Univ.isIface, Univ.base]
    · rfl
  same := by
    intro t name _
    by_cases h : omitIface t name = some true <;> simp [exOmitU, h]
  none := by
    intro t name h
    by_cases h' : omitIface t name = some true
    · unfold omitIface at h'
      split at h'
      · split at h' <;> simp_all [Univ.isIface, Univ.base]
      · simp at h'
    · simp [exOmitU, h']

/-- **C140 is false of the code**: for a field of type `interface{ Omit() string }` (or a pointer to it, or an array of arrays of it) the construction panics. -/
theorem C140_false : ∃ (U : Univ) (M : ByName), M.Ok U ∧ ∃ t, newOmiterP U M [] 1 t = some .panic ∧ newOmiterP U M [] 1 (.ptr t) = some .panic ∧
    newOmiterP U M [] 3 (.array 2 (.array 3 t)) = some .panic :=
  ⟨exOmitU, omitIface, omitIface_ok, .iface 1 0, rfl, rfl, rfl⟩

-- the hypotheses of the theorems: a type that is bad, one with a method, one without, an interface without the method, and the other name
example : OmitBad exOmitU omitIface b!"Omit" (.array 2 (.ptr (.iface 1 0))) := .array rfl (by decide) (by decide) (.ptr rfl (by decide) rfl (by decide))
example : newOmiterP exOmitU omitIface b!"Omit" 1 (.struct 0) = some (.made (.method b!"Omit" (.struct 0))) := rfl
example : newOmiterP exOmitU omitIface b!"Omit" 2 (.array 2 .any) = some (.made (.array 2 .nil)) := rfl
example : newOmiterP exOmitU omitIface b!"IsZero" 2 (.iface 1 0) = some (.made .always) := rfl
example : ∀ t, exOmitU.isIface t = true → omitIface t b!"IsZero" = none := fun _ _ => rfl

end Verif.Props
