import Verif.Proofs.GenRun
import Verif.Proofs.UnText

/-! # The generated `AppendJSON` writes JSON -/

namespace Verif.Gen
open Verif Verif.Float Verif.Spec Verif.Njson Verif.Unjson

theorem floatText64_number {U : Univ} (h : Floats64 U) (neg : Bool) (m : Nat) (e : Int) : RfcNumber (floatText64 U (.num neg (.fin m e))) := by
  unfold floatText64
  by_cases hf : NumJson.fmtByte (.num neg (.fin m e)) 64 = 101
  · obtain ⟨x, sg, ds, hx, hi, he, hd, ht⟩ := h.exp neg m e
    have hsg : sg = 43 ∨ sg = 45 := (hx.2.2 _ _ _ he).2.1 sg (by simp)
    obtain ⟨x', p1, p2, p3, p4, p5⟩ := Props.C45_exponent [] _ 64 _ x hx ht he hd hf
    rw [p2, List.nil_append]
    rcases p5 with ⟨d, q1, rfl⟩ | ⟨rfl, _⟩
    · refine numText_number p1 hi ?_
      intro c sg ds hh
      simp only [Option.some.injEq, Prod.mk.injEq] at hh
      right; right; exact hh.2.1.symm
    · refine numText_number hx hi ?_
      intro c sg' ds' hh
      rw [he] at hh
      simp only [Option.some.injEq, Prod.mk.injEq] at hh
      rw [← hh.2.1]
      rcases hsg with rfl | rfl <;> simp
  · have h102 : NumJson.fmtByte (.num neg (.fin m e)) 64 = 102 := by
      unfold NumJson.fmtByte at hf ⊢
      split at hf <;> simp_all
    obtain ⟨x, hx, hi, he, ht⟩ := h.plain neg m e
    rw [Props.C45_plain _ _ _ _ (.inl h102), h102, ht, List.nil_append]
    exact numText_number hx hi (by intro c sg ds hh; rw [he] at hh; cases hh)

theorem rfcBody_plain : ∀ s : Bytes, (∀ b ∈ s, 32 ≤ b ∧ b < 127 ∧ b ≠ 34 ∧ b ≠ 92) → RfcBody s := by
  intro s
  induction s with
  | nil => intro _; exact .nil
  | cons c s ih =>
    intro h
    have h1 := h c (by simp)
    have key : ∀ c : UInt8, 32 ≤ c ∧ c < 127 ∧ c ≠ 34 ∧ c ≠ 92 → Unescapable (Char.ofNat c.toNat) ∧ enc (Char.ofNat c.toNat) = [c] := by
      apply forall_byte; unfold Unescapable; decide +kernel
    have := RfcBody.char _ (key c h1).1 (ih fun b hb => h b (by simp [hb]))
    rw [(key c h1).2] at this
    exact this

theorem digit_plain {c : UInt8} (h : IsDigitByte c) : 32 ≤ c ∧ c < 127 ∧ c ≠ 34 ∧ c ≠ 92 := by
  revert c
  unfold IsDigitByte
  apply forall_byte
  decide +kernel

/-- The text of a number needs no escaping. -/
theorem number_body {s : Bytes} (h : RfcNumber s) : RfcBody s := by
  apply rfcBody_plain
  obtain ⟨m, i, f, e, rfl, hm, hi, hf, he⟩ := h
  intro b hb
  simp only [List.mem_append] at hb
  rcases hb with ((hb | hb) | hb) | hb
  · rcases hm with rfl | rfl
    · cases hb
    · simp at hb; subst hb; decide
  · rcases hi with rfl | ⟨hi, -⟩
    · simp at hb; subst hb; decide
    · exact digit_plain (hi.2 b hb)
  · rcases hf with rfl | ⟨f, rfl, hf⟩
    · cases hb
    · simp at hb
      rcases hb with rfl | hb
      · decide
      · exact digit_plain (hf.2 b hb)
  · rcases he with rfl | ⟨c, sg, ds, rfl, hc, hs, hd⟩
    · cases hb
    · simp at hb
      rcases hb with rfl | hb | hb
      · rcases hc with rfl | rfl <;> decide
      · rcases hs with rfl | rfl | rfl
        · cases hb
        · simp at hb; subst hb; decide
        · simp at hb; subst hb; decide
      · exact digit_plain (hd.2 b hb)

theorem keyText_body {U : Univ} (hF : Floats64 U) {v : GV} {s : Bytes} (hv : AllFinite v) (h : keyText U v = some s) : RfcBody s := by
  cases v with
  | bool b => cases h; cases b <;> exact rfcBody_plain _ (by decide)
  | int i => cases h; exact number_body (formatInt_number _)
  | uint n => cases h; exact number_body (formatUint_number _)
  | float f =>
    cases h
    cases hv with
    | float hf => obtain ⟨neg, m, e, rfl⟩ := hf; exact number_body (floatText64_number hF _ _ _)
  | _ => cases h

theorem look_finite : ∀ {is : List Nat} {v x : GV}, look v is = some x → AllFinite v → AllFinite x
  | [], v, x, h, hv => by
    have : x = v := by cases v <;> simp [look] at h <;> exact h.symm
    subst this; exact hv
  | i :: is, v, x, h, hv => by
    cases v with
    | struct fs =>
      rw [look] at h
      cases hq : fs[i]? with
      | none => rw [hq] at h; cases h
      | some y =>
        rw [hq] at h
        cases hv with | struct hv => exact look_finite h (hv y (List.mem_of_getElem? hq))
    | ptr y =>
      cases y with
      | struct fs =>
        rw [look] at h
        cases hq : fs[i]? with
        | none => rw [hq] at h; cases h
        | some y =>
          rw [hq] at h
          cases hv with | ptr hv => cases hv with | struct hv => exact look_finite h (hv y (List.mem_of_getElem? hq))
      | _ => simp [look] at h
    | _ => simp [look] at h

theorem genc_rfc {E : Env} {o : GenOptions} (hF : Floats64 E.U) (hN : PlainNames E o) (hT : PlainTexts E.U) {ps : List Bytes} {t : Ty} {v : GV} {j : JVal}
    (h : GEnc E o ps t v j) : b!"raw" ∉ ps → AllFinite v → RfcTree j := by
  unfold RfcTree
  refine GEnc.rec (E := E) (o := o)
    (motive_1 := fun ps t v j _ => b!"raw" ∉ ps → AllFinite v → AllRaw RfcBody RfcBody RfcNumber j)
    (motive_2 := fun ps t vs js _ => b!"raw" ∉ ps → (∀ v ∈ vs, AllFinite v) → AllRawElems RfcBody RfcBody RfcNumber js)
    (motive_3 := fun ps t es ms _ => b!"raw" ∉ ps → (∀ p ∈ es, AllFinite p.1) → (∀ p ∈ es, AllFinite p.2) → AllRawMembers RfcBody RfcBody RfcNumber ms)
    (motive_4 := fun v cs ms _ => (∀ p ∈ cs, RfcBody p.name ∧ b!"raw" ∉ p.params) → AllFinite v → AllRawMembers RfcBody RfcBody RfcNumber ms)
    ?_ ?_ ?_ ?_ ?_ ?_ ?_ ?_ ?_ ?_ ?_ ?_ ?_ ?_ ?_ ?_ ?_ ?_ ?_ ?_ ?_ ?_ ?_ ?_ ?_ h
  · intro _ _ _ _ _ hj _ _ _; exact hj
  · intro _ _ _ _ _ _ hj _ _ _; exact hj
  · intro _ t v s _ _ h3 hs _ _; exact hT t v s h3 hs
  · intros; trivial
  · intros; exact formatInt_number _
  · intros; exact formatUint_number _
  · intro _ _ _ f _ _ _ hv
    cases hv with | float hf => obtain ⟨neg, m, e, rfl⟩ := hf; exact floatText64_number hF _ _ _
  · intros; exact (Props.C03_escaped_legal _ _).1
  · intro _ _ _ _ _ hr hn; exact absurd hr hn
  · intros; trivial
  · intro _ _ _ _ _ _ _ _ _ ih hn hv
    exact ih hn (by cases hv with | ptr h => exact h)
  · intros; trivial
  · intros; trivial
  · intro _ _ _ _ _ _ _ _ _ ih hn hv
    exact ih hn (by cases hv with | slice h => exact h)
  · intros; trivial
  · intro _ _ _ _ _ _ _ _ _ _ ih hn hv
    cases hv with | map h1 h2 => exact ih hn h1 h2
  · intro _ j _ _ _ _ ih _ hv
    exact ih (hN j) hv
  · intros; trivial
  · intro _ _ _ _ _ _ _ _ ih1 ih2 hn hv
    exact ⟨ih1 hn (hv _ List.mem_cons_self), ih2 hn fun v h => hv v (List.mem_cons_of_mem _ h)⟩
  · intros; trivial
  · intro _ _ k s x es j ms hk _ _ ih1 ih2 hn h1 h2
    exact ⟨keyText_body hF (h1 (k, x) List.mem_cons_self) hk, ih1 hn (h2 (k, x) List.mem_cons_self),
      ih2 hn (fun p h => h1 p (List.mem_cons_of_mem _ h)) fun p h => h2 p (List.mem_cons_of_mem _ h)⟩
  · intros; trivial
  · intro _ _ _ _ _ _ ih hn hv
    exact ih (fun p h => hn p (List.mem_cons_of_mem _ h)) hv
  · intro _ _ _ _ _ _ _ _ _ ih hn hv
    exact ih (fun p h => hn p (List.mem_cons_of_mem _ h)) hv
  · intro _ p _ _ _ _ hl _ _ _ ih1 ih2 hn hv
    exact ⟨(hn p List.mem_cons_self).1, ih1 (hn p List.mem_cons_self).2 (look_finite hl hv), ih2 (fun p h => hn p (List.mem_cons_of_mem _ h)) hv⟩

end Verif.Gen
