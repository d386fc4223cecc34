import Verif.Proofs.UnEncode
import Verif.Props.Access

/-! # The texts that the encoders write -/

namespace Verif.Unjson
open Verif Verif.Float Verif.Spec Verif.Njson

/-! ## float32 -/

theorem f32_ok : f32.Ok := by unfold Fmt.Ok; decide

theorem val_frac (m : Nat) (e : Int) : val m e = ((m * (pow2 e).1 : Nat) : ℚ) / (pow2 e).2 := by
  unfold val; rw [← pow2_val, ← mul_div_assoc]; push_cast; rfl

theorem toF32_nearest (m : Nat) (e : Int) : Nearest f32 (val m e) (NumJson.toF32 (.fin m e)) := by
  rw [val_frac]; exact round_nearest f32 f32_ok _ (pow2_pos e).2

theorem toF32_exact {m : Nat} {e : Int} (h : IsFloat f32 m e) : NumJson.toF32 (.fin m e) = .fin m e :=
  round_exact f32 f32_ok (pow2_pos e).2 h (val_frac m e)

theorem toF32_idem (x : Mag) : NumJson.toF32 (NumJson.toF32 x) = NumJson.toF32 x := by
  cases x with
  | inf => rfl
  | fin m e =>
    have h := toF32_nearest m e
    cases hq : NumJson.toF32 (.fin m e) with
    | inf => rfl
    | fin m' e' => rw [hq] at h; exact toF32_exact h.1

/-! ## Integers -/

theorem digit_facts : ∀ d < 10, IsDigitByte (UInt8.ofNat (48 + d)) ∧ (UInt8.ofNat (48 + d)).toNat - 48 = d ∧
    (UInt8.ofNat (48 + d) = 48 → d = 0) := by
  unfold IsDigitByte; decide

theorem natDigits_spec : ∀ (fuel n : Nat) (acc : Bytes), n < fuel → ∃ ds, natDigits fuel n acc = ds ++ acc ∧ Digits ds ∧ natOf ds = n ∧
    (ds.head? = some 48 → ds = [48])
  | 0, n, acc, h => by omega
  | fuel + 1, n, acc, h => by
    obtain ⟨d1, d2, d3⟩ := digit_facts (n % 10) (Nat.mod_lt _ (by omega))
    unfold natDigits
    simp only
    generalize UInt8.ofNat (48 + n % 10) = c at *
    by_cases hz : n / 10 = 0
    · rw [if_pos hz]
      have hn : n % 10 = n := Nat.mod_eq_of_lt (by omega)
      refine ⟨[c], rfl, ⟨by simp, by simpa using d1⟩, ?_, ?_⟩
      · simp only [natOf, List.length_nil, Nat.pow_zero, Nat.mul_one, Nat.add_zero, d2]; exact hn
      · intro hh; simp at hh; rw [hh]
    · rw [if_neg hz]
      obtain ⟨ds, e1, e2, e3, e4⟩ := natDigits_spec fuel (n / 10) (c :: acc) (by omega)
      refine ⟨ds ++ [c], by rw [e1]; simp, ⟨by simp, ?_⟩, ?_, ?_⟩
      · intro b hb
        rcases List.mem_append.1 hb with hb | hb
        · exact e2.2 b hb
        · simp at hb; subst hb; exact d1
      · rw [NumJson.natOf_append, e3]
        simp only [natOf, List.length_nil, Nat.pow_zero, Nat.mul_one, Nat.add_zero, d2, List.length_cons, Nat.zero_add, Nat.pow_one]
        omega
      · intro hh
        have hne := e2.1
        obtain ⟨c, cs, rfl⟩ := List.exists_cons_of_ne_nil hne
        simp at hh
        subst hh
        have := e4 rfl
        rw [this] at e3
        simp [natOf] at e3
        omega

theorem formatUint_spec (n : Nat) : RfcInt (formatUint n) ∧ natOf (formatUint n) = n ∧ Digits (formatUint n) := by
  obtain ⟨ds, e1, e2, e3, e4⟩ := natDigits_spec (n + 1) n [] (by omega)
  unfold formatUint
  rw [e1, List.append_nil]
  refine ⟨?_, e3, e2⟩
  by_cases h : ds.head? = some 48
  · exact .inl (e4 h)
  · exact .inr ⟨e2, h⟩

theorem formatInt_decimal (i : Int) : IsDecimal i (formatInt i) := by
  obtain ⟨h1, h2, h3⟩ := formatUint_spec i.natAbs
  refine ⟨_, h3, h2, ?_⟩
  unfold formatInt
  by_cases h : i < 0 <;> simp [h]

theorem formatUint_number (n : Nat) : RfcNumber (formatUint n) :=
  ⟨[], formatUint n, [], [], by simp, .inl rfl, (formatUint_spec n).1, .inl rfl, .inl rfl⟩

theorem formatInt_number (i : Int) : RfcNumber (formatInt i) := by
  unfold formatInt
  by_cases h : i < 0
  · rw [if_pos h]
    exact ⟨[45], formatUint i.natAbs, [], [], by simp, .inr rfl, (formatUint_spec _).1, .inl rfl, .inl rfl⟩
  · rw [if_neg h]; exact formatUint_number _

theorem numText_number {x : NumText} (hx : x.Ok) (hi : RfcInt x.ip) (h1 : x.OneSign) : RfcNumber x.text := by
  refine ⟨if x.neg then [45] else [], x.ip, fracText x.fp, expText x.ex, by unfold NumText.text; simp, ?_, hi, ?_, ?_⟩
  · cases x.neg <;> simp
  · cases h : x.fp with
    | none => exact .inl rfl
    | some f => exact .inr ⟨f, rfl, hx.2.1 f h⟩
  · cases h : x.ex with
    | none => exact .inl rfl
    | some p =>
      obtain ⟨c, sg, ds⟩ := p
      obtain ⟨q1, _, q3⟩ := hx.2.2 _ _ _ h
      exact .inr ⟨c, sg, ds, rfl, q1, h1 _ _ _ h, q3⟩

theorem floatText_number {U : Univ} (h : U.GoFloats) (neg : Bool) (m : Nat) (e : Int) (hi : NumJson.toF32 (.fin m e) ≠ .inf) : RfcNumber (floatText U (.num neg (.fin m e))) := by
  unfold floatText
  by_cases hf : NumJson.fmtByte (.num neg (.fin m e)) 32 = 101
  · obtain ⟨x, sg, ds, hx, hi, he, hd, ht⟩ := h.exp neg m e hi
    have hsg : sg = 43 ∨ sg = 45 := (hx.2.2 _ _ _ he).2.1 sg (by simp)
    obtain ⟨x', p1, p2, p3, p4, p5⟩ := Props.C45_exponent [] _ 32 _ x hx ht he hd hf
    rw [p2, List.nil_append]
    rcases p5 with ⟨d, q1, rfl⟩ | ⟨rfl, _⟩
    · refine numText_number p1 hi ?_
      intro c sg ds hh
      simp only [Option.some.injEq, Prod.mk.injEq] at hh
      right; right; exact hh.2.1.symm
    · refine numText_number hx hi ?_
      intro c sg' ds' hh
      rw [he] at hh
      simp only [Option.some.injEq, Prod.mk.injEq] at hh
      rw [← hh.2.1]
      rcases hsg with rfl | rfl <;> simp
  · have h102 : NumJson.fmtByte (.num neg (.fin m e)) 32 = 102 := by
      unfold NumJson.fmtByte at hf ⊢
      split at hf <;> simp_all
    obtain ⟨x, hx, hi, he, ht⟩ := h.plain neg m e hi
    rw [Props.C45_plain _ _ _ _ (.inl h102), h102, ht, List.nil_append]
    exact numText_number hx hi (by intro c sg ds hh; rw [he] at hh; cases hh)

/-! ## Fields -/

theorem cands_from {U : Univ} {o : Options} {fs : List Field} {i : Nat} {idx : List Int} {cs : List Cand} (h : Cands U o fs i idx cs) :
    ∀ c ∈ cs, ∃ f, (f ∈ fs ∨ ∃ j, f ∈ U.fields j) ∧ f.exported = true ∧ c.key = (o.parseField f).1 ∧ c.typ = f.typ ∧ c.hint = (o.parseField f).2.1 := by
  induction h with
  | nil => intro c hc; simp at hc
  | skip _ _ ih =>
    intro c hc
    obtain ⟨f, h1, h2⟩ := ih c hc
    exact ⟨f, by rcases h1 with h1 | h1 <;> simp [h1], h2⟩
  | embed _ _ _ _ _ ih1 ih2 =>
    intro c hc
    rcases List.mem_append.1 hc with hc | hc
    · obtain ⟨f, h1, h2⟩ := ih1 c hc
      exact ⟨f, .inr (by rcases h1 with h1 | h1 <;> [exact ⟨_, h1⟩; exact h1]), h2⟩
    · obtain ⟨f, h1, h2⟩ := ih2 c hc
      exact ⟨f, by rcases h1 with h1 | h1 <;> simp [h1], h2⟩
  | field hx _ _ _ ih =>
    intro c hc
    rcases List.mem_cons.1 hc with rfl | hc
    · exact ⟨_, .inl (by simp), hx, rfl, rfl, rfl⟩
    · obtain ⟨f, h1, h2⟩ := ih c hc
      exact ⟨f, by rcases h1 with h1 | h1 <;> simp [h1], h2⟩

/-- The candidates of a struct type come from exported fields. -/
theorem resolve_from {U : Univ} {o : Options} {j : Nat} {cs : List Cand} (h : Cands U o (U.fields j) 0 [] cs) :
    ∀ c ∈ resolve [] cs, ∃ j f, f ∈ U.fields j ∧ f.exported = true ∧ c.key = (o.parseField f).1 ∧ c.typ = f.typ ∧ c.hint = (o.parseField f).2.1 := by
  intro c hc
  rcases resolve_mem hc with hc | hc
  · simp at hc
  · obtain ⟨f, h1, h2⟩ := cands_from h c hc
    rcases h1 with h1 | ⟨j', h1⟩
    · exact ⟨j, f, h1, h2⟩
    · exact ⟨j', f, h1, h2⟩

theorem sub_allLeaf {P : Bytes → Prop} {Q : Flt → Prop} : ∀ {is : List Int} {v x : GV}, sub v is = some x → AllLeaf P Q v → AllLeaf P Q x
  | [], v, x, h, hv => by simp [sub] at h; subst h; exact hv
  | i :: is, v, x, h, hv => by
    unfold sub at h
    by_cases hi : i = -1
    · rw [if_pos hi] at h
      cases v <;> simp at h
      cases hv with | ptr hv => exact sub_allLeaf h hv
    · rw [if_neg hi] at h
      cases v <;> simp at h
      rename_i fs
      cases hq : fs[i.toNat]? with
      | none => rw [hq] at h; simp at h
      | some y =>
        rw [hq] at h
        cases hv with | struct hv => exact sub_allLeaf h (hv y (List.mem_of_getElem? hq))

/-- A string of the output comes from one of the value. -/
def EscOf (G : Prop) (P : Bytes → Prop) (raw : Bytes) : Prop := ∃ s html, raw = StrJson.escaped s html false ∧ (G → P s)

theorem encodes_raw {U : Univ} (hF : U.GoFloats) (hT : U.PlainTags defaultOptions) (G : Prop) (P : Bytes → Prop) {o : Options} {h : Hint}
    {t : Ty} {v : GV} {j : JVal} (he : Encodes U o h t v j) :
    o = defaultOptions → (h.raw = true → h.html = true) → AllFlt Fits32 v → (G → AllStr P v) → AllRaw (EscOf G P) RfcBody RfcNumber j := by
  refine Encodes.rec (U := U)
    (motive_1 := fun o h t v j _ => o = defaultOptions → (h.raw = true → h.html = true) → AllFlt Fits32 v → (G → AllStr P v) → AllRaw (EscOf G P) RfcBody RfcNumber j)
    (motive_2 := fun o h t vs js _ => o = defaultOptions → (h.raw = true → h.html = true) → (∀ v ∈ vs, AllFlt Fits32 v) → (G → ∀ v ∈ vs, AllStr P v) →
      AllRawElems (EscOf G P) RfcBody RfcNumber js)
    (motive_3 := fun o t es ms _ => o = defaultOptions → (∀ p ∈ es, AllFlt Fits32 p.2) → (G → ∀ p ∈ es, AllStr P p.2) → AllRawMembers (EscOf G P) RfcBody RfcNumber ms)
    (motive_4 := fun o v cs ms _ => o = defaultOptions → (∀ c ∈ cs, RfcBody c.key ∧ (c.hint.raw = true → c.hint.html = true)) →
      AllFlt Fits32 v → (G → AllStr P v) → AllRawMembers (EscOf G P) RfcBody RfcNumber ms)
    ?_ ?_ ?_ ?_ ?_ ?_ ?_ ?_ ?_ ?_ ?_ ?_ ?_ ?_ ?_ ?_ ?_ ?_ ?_ ?_ ?_ ?_ ?_ ?_ ?_ ?_ he
  · intros; trivial
  · intros; exact formatInt_number _
  · intros; exact formatUint_number _
  · intro _ _ _ _ _ _ _ _ _ _ hq _
    exact floatText_number hF _ _ _ (by cases hq with | float h => exact h _ _ _ rfl)
  · intro _ _ _ _ _ _ ho h; subst h; simp [defaultOptions, Options.normalize] at ho
  · intro _ _ _ _ _ ho h; subst h; simp [defaultOptions, Options.normalize] at ho
  · intro o h t s _ _ hh hq hg
    have hg' : G → P s := fun g => by cases hg g with | str h => exact h
    show EscOf G P (strText h s)
    unfold strText
    by_cases h1 : h.html = true
    · rw [if_pos h1]; exact ⟨s, true, rfl, hg'⟩
    · rw [if_neg h1, if_neg (fun h2 => h1 (hh h2))]; exact ⟨s, false, rfl, hg'⟩
  · intros; trivial
  · intro _ _ _ _ _ _ _ _ ih ho hh hq hg
    exact ih ho hh (by cases hq with | ptr h => exact h) (fun g => by cases hg g with | ptr h => exact h)
  · intros; trivial
  · intro _ _ _ _ _ _ _ _ _ ih ho hh hq hg
    exact ih ho hh (by cases hq with | slice h => exact h) (fun g => by cases hg g with | slice h => exact h)
  · intro _ _ _ _ _ _ _ _ _ ih ho hh hq hg
    exact ih ho hh (by cases hq with | array h => exact h) (fun g => by cases hg g with | array h => exact h)
  · intros; trivial
  · intro _ _ _ _ _ _ _ _ _ ih ho hh hq hg
    exact ih ho (by cases hq with | map h => exact h) (fun g => by cases hg g with | map h => exact h)
  · intros; trivial
  · intro _ _ _ _ _ _ _ _ _ _ ih ho hh hq hg
    exact ih rfl (by simp [Hint.none]) (by cases hq with | iface h => exact h) (fun g => by cases hg g with | iface h => exact h)
  · intro _ _ _ _ _ _ _ _ _ _ _ ih ho hh hq hg
    exact ih rfl (by simp [Hint.none]) (by cases hq with | iface h => cases h with | ptr h => exact h) (fun g => by cases hg g with | iface h => cases h with | ptr h => exact h)
  · intro o h t j cs fs ms _ hc _ ih ho hh hq hg
    subst ho
    refine ih rfl ?_ hq hg
    intro c hc'
    obtain ⟨j, f, h1, h2, h3, _, h4⟩ := resolve_from hc c hc'
    obtain ⟨q1, q2⟩ := hT j f h1 h2
    rw [h3, h4]; exact ⟨q1, q2⟩
  · intros; trivial
  · intro _ _ _ _ _ _ _ _ _ ih1 ih2 ho hh hq hg
    exact ⟨ih1 ho hh (hq _ List.mem_cons_self) (fun g => hg g _ List.mem_cons_self), ih2 ho hh (fun v hv => hq v (List.mem_cons_of_mem _ hv)) (fun g v hv => hg g v (List.mem_cons_of_mem _ hv))⟩
  · intros; trivial
  · intro _ _ _ _ _ _ _ _ _ ih1 ih2 ho hq hg
    exact ⟨(Props.C03_escaped_legal _ _).1, ih1 ho (by simp [Hint.none]) (hq (_, _) List.mem_cons_self) (fun g => hg g (_, _) List.mem_cons_self), ih2 ho (fun v hv => hq v (List.mem_cons_of_mem _ hv)) (fun g v hv => hg g v (List.mem_cons_of_mem _ hv))⟩
  · intros; trivial
  · intro _ _ _ _ _ _ _ ih ho hc hq hg
    exact ih ho (fun c h => hc c (by simp [h])) hq hg
  · intro _ _ _ _ _ _ _ _ _ ih ho hc hq hg
    exact ih ho (fun c h => hc c (by simp [h])) hq hg
  · intro _ _ c _ _ _ _ hs _ _ _ ih1 ih2 ho hc hq hg
    exact ⟨(hc c (by simp)).1, ih1 ho (hc c (by simp)).2 (sub_allLeaf hs hq) (fun g => sub_allLeaf hs (hg g)), ih2 ho (fun c h => hc c (by simp [h])) hq hg⟩

end Verif.Unjson
