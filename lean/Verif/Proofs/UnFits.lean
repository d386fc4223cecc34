import Verif.Spec.UnFits
import Verif.Proofs.UnUnique

/-! # Errors and panics of decoding -/

namespace Verif.Unjson
open Verif Verif.Float Verif.Spec Verif.Njson

theorem NoArrays.comp {U : Univ} {a b : Ty} (h : NoArrays U a) (hc : Comp U a b) : NoArrays U b := fun t ht => h t (hc.trans ht)
theorem Tame.comp {U : Univ} {a b : Ty} (h : Tame U a) (hc : Comp U a b) : Tame U b := fun t ht => h t (hc.trans ht)

theorem struct_comp {U : Univ} (hE : U.EmbedsStructs) {t : Ty} {i : Nat} {o : Options} {cs : List Cand} (hb : U.base t = .struct i)
    (hc : Cands U o (U.fields i) 0 [] cs) : ∀ c ∈ resolve [] cs, Comp U t c.typ :=
  fun c hcm => path_comp (cands_path0 hE hb hc c hcm)

theorem decodes_no_panic {U : Univ} (hE : U.EmbedsStructs) {o : Options} {t : Ty} {v : GV} {j : JVal} {r : Out GV} (h : Decodes U o t v j r) :
    Tame U t → r ≠ .panic := by
  refine Decodes.rec
    (motive_1 := fun t v j r _ => Tame U t → r ≠ .panic)
    (motive_2 := fun t js arr r _ => Tame U t → r ≠ none)
    (motive_3 := fun t js xs r _ => Tame U t → r ≠ none)
    (motive_4 := fun k t ms m r _ => Tame U t → k = .string → (∃ es, m = .map es) → r ≠ .panic)
    (motive_5 := fun cs ms v r _ => (∀ c ∈ cs, Tame U c.typ) → r ≠ .panic)
    ?null ?mismatch ?bool ?int ?intErr ?uint ?uintErr ?float ?floatErr ?str ?ptr ?ptrNew ?sliceNull ?nilSliceNull ?slice ?sliceGrow
    ?nilSlice ?array ?mapNull ?map ?struct ?any ?anyErr ?anyPanic ?enil ?estop ?epanic ?econs ?afull ?arest ?apanic ?acons
    ?mnil ?mfail ?mpanic ?mnilMap ?mbadKey ?mcons ?snil ?sunknown ?sfail ?spanic ?scons ?slostFail ?slostPanic ?slost h
  case ptr => intro t e v j r hb _ _ ih ht; have := ih (ht.comp (.ptr hb .refl)); cases r <;> simp_all [Out.map]
  case ptrNew => intro t e j r hb _ _ ih ht; have := ih (ht.comp (.ptr hb .refl)); cases r <;> simp_all [Out.map]
  case slice => intro t e arr len js r hb _ _ ih ht; have := ih (ht.comp (.slice hb .refl)); cases r <;> simp_all [sliceOut]
  case sliceGrow => intro t e arr len js r hb _ _ ih ht; have := ih (ht.comp (.slice hb .refl)); cases r <;> simp_all [sliceOut]
  case nilSlice => intro t e js r hb _ ih ht; have := ih (ht.comp (.slice hb .refl)); cases r <;> simp_all [sliceOut]
  case array => intro t n e xs js r hb _ ih ht; have := ih (ht.comp (.array hb .refl)); cases r <;> simp_all [arrayOut]
  case map => intro t k e v ms r hb _ ih ht; exact absurd hb ((ht t .refl).1 k e)
  case struct =>
    intro t i cs v ms r hb hc _ ih ht
    exact ih fun c hcm => ht.comp (struct_comp hE hb hc c hcm)
  case anyPanic => intro t i v j x hb hn _ ht; exact absurd ((ht t .refl).2 i hb) hn
  case epanic => intro t j js x arr _ ih ht; exact absurd rfl (ih ht)
  case econs => intro t j js x arr y r _ _ ih ih2 ht; have := ih2 ht; cases r <;> simp_all
  case apanic => intro t j js x arr _ ih ht; exact absurd rfl (ih ht)
  case acons => intro t j js x arr y e r _ _ ih ih2 ht; have := ih2 ht; cases r <;> simp_all
  case mpanic => intro k t key j ms m _ ih ht; exact absurd rfl (ih ht)
  case mnilMap => intro k t key j ms y _ ih ht _ ⟨es, h⟩; cases h
  case mbadKey => intro k t key j ms m y hk _ ih ht h; exact absurd h hk
  case mcons => intro t key j ms es y r _ _ ih ih2 ht _ _; exact ih2 ht rfl ⟨_, rfl⟩
  case sunknown => intro cs key j ms v r _ _ ih hc; exact ih hc
  case spanic => intro cs key j ms v c x hf _ _ ih hc; exact absurd rfl (ih (hc c (List.mem_of_find?_eq_some hf)))
  case scons => intro cs key j ms v c x y r _ _ _ _ ih ih2 hc; exact ih2 hc
  case slostPanic => intro cs key j ms v c hf _ _ ih hc; exact absurd rfl (ih (hc c (List.mem_of_find?_eq_some hf)))
  case slost => intro cs key j ms v c y r _ _ _ _ ih ih2 hc; exact ih2 hc
  all_goals (intros; simp)

theorem entries_no_panic {U : Univ} (hE : U.EmbedsStructs) {o : Options} {k t : Ty} (ht : Tame U t) {ms : List (Bytes × JVal)} {m : GV} {r : Out GV} :
    DecEntries U o k t ms m r → k = .string → (∃ es, m = .map es) → r ≠ .panic := by
  induction ms generalizing m with
  | nil => intro h; cases h; intros; simp
  | cons p ms ih =>
    intro h hk ⟨es, he⟩
    cases h with
    | fail => simp
    | panic h => exact absurd rfl (decodes_no_panic hE h ht)
    | nilMap => cases he
    | badKey h => exact absurd hk h
    | cons h h2 => exact ih h2 rfl ⟨_, rfl⟩

/-! ## Fits -/

theorem Fits.inv_num {U : Univ} {o : Options} {t : Ty} {s : Bytes} (h : Fits U o t (.num s)) :
    (∀ k, U.base t = .int k → readInt s ≠ none) ∧ (∀ k, U.base t = .uint k → readUint s ≠ none) ∧ (∀ k, U.base t = .float k → readFloat U s ≠ none) := by
  cases h <;> simp_all

theorem Fits.inv_ptr {U : Univ} {o : Options} {t e : Ty} {j : JVal} (h : Fits U o t j) (hb : U.base t = .ptr e) : Fits U o e j := by
  cases h with
  | null => exact .null
  | ptr h1 h2 => rw [hb] at h1; cases h1; exact h2
  | _ => simp_all

theorem Fits.inv_slice {U : Univ} {o : Options} {t e : Ty} {js : List JVal} (h : Fits U o t (.arr js)) (hb : U.base t = .slice e) :
    ∀ j ∈ js, Fits U o e j := by
  cases h <;> simp_all

theorem Fits.inv_map {U : Univ} {o : Options} {k t e : Ty} {ms : List (Bytes × JVal)} (h : Fits U o t (.obj ms)) (hb : U.base t = .map k e) :
    ∀ m ∈ ms, Fits U o e m.2 := by
  cases h with
  | map h1 h2 => rw [hb] at h1; cases h1; exact h2
  | _ => simp_all

theorem Fits.inv_struct {U : Univ} {o : Options} {t : Ty} {i : Nat} {cs : List Cand} {ms : List (Bytes × JVal)} (h : Fits U o t (.obj ms))
    (hb : U.base t = .struct i) (hc : Cands U o (U.fields i) 0 [] cs) :
    ∀ m ∈ ms, ∀ c, (resolve [] cs).find? (fun c => c.key = m.1) = some c → Fits U o c.typ m.2 := by
  cases h with
  | struct h1 h2 h3 => rw [hb] at h1; cases h1; rw [cands_unique hc h2]; exact h3
  | ptr h | any h | map h => rw [hb] at h; cases h

theorem Fits.inv_any {U : Univ} {o : Options} {t : Ty} {i : Nat} {j : JVal} (h : Fits U o t j) (hb : U.base t = .iface 0 i) : anyOf j ≠ none := by
  cases h <;> simp_all [anyOf]

/-- A mismatch does not fit. -/
theorem not_fits_mismatch {U : Univ} {o : Options} {t : Ty} {w : Typ} (h : wants (U.base t) = some w) {j : JVal} (hn : j ≠ .null) (hj : jtyp j &&& w = 0) :
    ¬ Fits U o t j := by
  have hm := no_mismatch h hj
  intro hf
  cases hf with
  | null => exact hn rfl
  | bool hb => exact hm.1 hb _ rfl
  | int hb => exact hm.2.1 _ hb _ rfl
  | uint hb => exact hm.2.2.1 _ hb _ rfl
  | float hb => exact hm.2.2.2.1 _ hb _ rfl
  | str hb => exact hm.2.2.2.2.1 hb _ rfl
  | ptr hb => exact hm.2.2.2.2.2.1 _ hb
  | slice hb => exact hm.2.2.2.2.2.2.1 _ hb _ rfl
  | array hb => exact hm.2.2.2.2.2.2.2.1 _ _ hb _ rfl
  | map hb => exact hm.2.2.2.2.2.2.2.2.1 _ _ hb _ rfl
  | struct hb => exact hm.2.2.2.2.2.2.2.2.2.1 _ hb _ rfl
  | any hb => exact hm.2.2.2.2.2.2.2.2.2.2 _ _ hb

/-- Without error iff everything fits, but for the second direction only without slices and arrays. -/
def FitsOut {α : Type} (r : Out α) (P Q : Prop) : Prop := ∀ y e, r = .done y e → (P → e = none) ∧ (Q → e = none → P)

theorem fitsOut_map {α β : Type} {r : Out α} {f : α → β} {P Q : Prop} (h : FitsOut r P Q) : FitsOut (r.map f) P Q := by
  intro y e he
  cases r with
  | panic => cases he
  | done a e' => cases he; exact h a _ rfl

theorem decodes_fits {U : Univ} (hE : U.EmbedsStructs) {o : Options} {t : Ty} {v : GV} {j : JVal} {r : Out GV} (h : Decodes U o t v j r) :
    FitsOut r (Fits U o t j) (NoArrays U t) := by
  refine Decodes.rec
    (motive_1 := fun t v j r _ => FitsOut r (Fits U o t j) (NoArrays U t))
    (motive_2 := fun t js arr r _ => ∀ p, r = some p → (∀ j ∈ js, Fits U o t j) → p.2 = js.length)
    (motive_3 := fun t js xs r _ => True)
    (motive_4 := fun k t ms m r _ => FitsOut r (∀ p ∈ ms, Fits U o t p.2) (NoArrays U t))
    (motive_5 := fun cs ms v r _ => FitsOut r (∀ m ∈ ms, ∀ c, cs.find? (fun c => c.key = m.1) = some c → Fits U o c.typ m.2) (∀ c ∈ cs, NoArrays U c.typ))
    ?null ?mismatch ?bool ?int ?intErr ?uint ?uintErr ?float ?floatErr ?str ?ptr ?ptrNew ?sliceNull ?nilSliceNull ?slice ?sliceGrow
    ?nilSlice ?array ?mapNull ?map ?struct ?any ?anyErr ?anyPanic ?enil ?estop ?epanic ?econs ?afull ?arest ?apanic ?acons
    ?mnil ?mfail ?mpanic ?mnilMap ?mbadKey ?mcons ?snil ?sunknown ?sfail ?spanic ?scons ?slostFail ?slostPanic ?slost h
  case null => intro t v _ y e he; cases he; exact ⟨fun _ => rfl, fun _ _ => .null⟩
  case mismatch =>
    intro t v j w h1 h2 h3 y e he; cases he
    exact ⟨fun hf => absurd hf (not_fits_mismatch h1 h2 h3), fun _ h => by cases h⟩
  case bool => intro t x b hb y e he; cases he; exact ⟨fun _ => rfl, fun _ _ => .bool hb⟩
  case int => intro t k x raw i hb hi y e he; cases he; exact ⟨fun _ => rfl, fun _ _ => .int hb (by simp [hi])⟩
  case intErr => intro t k x raw hb hi y e he; cases he; exact ⟨fun hf => absurd hi (hf.inv_num.1 _ hb), fun _ h => by cases h⟩
  case uint => intro t k x raw i hb hi y e he; cases he; exact ⟨fun _ => rfl, fun _ _ => .uint hb (by simp [hi])⟩
  case uintErr => intro t k x raw hb hi y e he; cases he; exact ⟨fun hf => absurd hi (hf.inv_num.2.1 _ hb), fun _ h => by cases h⟩
  case float => intro t k x raw i hb hi y e he; cases he; exact ⟨fun _ => rfl, fun _ _ => .float hb (by simp [hi])⟩
  case floatErr => intro t k x raw hb hi y e he; cases he; exact ⟨fun hf => absurd hi (hf.inv_num.2.2 _ hb), fun _ h => by cases h⟩
  case str => intro t x raw hb y e he; cases he; exact ⟨fun _ => rfl, fun _ _ => .str hb⟩
  case ptr =>
    intro t e v j r hb _ _ ih
    apply fitsOut_map
    intro y e he
    exact ⟨fun hf => (ih y e he).1 (hf.inv_ptr hb), fun hn h => .ptr hb ((ih y e he).2 (hn.comp (.ptr hb .refl)) h)⟩
  case ptrNew =>
    intro t e j r hb _ _ ih
    apply fitsOut_map
    intro y e he
    exact ⟨fun hf => (ih y e he).1 (hf.inv_ptr hb), fun hn h => .ptr hb ((ih y e he).2 (hn.comp (.ptr hb .refl)) h)⟩
  case sliceNull => intro t e arr len hb y e he; cases he; exact ⟨fun _ => rfl, fun _ _ => .null⟩
  case nilSliceNull => intro t e hb y e he; cases he; exact ⟨fun _ => rfl, fun _ _ => .null⟩
  case slice =>
    intro t e arr len js r hb _ _ _ y e' he
    refine ⟨fun _ => ?_, fun hn => absurd hb (hn t .refl e).1⟩
    cases r <;> cases he; rfl
  case sliceGrow =>
    intro t e arr len js r hb _ _ _ y e' he
    refine ⟨fun _ => ?_, fun hn => absurd hb (hn t .refl e).1⟩
    cases r <;> cases he; rfl
  case nilSlice =>
    intro t e js r hb _ _ y e' he
    refine ⟨fun _ => ?_, fun hn => absurd hb (hn t .refl e).1⟩
    cases r <;> cases he; rfl
  case array =>
    intro t n e xs js r hb _ _ y e' he
    refine ⟨fun _ => ?_, fun hn => absurd hb ((hn t .refl e).2 n)⟩
    cases r <;> cases he; rfl
  case mapNull => intro t k e v hb y e he; cases he; exact ⟨fun _ => rfl, fun _ _ => .null⟩
  case map =>
    intro t k e v ms r hb _ ih y e' he
    exact ⟨fun hf => (ih y e' he).1 (hf.inv_map hb), fun hn h => .map hb ((ih y e' he).2 (hn.comp (.map hb .refl)) h)⟩
  case struct =>
    intro t i cs v ms r hb hc _ ih y e' he
    exact ⟨fun hf => (ih y e' he).1 (hf.inv_struct hb hc),
      fun hn h => .struct hb hc ((ih y e' he).2 (fun c hcm => hn.comp (struct_comp hE hb hc c hcm)) h)⟩
  case any => intro v j x hx y e he; cases he; exact ⟨fun _ => rfl, fun _ _ => .any rfl (by simp [hx])⟩
  case anyErr => intro t i v j hb hx y e he; cases he; exact ⟨fun hf => absurd hx (hf.inv_any hb), fun _ h => by cases h⟩
  case anyPanic => intro t i v j x _ _ _ y e he; cases he
  case enil => intro t arr p hp; cases hp; intros; rfl
  case estop =>
    intro t j js x arr y e _ ih p hp hf
    have := (ih y _ rfl).1 (hf j List.mem_cons_self)
    cases this
  case epanic => intro t j js x arr _ ih p hp; cases hp
  case econs =>
    intro t j js x arr y r _ _ ih ih2 p hp hf
    cases r with
    | none => cases hp
    | some q => cases hp; simp [ih2 q rfl fun j hj => hf j (List.mem_cons_of_mem _ hj)]
  case afull | arest | apanic | acons => intros; trivial
  case mnil => intro k t m y e he; cases he; exact ⟨fun _ => rfl, fun _ _ p hp => by cases hp⟩
  case mfail =>
    intro k t key j ms m y e _ ih y' e' he
    cases he
    exact ⟨fun hf => (ih y _ rfl).1 (hf (key, j) List.mem_cons_self), fun _ h => by cases h⟩
  case mpanic => intro k t key j ms m _ ih y' e' he; cases he
  case mnilMap => intro k t key j ms y _ ih y' e' he; cases he
  case mbadKey => intro k t key j ms m y hk _ ih y' e' he; cases he
  case mcons =>
    intro t key j ms es y r _ _ ih ih2 y' e' he
    refine ⟨fun hf => (ih2 y' e' he).1 fun p hp => hf p (List.mem_cons_of_mem _ hp), fun hn h p hp => ?_⟩
    rcases List.mem_cons.1 hp with rfl | hp
    · exact (ih y _ rfl).2 hn rfl
    · exact (ih2 y' e' he).2 hn h p hp
  case snil => intro cs v y e he; cases he; exact ⟨fun _ => rfl, fun _ _ p hp => by cases hp⟩
  case sunknown =>
    intro cs key j ms v r hf _ ih y e he
    refine ⟨fun h => (ih y e he).1 fun p hp => h p (List.mem_cons_of_mem _ hp), fun hn h p hp => ?_⟩
    rcases List.mem_cons.1 hp with rfl | hp
    · intro c hc; rw [hf] at hc; cases hc
    · exact (ih y e he).2 hn h p hp
  case sfail =>
    intro cs key j ms v c x y e hf _ _ ih y' e' he
    cases he
    exact ⟨fun h => (ih y _ rfl).1 (h (key, j) List.mem_cons_self c hf), fun _ h => by cases h⟩
  case spanic => intro cs key j ms v c x hf _ _ ih y' e' he; cases he
  case scons =>
    intro cs key j ms v c x y r hf _ _ _ ih ih2 y' e' he
    refine ⟨fun h => (ih2 y' e' he).1 fun p hp => h p (List.mem_cons_of_mem _ hp), fun hn h p hp => ?_⟩
    rcases List.mem_cons.1 hp with rfl | hp
    · intro c' hc; rw [hf] at hc; cases hc; exact (ih y _ rfl).2 (hn c (List.mem_of_find?_eq_some hf)) rfl
    · exact (ih2 y' e' he).2 hn h p hp
  case slostFail =>
    intro cs key j ms v c y e hf _ _ ih y' e' he
    cases he
    exact ⟨fun h => (ih y _ rfl).1 (h (key, j) List.mem_cons_self c hf), fun _ h => by cases h⟩
  case slostPanic => intro cs key j ms v c hf _ _ ih y' e' he; cases he
  case slost =>
    intro cs key j ms v c y r hf _ _ _ ih ih2 y' e' he
    refine ⟨fun h => (ih2 y' e' he).1 fun p hp => h p (List.mem_cons_of_mem _ hp), fun hn h p hp => ?_⟩
    rcases List.mem_cons.1 hp with rfl | hp
    · intro c' hc; rw [hf] at hc; cases hc; exact (ih y _ rfl).2 (hn c (List.mem_of_find?_eq_some hf)) rfl
    · exact (ih2 y' e' he).2 hn h p hp

/-- The number of elements that a slice has afterwards: as many as there are before the first that does not fit. -/
theorem elems_count {U : Univ} (hE : U.EmbedsStructs) {o : Options} {t : Ty} {js : List JVal} :
    ∀ {arr : List GV} {p}, DecElems U o t js arr (some p) →
    ((∀ j ∈ js, Fits U o t j) → p.2 = js.length) ∧ p.2 ≤ js.length ∧
    (NoArrays U t → (∀ j ∈ js.take p.2, Fits U o t j) ∧ ∀ j, js[p.2]? = some j → ¬ Fits U o t j) := by
  induction js with
  | nil => intro arr p h; cases h; simp
  | cons j js ih =>
    intro arr p h
    generalize hr : some p = r at h
    cases h with
    | stop h =>
      cases hr
      have hd := (decodes_fits hE h _ _ rfl).1
      have hn : ¬ Fits U o t j := fun hf => by have := hd hf; cases this
      refine ⟨fun hf => absurd (hf j List.mem_cons_self) hn, by simp, fun _ => ⟨by simp, ?_⟩⟩
      intro j' hj; simp at hj; subst hj; exact hn
    | panic => cases hr
    | @cons _ _ _ x arr y r h h2 =>
      cases r with
      | none => cases hr
      | some q =>
        simp only [Option.map_some, Option.some.injEq] at hr
        subst hr
        obtain ⟨i1, i2, i3⟩ := ih h2
        have hd := (decodes_fits hE h _ _ rfl).2
        refine ⟨fun hf => by simp [i1 fun j hj => hf j (List.mem_cons_of_mem _ hj)], by simpa using i2, fun hn => ⟨?_, ?_⟩⟩
        · intro j' hj'
          simp only [List.take_succ_cons, List.mem_cons] at hj'
          rcases hj' with rfl | hj'
          · exact hd hn rfl
          · exact (i3 hn).1 j' hj'
        · intro j' hj'
          simp only [List.getElem?_cons_succ] at hj'
          exact (i3 hn).2 j' hj'

end Verif.Unjson
