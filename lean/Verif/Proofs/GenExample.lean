import Verif.Proofs.GenText
import Verif.Proofs.UnExample

/-! # A package for examples of generated code -/

namespace Verif.Gen
open Verif Verif.Float Verif.Spec Verif.Njson Verif.Unjson

/-- The struct types:
* 0 is `struct { A int "a"; B string "b,omitempty"; P *T1; M map[int]bool "m"; *T2; L []float64 "l" }`
* 1 is `struct { X bool }`, 2 is `struct { Y uint }`
* 3 is recursive: `struct { Next *T3 "next" }`
* 4 is `struct { V interface{} }`, 5 is `struct { V *int }`, 6 is `struct { V S }`, 8 is `struct { V T7 }`, 9 is `struct { M map[string]int "m" }`,
  10 is `struct { V chan int }`, 13 is `struct { V T7 "v,omitempty" }`, 14 is `struct { D time.Duration }`, 15 is `struct { Q string "q" }`, raw under the key alt
* 7 and 12 are `struct {}`; 12 has a method `AppendJSON`, and 11 embeds it
* 16 is `struct { A int "x"; B string "x" }`
* 17 is `struct { L []int "l" }`, 18 is `struct { M map[int]bool "m" }`, 19 is `struct { M map[string]bool "m"; P *T1 "p"; S string "s" }`
* 20 embeds a pointer to type 2: `struct { *T2; Z bool "z" }`
* 21 is `struct { A int8 "a"; V T1 "v" }`
Defined type 0 is `type S string`, 1 is `time.Duration`. -/
def genFields : Nat → List Field
  | 0 => [fld b!"A" (.int .std) b!"a", fld b!"B" .string b!"b,omitempty", fld b!"P" (.ptr (.struct 1)), fld b!"M" (.map (.int .std) .bool) b!"m",
      fld b!"T2" (.ptr (.struct 2)) [] true, fld b!"L" (.slice (.float .b64)) b!"l"]
  | 1 => [fld b!"X" .bool]
  | 2 => [fld b!"Y" (.uint .std)]
  | 3 => [fld b!"Next" (.ptr (.struct 3)) b!"next"]
  | 4 => [fld b!"V" .any]
  | 5 => [fld b!"V" (.ptr (.int .std))]
  | 6 => [fld b!"V" (.named 0)]
  | 8 => [fld b!"V" (.struct 7)]
  | 9 => [fld b!"M" (.map .string (.int .std)) b!"m"]
  | 10 => [fld b!"V" .other]
  | 11 => [fld b!"T12" (.struct 12) [] true]
  | 13 => [fld b!"V" (.struct 7) b!"v,omitempty"]
  | 14 => [fld b!"D" (.named 1)]
  | 15 => [fld b!"Q" .string b!"q"]
  | 16 => [fld b!"A" (.int .std) b!"x", fld b!"B" .string b!"x"]
  | 17 => [fld b!"L" (.slice (.int .std)) b!"l"]
  | 18 => [fld b!"M" (.map (.int .std) .bool) b!"m"]
  | 19 => [fld b!"M" (.map .string .bool) b!"m", fld b!"P" (.ptr (.struct 1)) b!"p", fld b!"S" .string b!"s"]
  | 20 => [fld b!"T2" (.ptr (.struct 2)) [] true, fld b!"Z" .bool b!"z"]
  | 21 => [fld b!"A" (.int .b8) b!"a", fld b!"V" (.struct 1) b!"v"]
  | _ => []

def genZero : Nat → GV
  | 0 => .struct [.int 0, .str [], .nilPtr, .nilMap, .nilPtr, .nilSlice]
  | 1 => .struct [.bool false]
  | 2 => .struct [.uint 0]
  | 3 => .struct [.nilPtr]
  | 4 => .struct [.nilIface]
  | 5 => .struct [.nilPtr]
  | 6 => .struct [.str []]
  | 8 => .struct [.struct []]
  | 9 => .struct [.nilMap]
  | 10 => .struct [.opaque]
  | 11 => .struct [.struct []]
  | 13 => .struct [.struct []]
  | 14 => .struct [.int 0]
  | 15 => .struct [.str []]
  | 16 => .struct [.int 0, .str []]
  | 17 => .struct [.nilSlice]
  | 18 => .struct [.nilMap]
  | 19 => .struct [.nilMap, .nilPtr, .str []]
  | 20 => .struct [.nilPtr, .bool false]
  | 21 => .struct [.int 0, .struct [.bool false]]
  | _ => .struct []

def genU : Univ where
  fields := genFields
  under := fun i => match i with | 0 => .string | _ => .int .b64
  zeroStruct := genZero
  zeroNamed := fun i => match i with | 0 => .str [] | _ => .int 0
  impl := fun t m => decide ((t = .struct 11 ∨ t = .ptr (.struct 11) ∨ t = .struct 12 ∨ t = .ptr (.struct 12)) ∧ m = .appender)
  appendJSON := fun _ _ b => (b ++ b!"0", false)
  marshal := fun _ _ _ => none
  unmarshalNode := fun _ v _ _ => (v, true)
  unmarshal := fun _ _ v _ => (v, true)
  omitMethod := fun _ _ => none
  -- only good for zero
  fmtFloat := fun f bits c => if bits = 32 && f32Over f then (match f with | .num true _ => b!"-Inf" | _ => b!"+Inf") else match f with
    | .nan => b!"NaN"
    | .num true .inf => b!"-Inf"
    | .num false .inf => b!"+Inf"
    | .num _ (.fin _ _) => if c = 101 then b!"0e+00" else b!"0"
  atof := fun _ => none

/-- A field that is no embedded struct, at position `i` -/
def gfld (n : Bytes) (t : Ty) (i : Nat) (tag : Bytes := []) : GField :=
  ⟨n, true, t, [i], if tag = [] then [] else b!"json:\"" ++ tag ++ b!"\""⟩

def genGroups : Nat → List (List GField)
  | 0 => [[gfld b!"A" (.int .std) 0 b!"a"], [gfld b!"B" .string 1 b!"b,omitempty"], [gfld b!"P" (.ptr (.struct 1)) 2],
      [gfld b!"M" (.map (.int .std) .bool) 3 b!"m"], [⟨b!"Y", true, .uint .std, [4, 0], []⟩], [gfld b!"L" (.slice (.float .b64)) 5 b!"l"]]
  | 1 => [[gfld b!"X" .bool 0]]
  | 2 => [[gfld b!"Y" (.uint .std) 0]]
  | 3 => [[gfld b!"Next" (.ptr (.struct 3)) 0 b!"next"]]
  | 4 => [[gfld b!"V" .any 0]]
  | 5 => [[gfld b!"V" (.ptr (.int .std)) 0]]
  | 6 => [[gfld b!"V" (.named 0) 0]]
  | 8 => [[gfld b!"V" (.struct 7) 0]]
  | 9 => [[gfld b!"M" (.map .string (.int .std)) 0 b!"m"]]
  | 10 => [[gfld b!"V" .other 0]]
  | 13 => [[gfld b!"V" (.struct 7) 0 b!"v,omitempty"]]
  | 14 => [[gfld b!"D" (.named 1) 0]]
  | 15 => [[gfld b!"Q" .string 0 b!"q\" alt:\"q,raw"]]
  | 16 => [[gfld b!"A" (.int .std) 0 b!"x"], [gfld b!"B" .string 1 b!"x"]]
  | 17 => [[gfld b!"L" (.slice (.int .std)) 0 b!"l"]]
  | 18 => [[gfld b!"M" (.map (.int .std) .bool) 0 b!"m"]]
  | 19 => [[gfld b!"M" (.map .string .bool) 0 b!"m"], [gfld b!"P" (.ptr (.struct 1)) 1 b!"p"], [gfld b!"S" .string 2 b!"s"]]
  | 20 => [[⟨b!"Y", true, .uint .std, [0, 0], []⟩], [gfld b!"Z" .bool 1 b!"z"]]
  | 21 => [[gfld b!"A" (.int .b8) 0 b!"a"], [gfld b!"V" (.struct 1) 1 b!"v"]]
  | _ => []

/-- The tags that occur. -/
def genTags (key : Bytes) : List (Bytes × Bytes × List Bytes) :=
  if key = b!"alt" then [(b!"json:\"q\" alt:\"q,raw\"", b!"q", [b!"raw"])]
  else
    [(b!"json:\"a\"", b!"a", []), (b!"json:\"b,omitempty\"", b!"b", [b!"omitempty"]), (b!"json:\"m\"", b!"m", []), (b!"json:\"l\"", b!"l", []),
     (b!"json:\"next\"", b!"next", []), (b!"json:\"v,omitempty\"", b!"v", [b!"omitempty"]), (b!"json:\"q\" alt:\"q,raw\"", b!"q", []),
     (b!"json:\"x\"", b!"x", []), (b!"json:\"p\"", b!"p", []), (b!"json:\"s\"", b!"s", []), (b!"json:\"z\"", b!"z", []),
     (b!"json:\"v\"", b!"v", [])]

def genE : Env where
  U := genU
  fields := genGroups
  parseTag := fun tag key => ((genTags key).find? fun p => p.1 = tag).map Prod.snd
  isTime := fun _ => false
  isDuration := fun t => t = .named 1
  parseTime := fun _ => none
  here := fun _ => true

theorem genU_ok : genU.Ok where
  under_base := by intro i j; unfold genU; dsimp only; split <;> simp
  under_struct := by intro i j; unfold genU; dsimp only; split <;> simp
  zero_struct := by
    intro i
    unfold genU genZero genFields
    dsimp only
    split <;> simp [fld, Univ.zero]
  zero_named := by
    intro i
    unfold genU
    dsimp only
    split <;> simp [Univ.zero]

theorem genE_mem {j : Nat} {f : GField} (h : f ∈ (genE.fields j).flatten) :
    (pathTy genU (.struct j) f.path = some f.typ ∧ f.path ≠ []) ∧
      ∀ pre post t e, f.path = pre ++ post → post ≠ [] → pathTy genU (.struct j) pre = some t → genU.base t = .ptr e → t = .ptr e := by
  have key : ∀ {p : List Nat} {t0 t1 : Ty}, (∃ i, p = [i]) ∨ (∃ i k, p = [i, k] ∧ ∀ t e, pathTy genU t0 [i] = some t → genU.base t = .ptr e → t = .ptr e) →
      (∀ e, genU.base t0 ≠ .ptr e) → ∀ pre post t e, p = pre ++ post → post ≠ [] → pathTy genU t0 pre = some t → genU.base t = .ptr e → t = .ptr e := by
    intro p t0 t1 hp h0 pre post t e he hne ht hb
    cases pre with
    | nil => cases ht; exact absurd hb (h0 e)
    | cons i pre =>
      cases pre with
      | nil =>
        rcases hp with ⟨k, rfl⟩ | ⟨i', k, rfl, h⟩
        · simp at he; exact absurd he.2 hne
        · simp at he; obtain ⟨rfl, -⟩ := he; exact h t e ht hb
      | cons i2 pre =>
        rcases hp with ⟨k, rfl⟩ | ⟨i', k, rfl, h⟩
        · simp at he
        · simp at he; exact absurd he.2.2.2 hne
  refine ⟨?_, key (t1 := .bool) ?_ (by simp [Univ.base])⟩
  · unfold genE genGroups at h
    dsimp only at h
    split at h <;> simp at h
    all_goals first
      | (subst h; exact ⟨by decide +kernel, by simp [gfld]⟩)
      | (rcases h with rfl | rfl | rfl | rfl | rfl | rfl <;> exact ⟨by decide +kernel, by simp [gfld]⟩)
  · unfold genE genGroups at h
    dsimp only at h
    split at h <;> simp at h
    all_goals first
      | (subst h; exact .inl ⟨_, rfl⟩)
      | (rcases h with rfl | rfl | rfl | rfl | rfl | rfl <;> first
          | exact .inl ⟨_, rfl⟩
          | exact .inr ⟨_, _, rfl, fun t e h hb => by
              have : pathTy genU (.struct 0) [4] = some (.ptr (.struct 2)) := by decide +kernel
              rw [this] at h; cases h; cases hb; rfl⟩
          | exact .inr ⟨_, _, rfl, fun t e h hb => by
              have : pathTy genU (.struct 20) [0] = some (.ptr (.struct 2)) := by decide +kernel
              rw [this] at h; cases h; cases hb; rfl⟩)

theorem genE_ok : genE.Ok where
  univ := genU_ok
  path := fun j f h => (genE_mem h).1.1
  nonempty := fun j f h => (genE_mem h).1.2
  embeds := fun j f pre post t e h => (genE_mem h).2 pre post t e
  methods := by
    intro t m h _ hp
    simp only [genE, genU, decide_eq_true_eq] at h ⊢
    obtain ⟨h, hm⟩ := h
    refine ⟨?_, hm⟩
    rcases h with rfl | rfl | rfl | rfl
    · exact .inr (.inl rfl)
    · exact absurd rfl (hp (.struct 11))
    · exact .inr (.inr (.inr rfl))
    · exact absurd rfl (hp (.struct 12))
  ptrPtr := by
    intro t e m hb
    simp only [genE, genU, decide_eq_false_iff_not]
    rintro ⟨h, -⟩
    rcases h with h | h | h | h <;> cases h <;> cases hb
  namedPtr := by
    intro i e m hb
    simp [genE, genU]

theorem genU_floats : Floats64 genU where
  plain := by
    intro neg m e
    have : genU.fmtFloat (.num neg (.fin m e)) 64 102 = b!"0" := by cases neg <;> rfl
    rw [this]
    exact ⟨⟨false, b!"0", none, none⟩, ⟨⟨by simp, by unfold IsDigitByte; decide⟩, by simp, by simp⟩, .inl rfl, rfl, rfl⟩
  exp := by
    intro neg m e
    have : genU.fmtFloat (.num neg (.fin m e)) 64 101 = b!"0e+00" := by cases neg <;> rfl
    rw [this]
    refine ⟨⟨false, b!"0", none, some (101, [43], b!"00")⟩, 43, b!"00", ⟨⟨by simp, by unfold IsDigitByte; decide⟩, by simp, ?_⟩, .inl rfl, rfl, by decide, rfl⟩
    intro c sg ds h
    cases h
    exact ⟨.inl rfl, by simp, by simp, by unfold IsDigitByte; decide⟩
  inf := by intro neg c; cases neg <;> rfl
  nan := fun c => rfl

theorem genU_goFloats : genU.GoFloats where
  plain := by
    intro neg m e hi
    have : genU.fmtFloat (.num neg (.fin m e)) 32 102 = b!"0" := by cases neg <;> simp [genU, f32Over, hi]
    rw [this]
    exact ⟨⟨false, b!"0", none, none⟩, ⟨⟨by simp, by unfold IsDigitByte; decide⟩, by simp, by simp⟩, .inl rfl, rfl, rfl⟩
  exp := by
    intro neg m e hi
    have : genU.fmtFloat (.num neg (.fin m e)) 32 101 = b!"0e+00" := by cases neg <;> simp [genU, f32Over, hi]
    rw [this]
    refine ⟨⟨false, b!"0", none, some (101, [43], b!"00")⟩, 43, b!"00", ⟨⟨by simp, by unfold IsDigitByte; decide⟩, by simp, ?_⟩, .inl rfl, rfl, by decide, rfl⟩
    intro c sg ds h
    cases h
    exact ⟨.inl rfl, by simp, by simp, by unfold IsDigitByte; decide⟩
  over := by
    intro neg m e c hi
    cases neg <;> simp [genU, f32Over, hi]
  single := by
    intro neg m e c
    have h := toF32_idem (.fin m e)
    cases hq : NumJson.toF32 (.fin m e) with
    | inf => cases neg <;> simp [genU, f32Over, hq]
    | fin m' e' => rw [hq] at h; cases neg <;> simp [genU, f32Over, hq, h]

theorem genU_omit : genU.NoOmitMethod := fun _ _ => rfl

theorem genU_embeds : genU.EmbedsStructs := by
  intro j f e hf ha hb
  have : f.anon = true → ∃ k, f.typ = .struct k ∨ f.typ = .ptr (.struct k) := by
    unfold genU genFields at hf
    dsimp only at hf
    split at hf <;> simp at hf
    all_goals rcases hf with rfl | rfl | rfl | rfl | rfl | rfl <;> simp [fld]
  obtain ⟨k, h | h⟩ := this ha
  · rw [h] at hb; cases hb
  · rw [h] at hb; cases hb; exact ⟨k, rfl⟩

theorem genU_hooks : Hooks genU where
  iface := by
    intro t m i hb
    have : ∀ m', genU.impl t m' = false := by
      intro m'
      simp only [genU, decide_eq_false_iff_not]
      rintro ⟨h, -⟩
      rcases h with rfl | rfl | rfl | rfl <;> cases hb
    exact ⟨this _, this _, this _⟩
  same := fun _ _ _ => rfl
  append := by
    intro t v _ _
    refine .inl ⟨.num b!"0", ⟨[], b!"0", [], [], rfl, .inl rfl, .inl rfl, .inl rfl, .inl rfl⟩, fun out => ?_⟩
    rw [ser_num]
    rfl
  json := by intro t v s h; simp [genU] at h

theorem genU_texts : PlainTexts genU := by intro t v s h; simp [genU] at h

/-- What the names and parameters of the fields are. -/
def genNames : List (Bytes × List Bytes) :=
  [(b!"a", []), (b!"b", [b!"omitempty"]), (b!"P", []), (b!"m", []), (b!"Y", []), (b!"l", []), (b!"X", []), (b!"next", []), (b!"V", []),
   (b!"v", [b!"omitempty"]), (b!"D", []), (b!"q", []), (b!"x", []), (b!"p", []), (b!"s", []), (b!"z", []), (b!"v", [])]

theorem genE_names (j : Nat) (f : GField) (h : f ∈ (genE.fields j).flatten) : ∀ p, parseField genE {} f = some p → p ∈ genNames := by
  unfold genE genGroups at h
  dsimp only at h
  have key : ∀ {f : GField}, (match parseField genE {} f with | some p => decide (p ∈ genNames) | none => true) = true →
      ∀ p, parseField genE {} f = some p → p ∈ genNames := by
    intro f h p hp
    rw [hp] at h
    simpa using h
  split at h <;> simp at h
  all_goals first
    | (subst h; exact key (by decide +kernel))
    | (rcases h with rfl | rfl | rfl | rfl | rfl | rfl <;> exact key (by decide +kernel))

theorem genE_plain : PlainNames genE {} := by
  intro j p hp
  obtain ⟨h1, h2⟩ := mem_appendPicks hp
  have h3 := genE_names j _ h1 _ h2
  have h4 : ∀ q ∈ genNames, (∀ c ∈ q.1, 32 ≤ c ∧ c < 127 ∧ c ≠ 34 ∧ c ≠ 92) ∧ b!"raw" ∉ q.2 := by decide +kernel
  obtain ⟨h5, h6⟩ := h4 _ h3
  exact ⟨rfcBody_plain _ h5, h6⟩

end Verif.Gen
