import Verif.Proofs.ParseDoc

/-! Serialisation of represented trees, and the grammar of serialised trees. -/

namespace Verif.Njson
open Verif Verif.Spec

/-- the readable content behind a getter -/
def contOf (get : Nat → Option NodeD) (id : Nat) : Option Cont := (get id).map fun n => ⟨n.typ, n.raw, n.values.vis⟩

theorem doc_cont (d : Doc) : d.cont = contOf d.get := rfl

theorem contOf_some {get : Nat → Option NodeD} {id : Nat} {c : Cont} (h : contOf get id = some c) :
    ∃ n, get id = some n ∧ n.typ = c.typ ∧ n.raw = c.raw ∧ n.values.vis = c.vals := by
  unfold contOf at h
  cases hg : get id with
  | none => rw [hg] at h; simp at h
  | some n => rw [hg] at h; simp at h; subst h; exact ⟨n, rfl, rfl, rfl, rfl⟩

theorem serElems_cons (x : JVal) (y : JVal) (xs : List JVal) :
    serElems (x :: y :: xs) = x.ser ++ [44] ++ serElems (y :: xs) := by rw [serElems]; simp

theorem serMembers_cons (k : Bytes) (x : JVal) (m : Bytes × JVal) (ms : List (Bytes × JVal)) :
    serMembers ((k, x) :: m :: ms) = [34] ++ k ++ [34, 58] ++ x.ser ++ [44] ++ serMembers (m :: ms) := by
  rw [serMembers]; simp

/-- the text of the elements with a leading separator when `first` is false -/
def sepElems (first : Bool) (xs : List JVal) : Bytes := if first ∨ xs = [] then serElems xs else 44 :: serElems xs
def sepMembers (first : Bool) (ms : List (Bytes × JVal)) : Bytes :=
  if first ∨ ms = [] then serMembers ms else 44 :: serMembers ms

theorem sepElems_cons (first : Bool) (x : JVal) (xs : List JVal) :
    sepElems first (x :: xs) = (if first then [] else [44]) ++ x.ser ++ sepElems false xs := by
  cases xs with
  | nil => cases first <;> simp [sepElems, serElems]
  | cons y ys => cases first <;> simp [sepElems, serElems_cons]

theorem sepMembers_cons (first : Bool) (k : Bytes) (x : JVal) (ms : List (Bytes × JVal)) :
    sepMembers first ((k, x) :: ms) = (if first then [] else [44]) ++ [34] ++ k ++ [34, 58] ++ x.ser ++ sepMembers false ms := by
  cases ms with
  | nil => cases first <;> simp [sepMembers, serMembers]
  | cons y ys => cases first <;> simp [sepMembers, serMembers_cons]

theorem appendJSON_all (get : Nat → Option NodeD) :
    (∀ t : JVal, ∀ id, Reps (contOf get) t id → ∀ fuel, t.size ≤ fuel → ∀ dst,
      appendJSON get fuel dst id = some (dst ++ t.ser, false)) ∧
    (∀ xs, ∀ vs, RepsElems (contOf get) xs vs → ∀ fuel, sizeElems xs ≤ fuel → ∀ first dst,
      appendElems (appendJSON get fuel) vs first dst = some (dst ++ sepElems first xs, false)) ∧
    (∀ ms, ∀ vs, RepsMembers (contOf get) ms vs → ∀ fuel, sizeMembers ms ≤ fuel → ∀ first dst,
      appendMembers (appendJSON get fuel) vs first dst = some (dst ++ sepMembers first ms, false)) := by
  have scalar : ∀ {id : Nat} {typ : Typ} {raw : Bytes}, contOf get id = some ⟨typ, raw, []⟩ → typ ≠ tObject → typ ≠ tArray →
      typ ≠ tString → ∀ fuel, 1 ≤ fuel → ∀ dst, appendJSON get fuel dst id = some (dst ++ raw, false) := by
    intro id typ raw h h1 h2 h3 fuel hf dst
    obtain ⟨n, hn, e1, e2, e3⟩ := contOf_some h
    obtain ⟨f, rfl⟩ : ∃ f, fuel = f + 1 := ⟨fuel - 1, by omega⟩
    rw [appendJSON, hn]
    simp only
    rw [e1, e2, if_neg h1, if_neg h2, if_neg h3]
  apply jval_ind
  · intro id h fuel hf dst
    exact scalar h (by decide) (by decide) (by decide) fuel hf dst
  · intro b id h fuel hf dst
    cases b <;> exact scalar h (by decide) (by decide) (by decide) fuel hf dst
  · intro r id h fuel hf dst
    exact scalar h (by decide) (by decide) (by decide) fuel hf dst
  · intro r id h fuel hf dst
    obtain ⟨n, hn, e1, e2, e3⟩ := contOf_some h
    simp only [JVal.size] at hf
    obtain ⟨f, rfl⟩ : ∃ f, fuel = f + 1 := ⟨fuel - 1, by omega⟩
    rw [appendJSON, hn]
    simp only at e1 e2 ⊢
    rw [e1, e2, if_neg (by decide), if_neg (by decide), if_pos rfl]
    simp [JVal.ser]
  · intro xs ih id h fuel hf dst
    obtain ⟨vs, h, hr⟩ := h
    obtain ⟨n, hn, e1, e2, e3⟩ := contOf_some h
    simp only [JVal.size] at hf
    obtain ⟨f, rfl⟩ : ∃ f, fuel = f + 1 := ⟨fuel - 1, by omega⟩
    rw [appendJSON, hn]
    simp only at e1 e2 e3 ⊢
    rw [e1, e3, if_neg (by decide), if_pos rfl, ih vs hr f (by omega)]
    simp [JVal.ser, sepElems]
  · intro ms ih id h fuel hf dst
    obtain ⟨vs, h, hr⟩ := h
    obtain ⟨n, hn, e1, e2, e3⟩ := contOf_some h
    simp only [JVal.size] at hf
    obtain ⟨f, rfl⟩ : ∃ f, fuel = f + 1 := ⟨fuel - 1, by omega⟩
    rw [appendJSON, hn]
    simp only at e1 e2 e3 ⊢
    rw [e1, e3, if_pos rfl, ih vs hr f (by omega)]
    simp [JVal.ser, sepMembers]
  · intro vs h fuel hf first dst
    simp only [RepsElems] at h; subst h
    simp [appendElems, sepElems, serElems]
  · intro x xs ih1 ih2 vs h fuel hf first dst
    obtain ⟨id, vs', rfl, h1, h2⟩ := h
    simp only [sizeElems] at hf
    rw [appendElems, ih1 id h1 fuel (by omega)]
    simp only
    rw [ih2 vs' h2 fuel (by omega), sepElems_cons]
    cases first <;> simp
  · intro vs h fuel hf first dst
    simp only [RepsMembers] at h; subst h
    simp [appendMembers, sepMembers, serMembers]
  · intro k x xs ih1 ih2 vs h fuel hf first dst
    obtain ⟨id, vs', rfl, h1, h2⟩ := h
    simp only [sizeMembers] at hf
    rw [appendMembers, ih1 id h1 fuel (by omega)]
    simp only
    rw [ih2 vs' h2 fuel (by omega), sepMembers_cons]
    cases first <;> simp

theorem appendJSON_reps {get : Nat → Option NodeD} {t : JVal} {id : Nat} (h : Reps (contOf get) t id) {fuel : Nat}
    (hf : t.size ≤ fuel) (dst : Bytes) : appendJSON get fuel dst id = some (dst ++ t.ser, false) :=
  (appendJSON_all get).1 t id h fuel hf dst

/-! ## the compact text of a tree is in the grammar -/

theorem gval_allRaw {S K N : Bytes → Prop} {v : Bytes} {t : JVal} (h : GVal S K N v t) : AllRaw S K N t := by
  refine GVal.rec (motive_1 := fun _ t _ => AllRaw S K N t) (motive_2 := fun _ xs _ => AllRawElems S K N xs)
    (motive_3 := fun _ ms _ => AllRawMembers S K N ms) ?_ ?_ ?_ ?_ ?_ ?_ ?_ ?_ ?_ ?_ ?_ ?_ ?_ h
  all_goals intros
  all_goals simp_all [AllRaw, AllRawElems, AllRawMembers]

theorem ser_gval_all (S K N : Bytes → Prop) :
    (∀ t : JVal, AllRaw S K N t → GVal S K N t.ser t) ∧
    (∀ xs, AllRawElems S K N xs → xs ≠ [] → GElems S K N (serElems xs) xs) ∧
    (∀ ms, AllRawMembers S K N ms → ms ≠ [] → GMembers S K N (serMembers ms) ms) := by
  have wn : IsWs [] := IsWs.nil
  apply jval_ind
  · intro _; exact .null
  · intro b _; cases b
    · exact .false
    · exact .true
  · intro r h; exact .num h
  · intro r h; exact .str h
  · intro xs ih h
    by_cases hx : xs = []
    · subst hx; exact .arr0 wn
    · have := GVal.arr wn (ih h hx)
      simpa [JVal.ser] using this
  · intro xs ih h
    by_cases hx : xs = []
    · subst hx; exact .obj0 wn
    · have := GVal.obj wn (ih h hx)
      simpa [JVal.ser] using this
  · intro _ h; exact absurd rfl h
  · intro x xs h1 h2 h _
    cases xs with
    | nil =>
      have := GElems.one (h1 h.1) wn
      simpa [serElems] using this
    | cons y ys =>
      have := GElems.cons (h1 h.1) wn wn (h2 h.2 (by simp))
      rw [serElems_cons]
      simpa using this
  · intro _ h; exact absurd rfl h
  · intro k x xs h1 h2 h _
    cases xs with
    | nil =>
      have := GMembers.one h.1 wn wn (h1 h.2.1) wn
      simpa [serMembers] using this
    | cons y ys =>
      have := GMembers.cons h.1 wn wn (h1 h.2.1) wn wn (h2 h.2.2 (by simp))
      rw [serMembers_cons]
      simpa using this

/-- The compact text of a tree is a text of the tree. -/
theorem ser_gval {S K N : Bytes → Prop} {t : JVal} (h : AllRaw S K N t) : GVal S K N t.ser t := (ser_gval_all S K N).1 t h

theorem allRaw_mono_all {S K N S' K' N' : Bytes → Prop} (hS : ∀ s, S s → S' s) (hK : ∀ s, K s → K' s) (hN : ∀ s, N s → N' s) :
    (∀ t : JVal, AllRaw S K N t → AllRaw S' K' N' t) ∧
    (∀ xs, AllRawElems S K N xs → AllRawElems S' K' N' xs) ∧
    (∀ ms, AllRawMembers S K N ms → AllRawMembers S' K' N' ms) := by
  apply jval_ind
  · intro _; trivial
  · intro b _; trivial
  · intro r h; exact hN _ h
  · intro r h; exact hS _ h
  · intro xs ih h; exact ih h
  · intro xs ih h; exact ih h
  · intro _; trivial
  · intro x xs h1 h2 h; exact ⟨h1 h.1, h2 h.2⟩
  · intro _; trivial
  · intro k x xs h1 h2 h; exact ⟨hK _ h.1, h1 h.2.1, h2 h.2.2⟩

/-- Parsing the compact text of a tree with parsable strings, keys and numbers returns the tree. -/
theorem treeParse_ser {t : JVal} (h : AllRaw LenientStr EscBody LenientNum t) :
    treeParse t.ser = .ok t t.ser.length [] := by
  apply treeParse_ok_iff.2
  refine ⟨[], t.ser, by simp, IsWs.nil, ser_gval h, ?_, by simp⟩
  cases t <;> simp [NumFollow]

/-! ## RFC 8259 texts are in the parser's language -/

theorem rfcNumber_lenient {s : Bytes} (h : RfcNumber s) : LenientNum s := by
  obtain ⟨m, i, f, e, rfl, hm, hi, hf, he⟩ := h
  have dig : ∀ b : UInt8, IsDigitByte b → ¬ NumberEnd b := by
    intro b hb hn
    unfold IsDigitByte at hb
    unfold NumberEnd at hn
    rcases hn with h | h | h | h | h | h | h <;> subst h <;> simp at hb
  have hi' : i ≠ [] ∧ ∀ b ∈ i, IsDigitByte b := by
    rcases hi with rfl | ⟨h, _⟩
    · refine ⟨by simp, ?_⟩
      intro b hb; simp at hb; subst hb; exact ⟨by decide, by decide⟩
    · exact h
  constructor
  · rcases hm with rfl | rfl
    · cases i with
      | nil => exact absurd rfl hi'.1
      | cons c r => exact ⟨c, r ++ f ++ e, by simp, Or.inl (hi'.2 c (by simp))⟩
    · exact ⟨45, i ++ f ++ e, by simp, Or.inr rfl⟩
  · intro b hb
    simp only [List.mem_append] at hb
    rcases hb with ((hb | hb) | hb) | hb
    · rcases hm with rfl | rfl
      · simp at hb
      · simp at hb; subst hb; simp [NumberEnd]
    · exact dig b (hi'.2 b hb)
    · rcases hf with rfl | ⟨ds, rfl, hd⟩
      · simp at hb
      · rcases List.mem_cons.1 hb with rfl | hb
        · simp [NumberEnd]
        · exact dig b (hd.2 b hb)
    · rcases he with rfl | ⟨c, sg, ds, rfl, hc, hsg, hd⟩
      · simp at hb
      · rcases List.mem_cons.1 hb with rfl | hb
        · rcases hc with rfl | rfl <;> simp [NumberEnd]
        · rcases List.mem_append.1 hb with hb | hb
          · rcases hsg with rfl | rfl | rfl
            · simp at hb
            · simp at hb; subst hb; simp [NumberEnd]
            · simp at hb; subst hb; simp [NumberEnd]
          · exact dig b (hd.2 b hb)

theorem escBody_append_plain {p s : Bytes} (h : ∀ b ∈ p, b ≠ 34 ∧ b ≠ 92) (hs : EscBody s) : EscBody (p ++ s) := by
  induction p with
  | nil => exact hs
  | cons c p ih => exact .plain (h c (by simp)).1 (h c (by simp)).2 (ih fun b hb => h b (by simp [hb]))

theorem enc_plain {c : Char} (h : Unescapable c) : ∀ b ∈ enc c, b ≠ 34 ∧ b ≠ 92 := by
  intro b hb
  by_cases hc : c.toNat < 0x80
  · have : enc c = [UInt8.ofNat c.toNat] := by
      obtain ⟨c', h1, h2⟩ := StrJson.ascii_char (UInt8.ofNat c.toNat) (by simp; omega)
      have : c' = c := by
        apply Char.ext
        apply UInt32.toNat_inj.1
        have e1 : c'.val.toNat = c'.toNat := rfl
        have e2 : c.val.toNat = c.toNat := rfl
        rw [e1, e2, h1]; simp; omega
      rw [← this, h2, this]
    rw [this] at hb
    simp at hb
    subst hb
    obtain ⟨_, h2, h3⟩ := h
    constructor
    · intro he
      apply h2
      have := congrArg UInt8.toNat he
      simp at this; omega
    · intro he
      apply h3
      have := congrArg UInt8.toNat he
      simp at this; omega
  · have hge : ∀ b ∈ enc c, 0x80 ≤ b.toNat := by
      rw [← encodeRune_char]; exact encodeRune_high _ (by omega)
    have := hge b hb
    constructor <;> (rintro rfl; simp at this)

theorem hex_plain {h : Bytes} {n : Nat} (hh : IsHex4 h n) : ∀ b ∈ h, b ≠ 34 ∧ b ≠ 92 := by
  cases hh with
  | mk ha hb hc hd =>
    have : ∀ b : UInt8, ∀ v, hexVal b = some v → b ≠ 34 ∧ b ≠ 92 := by
      intro b v hv
      constructor <;> (rintro rfl; simp [hexVal] at hv)
    intro b hb'
    simp at hb'
    rcases hb' with rfl | rfl | rfl | rfl
    · exact this _ _ ha
    · exact this _ _ hb
    · exact this _ _ hc
    · exact this _ _ hd

theorem rfcBody_escBody {s : Bytes} (h : RfcBody s) : EscBody s := by
  induction h with
  | nil => exact .nil
  | char c hc _ ih => exact escBody_append_plain (enc_plain hc) ih
  | short _ _ ih => exact .esc _ ih
  | hex hh _ ih => exact .esc _ (escBody_append_plain (hex_plain hh) ih)

/-- the first quote of an escaped body comes right after a backslash that is itself not escaped -/
theorem escBody_quote {s : Bytes} (h : EscBody s) (hq : 34 ∈ s) : ∃ p q, s = p ++ [92, 34] ++ q ∧ 34 ∉ p ∧ EscBody q := by
  induction h with
  | nil => simp at hq
  | plain h1 h2 hs ih =>
    rename_i c s
    have : 34 ∈ s := by
      rcases List.mem_cons.1 hq with h | h
      · exact absurd h.symm h1
      · exact h
    obtain ⟨p, q, rfl, hp, hq⟩ := ih this
    exact ⟨c :: p, q, by simp, by simp [hp]; exact fun h => h1 h.symm, hq⟩
  | esc c hs ih =>
    rename_i s
    by_cases hc : c = 34
    · subst hc; exact ⟨[], s, by simp, by simp, hs⟩
    · have : 34 ∈ s := by simpa [Ne.symm hc] using hq
      obtain ⟨p, q, rfl, hp, hq⟩ := ih this
      exact ⟨92 :: c :: p, q, by simp, by simp [hp]; exact fun h => hc h.symm, hq⟩

theorem escBody_lenient {s : Bytes} (h : EscBody s) (hg : GoodEnd s) : LenientStr s := by
  by_cases hq : (34 : UInt8) ∈ s
  · exact Or.inr (escBody_quote h hq)
  · rcases hg with hg | hg
    · exact absurd hg hq
    · exact Or.inl ⟨hq, hg⟩

theorem gval_mono {S K N S' K' N' : Bytes → Prop} (hS : ∀ s, S s → S' s) (hK : ∀ s, K s → K' s) (hN : ∀ s, N s → N' s)
    {v : Bytes} {t : JVal} (h : GVal S K N v t) : GVal S' K' N' v t := by
  refine GVal.rec (motive_1 := fun v t _ => GVal S' K' N' v t) (motive_2 := fun b xs _ => GElems S' K' N' b xs)
    (motive_3 := fun b ms _ => GMembers S' K' N' b ms) ?_ ?_ ?_ ?_ ?_ ?_ ?_ ?_ ?_ ?_ ?_ ?_ ?_ h
  · exact .null
  · exact .true
  · exact .false
  · intro _ h; exact .num (hN _ h)
  · intro _ h; exact .str (hS _ h)
  · intro _ h; exact .arr0 h
  · intro _ _ _ h _ h2; exact .arr h h2
  · intro _ h; exact .obj0 h
  · intro _ _ _ h _ h2; exact .obj h h2
  · intro _ _ _ _ h1 h2; exact .one h2 h1
  · intro _ _ _ _ _ _ _ h1 h2 _ h4 h5; exact .cons h4 h1 h2 h5
  · intro _ _ _ _ _ _ h1 h2 h3 _ h5 h6; exact .one (hK _ h1) h2 h3 h6 h5
  · intro _ _ _ _ _ _ _ _ _ h1 h2 h3 _ h5 h6 _ h8 h9; exact .cons (hK _ h1) h2 h3 h8 h5 h6 h9

/-- conjunction of string predicates can be moved from the tree into the grammar -/
theorem gval_and {S K N S' K' N' : Bytes → Prop} {v : Bytes} {t : JVal} (h : GVal S K N v t) (h' : AllRaw S' K' N' t) :
    GVal (fun s => S s ∧ S' s) (fun s => K s ∧ K' s) (fun s => N s ∧ N' s) v t := by
  revert h'
  refine GVal.rec (motive_1 := fun v t _ => AllRaw S' K' N' t → GVal (fun s => S s ∧ S' s) (fun s => K s ∧ K' s) (fun s => N s ∧ N' s) v t)
    (motive_2 := fun b xs _ => AllRawElems S' K' N' xs → GElems (fun s => S s ∧ S' s) (fun s => K s ∧ K' s) (fun s => N s ∧ N' s) b xs)
    (motive_3 := fun b ms _ => AllRawMembers S' K' N' ms → GMembers (fun s => S s ∧ S' s) (fun s => K s ∧ K' s) (fun s => N s ∧ N' s) b ms)
    ?_ ?_ ?_ ?_ ?_ ?_ ?_ ?_ ?_ ?_ ?_ ?_ ?_ h
  · intro _; exact .null
  · intro _; exact .true
  · intro _; exact .false
  · intro _ h h'; exact .num ⟨h, h'⟩
  · intro _ h h'; exact .str ⟨h, h'⟩
  · intro _ h _; exact .arr0 h
  · intro _ _ _ h _ h2 h'; exact .arr h (h2 h')
  · intro _ h _; exact .obj0 h
  · intro _ _ _ h _ h2 h'; exact .obj h (h2 h')
  · intro _ _ _ _ h1 h2 h'; exact .one (h2 h'.1) h1
  · intro _ _ _ _ _ _ _ h1 h2 _ h4 h5 h'; exact .cons (h4 h'.1) h1 h2 (h5 h'.2)
  · intro _ _ _ _ _ _ h1 h2 h3 _ h5 h6 h'; exact .one ⟨h1, h'.1⟩ h2 h3 (h6 h'.2.1) h5
  · intro _ _ _ _ _ _ _ _ _ h1 h2 h3 _ h5 h6 _ h8 h9 h'; exact .cons ⟨h1, h'.1⟩ h2 h3 (h8 h'.2.1) h5 h6 (h9 h'.2.2)

end Verif.Njson

namespace Verif.Njson
open Verif Verif.Spec

/-! ## child ids of the layout -/

theorem elemRefs_range : ∀ (xs : List JVal) (base : Nat) (v : V), v ∈ elemRefs base xs → base ≤ v.id ∧ v.id < base + sizeElems xs
  | [], _, _, h => by simp [elemRefs] at h
  | x :: xs, base, v, h => by
    simp only [elemRefs, List.mem_cons] at h
    simp only [sizeElems]
    rcases h with rfl | h
    · have := size_pos x; simp; omega
    · have := elemRefs_range xs _ v h; omega

theorem memberRefs_range : ∀ (xs : List (Bytes × JVal)) (base : Nat) (v : V), v ∈ memberRefs base xs →
    base ≤ v.id ∧ v.id < base + sizeMembers xs
  | [], _, _, h => by simp [memberRefs] at h
  | (k, x) :: xs, base, v, h => by
    simp only [memberRefs, List.mem_cons] at h
    simp only [sizeMembers]
    rcases h with rfl | h
    · have := size_pos x; simp; omega
    · have := memberRefs_range xs _ v h; omega

theorem getElem?_append_cases {α : Type} {l m : List α} {j : Nat} {a : α} (h : (l ++ m)[j]? = some a) :
    (j < l.length ∧ l[j]? = some a) ∨ ∃ k, j = l.length + k ∧ m[k]? = some a := by
  by_cases hj : j < l.length
  · left; rw [List.getElem?_append_left hj] at h; exact ⟨hj, h⟩
  · right; rw [List.getElem?_append_right (by omega)] at h; exact ⟨j - l.length, by omega, h⟩

theorem flat_range_all :
    (∀ t : JVal, ∀ base j a, (flat base t)[j]? = some a → ∀ v ∈ a.vals, base + j < v.id ∧ v.id < base + t.size) ∧
    (∀ xs, ∀ base j a, (flatElems base xs)[j]? = some a → ∀ v ∈ a.vals, base + j < v.id ∧ v.id < base + sizeElems xs) ∧
    (∀ ms, ∀ base j a, (flatMembers base ms)[j]? = some a → ∀ v ∈ a.vals, base + j < v.id ∧ v.id < base + sizeMembers ms) := by
  have leaf : ∀ {typ : Typ} {raw : Bytes} {root : Bool} {j : Nat} {a : ANode}, [(⟨typ, root, raw, []⟩ : ANode)][j]? = some a → a.vals = [] := by
    intro typ raw root j a h
    cases j with
    | zero => simp at h; rw [← h]
    | succ j => simp at h
  apply jval_ind
  · intro base j a h v hv; rw [leaf h] at hv; simp at hv
  · intro b base j a h v hv; cases b <;> (rw [leaf h] at hv; simp at hv)
  · intro r base j a h v hv; rw [leaf h] at hv; simp at hv
  · intro r base j a h v hv; rw [leaf h] at hv; simp at hv
  · intro xs ih base j a h v hv
    simp only [JVal.size]
    cases j with
    | zero =>
      simp only [flat, List.getElem?_cons_zero, Option.some.injEq] at h
      subst h
      have := elemRefs_range xs _ v hv; omega
    | succ j =>
      simp only [flat, List.getElem?_cons_succ] at h
      have := ih _ j a h v hv; omega
  · intro xs ih base j a h v hv
    simp only [JVal.size]
    cases j with
    | zero =>
      simp only [flat, List.getElem?_cons_zero, Option.some.injEq] at h
      subst h
      have := memberRefs_range xs _ v hv; omega
    | succ j =>
      simp only [flat, List.getElem?_cons_succ] at h
      have := ih _ j a h v hv; omega
  · intro base j a h; simp [flatElems] at h
  · intro x xs ih1 ih2 base j a h v hv
    simp only [flatElems] at h
    simp only [sizeElems]
    rcases getElem?_append_cases h with ⟨_, h'⟩ | ⟨k, rfl, h'⟩
    · have := ih1 base j a h' v hv; omega
    · have := ih2 _ k a h' v hv; rw [flat_length]; omega
  · intro base j a h; simp [flatMembers] at h
  · intro key x xs ih1 ih2 base j a h v hv
    simp only [flatMembers] at h
    simp only [sizeMembers]
    rcases getElem?_append_cases h with ⟨_, h'⟩ | ⟨k, rfl, h'⟩
    · have := ih1 base j a h' v hv; omega
    · have := ih2 _ k a h' v hv; rw [flat_length]; omega

theorem view_range {d : Doc} {old : List ANode} {t : JVal} {k : Nat} (hk : old.length = k)
    (h : d.view = old ++ rootHead (flat k t)) {id : Nat} {c : Cont} (hid : k ≤ id) (hc : d.cont id = some c) :
    ∀ v ∈ c.vals, id < v.id ∧ v.id < k + t.size := by
  intro v hv
  rw [cont_eq_view, h, List.getElem?_append_right (by omega), rootHead_cont] at hc
  cases hx : (flat k t)[id - old.length]? with
  | none => rw [hx] at hc; simp at hc
  | some a =>
    rw [hx] at hc
    simp at hc
    subst hc
    have := flat_range_all.1 t k _ a hx v hv
    omega

end Verif.Njson
