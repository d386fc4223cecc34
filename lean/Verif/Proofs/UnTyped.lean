import Verif.Spec.UnDecode
import Verif.Proofs.UnEncode
import Verif.Proofs.Flat

/-! # Decoding preserves types -/

namespace Verif.Unjson
open Verif Verif.Float Verif.Spec Verif.Njson

section
variable {U : Univ} {t : Ty} {v : GV}

theorem HasTy.congr {t' : Ty} (h : HasTy U t v) (hb : U.base t' = U.base t) : HasTy U t' v := by
  cases h with
  | bool h1 => exact .bool (hb.trans h1)
  | int h1 h2 h3 => exact .int (hb.trans h1) h2 h3
  | uint h1 h2 => exact .uint (hb.trans h1) h2
  | float h1 => exact .float (hb.trans h1)
  | str h1 => exact .str (hb.trans h1)
  | nilPtr h1 => exact .nilPtr (hb.trans h1)
  | ptr h1 h2 => exact .ptr (hb.trans h1) h2
  | nilSlice h1 => exact .nilSlice (hb.trans h1)
  | slice h1 h2 h3 => exact .slice (hb.trans h1) h2 h3
  | array h1 h2 h3 => exact .array (hb.trans h1) h2 h3
  | nilMap h1 => exact .nilMap (hb.trans h1)
  | map h1 h2 h3 => exact .map (hb.trans h1) h2 h3
  | nilIface h1 => exact .nilIface (hb.trans h1)
  | iface h1 h2 => exact .iface (hb.trans h1) h2
  | struct h1 h2 h3 => exact .struct (hb.trans h1) h2 h3
  | «opaque» h1 => exact .opaque (hb.trans h1)

theorem HasTy.inv_bool (h : HasTy U t v) (hb : U.base t = .bool) : ∃ b, v = .bool b := by
  cases h <;> simp_all
theorem HasTy.inv_int {k : IKind} (h : HasTy U t v) (hb : U.base t = .int k) : ∃ i, v = .int i := by
  cases h <;> simp_all
theorem HasTy.inv_uint {k : IKind} (h : HasTy U t v) (hb : U.base t = .uint k) : ∃ i, v = .uint i := by
  cases h <;> simp_all
theorem HasTy.inv_float {k : FKind} (h : HasTy U t v) (hb : U.base t = .float k) : ∃ i, v = .float i := by
  cases h <;> simp_all
theorem HasTy.inv_str (h : HasTy U t v) (hb : U.base t = .string) : ∃ i, v = .str i := by
  cases h <;> simp_all
theorem HasTy.inv_ptr {e : Ty} (h : HasTy U t v) (hb : U.base t = .ptr e) : v = .nilPtr ∨ ∃ x, v = .ptr x ∧ HasTy U e x := by
  cases h <;> simp_all
theorem HasTy.inv_slice {e : Ty} (h : HasTy U t v) (hb : U.base t = .slice e) :
    v = .nilSlice ∨ ∃ arr len, v = .slice arr len ∧ len ≤ arr.length ∧ ∀ x ∈ arr, HasTy U e x := by
  cases h with
  | nilSlice => exact .inl rfl
  | slice h1 h2 h3 => rw [hb] at h1; cases h1; exact .inr ⟨_, _, rfl, h2, h3⟩
  | _ => simp_all
theorem HasTy.inv_array {n : Nat} {e : Ty} (h : HasTy U t v) (hb : U.base t = .array n e) :
    ∃ xs, v = .array xs ∧ xs.length = n ∧ ∀ x ∈ xs, HasTy U e x := by
  cases h with
  | array h1 h2 h3 => rw [hb] at h1; cases h1; exact ⟨_, rfl, h2, h3⟩
  | _ => simp_all
theorem HasTy.inv_map {k e : Ty} (h : HasTy U t v) (hb : U.base t = .map k e) :
    v = .nilMap ∨ ∃ es, v = .map es ∧ (∀ p ∈ es, HasTy U k p.1) ∧ ∀ p ∈ es, HasTy U e p.2 := by
  cases h with
  | nilMap => exact .inl rfl
  | map h1 h2 h3 => rw [hb] at h1; cases h1; exact .inr ⟨_, rfl, h2, h3⟩
  | _ => simp_all
theorem HasTy.inv_struct {j : Nat} (h : HasTy U t v) (hb : U.base t = .struct j) :
    ∃ fs, v = .struct fs ∧ fs.length = (U.fields j).length ∧
      ∀ (i : Nat) f x, (U.fields j)[i]? = some f → fs[i]? = some x → HasTy U f.typ x := by
  cases h with
  | struct h1 h2 h3 => rw [hb] at h1; cases h1; exact ⟨_, rfl, h2, h3⟩
  | _ => simp_all
end

/-! ## Zero values -/

theorem base_base {U : Univ} (hU : U.Ok) (i : Nat) : U.base (U.under i) = U.under i := by
  cases h : U.under i <;> first | rfl | exact absurd h (hU.under_base i _)

theorem zero_named' {U : Univ} (hU : U.Ok) (i : Nat) : U.zero (.named i) = U.zero (U.under i) := by
  rw [← hU.zero_named]; rfl

theorem zero_hasTy {U : Univ} (hU : U.Ok) : ∀ (n : Nat) (t : Ty), sizeOf (U.zero t) ≤ n → HasTy U t (U.zero t) := by
  intro n
  induction n using Nat.strongRecOn with
  | ind n ih =>
    have main : ∀ t, (∀ i, t ≠ .named i) → sizeOf (U.zero t) ≤ n → HasTy U t (U.zero t) := by
      intro t hn hs
      cases t with
      | bool => exact .bool rfl
      | int k => exact .int (k := k) rfl (by cases k <;> decide) (by cases k <;> decide)
      | uint k => exact .uint (k := k) rfl (by cases k <;> decide)
      | float k => exact .float (k := k) rfl
      | string => exact .str rfl
      | ptr e => exact .nilPtr rfl
      | slice e => exact .nilSlice rfl
      | array m e =>
        refine .array (e := e) rfl (by simp) ?_
        intro x hx
        rw [List.mem_replicate] at hx
        obtain ⟨hm, rfl⟩ := hx
        simp only [Univ.zero] at hs
        have h1 : U.zero e ∈ List.replicate m (U.zero e) := List.mem_replicate.2 ⟨hm, rfl⟩
        have h2 := List.sizeOf_lt_of_mem h1
        have : sizeOf (GV.array (List.replicate m (U.zero e))) = 1 + sizeOf (List.replicate m (U.zero e)) := by simp
        exact ih (sizeOf (U.zero e)) (by omega) e (Nat.le_refl _)
      | map k e => exact .nilMap rfl
      | iface m i => exact .nilIface rfl
      | struct i =>
        have hz : U.zero (.struct i) = .struct ((U.fields i).map fun f => U.zero f.typ) := hU.zero_struct i
        rw [hz] at hs ⊢
        refine .struct (j := i) rfl (by simp) ?_
        intro i' f v hf hv
        rw [List.getElem?_map, hf] at hv
        simp only [Option.map_some, Option.some.injEq] at hv
        subst hv
        have h1 : U.zero f.typ ∈ (U.fields i).map fun f => U.zero f.typ := List.mem_map.2 ⟨f, List.mem_of_getElem? hf, rfl⟩
        have h2 := List.sizeOf_lt_of_mem h1
        have : sizeOf (GV.struct ((U.fields i).map fun f => U.zero f.typ)) = 1 + sizeOf ((U.fields i).map fun f => U.zero f.typ) := by simp
        exact ih (sizeOf (U.zero f.typ)) (by omega) f.typ (Nat.le_refl _)
      | other => exact .opaque rfl
      | named i => exact absurd rfl (hn i)
    intro t hs
    by_cases h : ∃ i, t = .named i
    · obtain ⟨i, rfl⟩ := h
      rw [zero_named' hU] at hs ⊢
      exact (main _ (hU.under_base i) hs).congr (base_base hU i).symm
    · exact main t (fun i hi => h ⟨i, hi⟩) hs

theorem hasTy_zero {U : Univ} (hU : U.Ok) (t : Ty) : HasTy U t (U.zero t) := zero_hasTy hU _ t (Nat.le_refl _)

theorem base_struct {U : Univ} (hU : U.Ok) {t : Ty} {j : Nat} (h : U.base t = .struct j) : t = .struct j := by
  cases t <;> first | exact h | (rename_i i; exact absurd h (hU.under_struct i j))

theorem zero_base {U : Univ} (hU : U.Ok) (t : Ty) : U.zero t = U.zero (U.base t) := by
  cases t <;> first | rfl | exact zero_named' hU _

/-! ## Paths -/

theorem sub_field {fs : List GV} {i : Nat} {is : List Int} {x : GV} (hx : fs[i]? = some x) :
    sub (.struct fs) ((i : Int) :: is) = sub x is := by
  rw [sub, if_neg (by omega)]; simp [hx]

theorem put_field {fs : List GV} {i : Nat} {is : List Int} {x y : GV} (hx : fs[i]? = some x) :
    put y (.struct fs) ((i : Int) :: is) = .struct (fs.set i (put y x is)) := by
  rw [put, if_neg (by omega)]; simp [hx]

theorem path_comp {U : Univ} {t t' : Ty} {is : List Int} (h : PathTy U t is t') : Comp U t t' := by
  induction h with
  | nil => exact .refl
  | field h1 h2 h3 _ ih => exact .field h1 (List.mem_of_getElem? h2) h3 ih
  | deref h1 _ ih => exact .ptr h1 ih

theorem sub_hasTy {U : Univ} {t t' : Ty} {is : List Int} (h : PathTy U t is t') : ∀ {v x : GV}, HasTy U t v → sub v is = some x → HasTy U t' x := by
  induction h with
  | nil => intro v x hv hs; rw [sub] at hs; cases hs; exact hv
  | @field t j i f is t' h1 h2 h3 _ ih =>
    intro v x hv hs
    obtain ⟨fs, rfl, q1, q2⟩ := hv.inv_struct h1
    cases hx : fs[i]? with
    | none => rw [sub, if_neg (by omega)] at hs; simp [hx] at hs
    | some y => rw [sub_field hx] at hs; exact ih (q2 i f y h2 hx) hs
  | deref h1 _ ih =>
    intro v x hv hs
    rcases hv.inv_ptr h1 with rfl | ⟨y, rfl, hy⟩
    · simp [sub] at hs
    · rw [sub, if_pos rfl] at hs; exact ih hy hs

theorem put_hasTy {U : Univ} {t t' : Ty} {is : List Int} (h : PathTy U t is t') : ∀ {v y : GV}, HasTy U t v → HasTy U t' y → HasTy U t (put y v is) := by
  induction h with
  | nil => intro v y _ hy; rw [put]; exact hy
  | @field t j i f is t' h1 h2 h3 _ ih =>
    intro v y hv hy
    obtain ⟨fs, rfl, q1, q2⟩ := hv.inv_struct h1
    cases hx : fs[i]? with
    | none => rw [put, if_neg (by omega)]; simpa [hx] using hv
    | some x =>
      rw [put_field hx]
      refine .struct h1 (by simpa using q1) ?_
      intro i' f' z hf hz
      rw [List.getElem?_set] at hz
      split at hz
      · rename_i he
        subst he
        split at hz
        · cases hz
          rw [h2] at hf; cases hf
          exact ih (q2 i f x h2 hx) hy
        · cases hz
      · exact q2 i' f' z hf hz
  | deref h1 _ ih =>
    intro v y hv hy
    rcases hv.inv_ptr h1 with rfl | ⟨x, rfl, hx⟩
    · simpa [put] using hv
    · rw [put, if_pos rfl]; exact .ptr h1 (ih hx hy)

/-- Below the zero value there are zero values. -/
theorem sub_zero {U : Univ} (hU : U.Ok) {t t' : Ty} {is : List Int} (h : PathTy U t is t') : ∀ {x : GV}, sub (U.zero t) is = some x → x = U.zero t' := by
  induction h with
  | nil => intro x hs; rw [sub] at hs; cases hs; rfl
  | @field t j i f is t' h1 h2 h3 _ ih =>
    intro x hs
    have := base_struct hU h1
    subst this
    have hz : U.zero (.struct j) = .struct ((U.fields j).map fun f => U.zero f.typ) := hU.zero_struct j
    rw [hz, sub_field (x := U.zero f.typ) (by rw [List.getElem?_map, h2]; rfl)] at hs
    exact ih hs
  | deref h1 _ ih =>
    intro x hs
    rw [zero_base hU, h1] at hs
    simp [sub, Univ.zero] at hs

/-! ## Trees as interface values -/

theorem setKey_mem {key : Bytes} {val : GV} : ∀ {es : List (GV × GV)} {p : GV × GV}, p ∈ setKey key val es → (p.2 = val ∧ p.1 = .str key) ∨ p ∈ es
  | [], p, h => by simp [setKey] at h; subst h; exact .inl ⟨rfl, rfl⟩
  | (k, x) :: es, p, h => by
    have aux : ∀ {r}, p ∈ (k, x) :: r → (p ∈ r → (p.2 = val ∧ p.1 = .str key) ∨ p ∈ es) → (p.2 = val ∧ p.1 = .str key) ∨ p ∈ (k, x) :: es := by
      intro r h1 h2
      rcases List.mem_cons.1 h1 with rfl | h1
      · exact .inr (by simp)
      · rcases h2 h1 with h | h
        · exact .inl h
        · exact .inr (by simp [h])
    cases k with
    | str s =>
      simp only [setKey] at h
      by_cases hs : s = key
      · rw [if_pos hs] at h
        rcases List.mem_cons.1 h with rfl | h
        · exact .inl ⟨rfl, by rw [hs]⟩
        · exact .inr (by simp [h])
      · rw [if_neg hs] at h
        exact aux h setKey_mem
    | _ => exact aux h setKey_mem

theorem any_hasTy (U : Univ) : (∀ j x, anyOf j = some x → HasTy U .any x) ∧ (∀ js xs, anyElems js = some xs → ∀ x ∈ xs, HasTy U .any x) ∧
    (∀ ms es es', anyMembers ms es = some es' → (∀ p ∈ es, HasTy U .string p.1) → (∀ p ∈ es, HasTy U .any p.2) →
      (∀ p ∈ es', HasTy U .string p.1) ∧ ∀ p ∈ es', HasTy U .any p.2) := by
  apply jval_ind
  · intro x h; simp only [anyOf, Option.some.injEq] at h; subst h; exact .nilIface (m := 0) (i := 0) rfl
  · intro b x h; simp only [anyOf, Option.some.injEq] at h; subst h; exact .iface (m := 0) (i := 0) rfl (.bool rfl)
  · intro r x h
    simp only [anyOf] at h
    split at h
    · cases h
    · cases h; exact .iface (m := 0) (i := 0) rfl (.float (k := .b64) rfl)
  · intro r x h; simp only [anyOf, Option.some.injEq] at h; subst h; exact .iface (m := 0) (i := 0) rfl (.str rfl)
  · intro xs ih x h
    simp only [anyOf, Option.map_eq_some_iff] at h
    obtain ⟨gs, h1, rfl⟩ := h
    exact .iface (m := 0) (i := 0) rfl (.slice (e := .any) rfl (Nat.le_refl _) (ih gs h1))
  · intro ms ih x h
    simp only [anyOf, Option.map_eq_some_iff] at h
    obtain ⟨es, h1, rfl⟩ := h
    obtain ⟨q1, q2⟩ := ih [] es h1 (by simp) (by simp)
    exact .iface (m := 0) (i := 0) rfl (.map (k := .string) (e := .any) rfl q1 q2)
  · intro xs h; simp only [anyElems, Option.some.injEq] at h; subst h; simp
  · intro x xs ih1 ih2 gs h
    simp only [anyElems] at h
    split at h
    · rename_i g gs' h1 h2
      cases h
      intro y hy
      rcases List.mem_cons.1 hy with rfl | hy
      · exact ih1 _ h1
      · exact ih2 _ h2 y hy
    · cases h
  · intro es es' h h1 h2; simp only [anyMembers, Option.some.injEq] at h; subst h; exact ⟨h1, h2⟩
  · intro k x ms ih1 ih2 es es' h h1 h2
    simp only [anyMembers] at h
    split at h
    · rename_i g hg
      refine ih2 _ _ h ?_ ?_
      · intro p hp
        rcases setKey_mem hp with ⟨_, hk⟩ | hp
        · rw [hk]; exact .str rfl
        · exact h1 p hp
      · intro p hp
        rcases setKey_mem hp with ⟨hk, _⟩ | hp
        · rw [hk]; exact ih1 _ hg
        · exact h2 p hp
    · cases h

/-! ## Decoding -/

theorem wrapInt_range (k : IKind) (i : Int) : -(2 ^ (k.bits - 1) : Int) ≤ wrapInt k i ∧ wrapInt k i < 2 ^ (k.bits - 1) := by
  unfold wrapInt
  have h1 := @Int.le_bmod i (2 ^ k.bits) (by cases k <;> decide)
  have h2 := @Int.bmod_lt i (2 ^ k.bits) (by cases k <;> decide)
  cases k <;> simp [IKind.bits] at h1 h2 ⊢ <;> omega

theorem wrapUint_range (k : IKind) (n : Nat) : wrapUint k n < 2 ^ k.bits :=
  Nat.mod_lt _ (by cases k <;> decide)

/-- The result of decoding into a variable of type `t` is of type `t`. -/
def OutTy (U : Univ) (t : Ty) (r : Out GV) : Prop := ∀ y e, r = .done y e → HasTy U t y

theorem decodes_hasTy {U : Univ} {o : Options} (hU : U.Ok) (hE : U.EmbedsStructs) {t : Ty} {v : GV} {j : JVal} {r : Out GV}
    (h : Decodes U o t v j r) : HasTy U t v → OutTy U t r := by
  refine Decodes.rec
    (motive_1 := fun t v j r _ => HasTy U t v → OutTy U t r)
    (motive_2 := fun t js arr r _ => (∀ x ∈ arr, HasTy U t x) → ∀ p, r = some p → (∀ x ∈ p.1, HasTy U t x) ∧ p.1.length = arr.length ∧ p.2 ≤ js.length)
    (motive_3 := fun t js xs r _ => (∀ x ∈ xs, HasTy U t x) → ∀ ys, r = some ys → (∀ x ∈ ys, HasTy U t x) ∧ ys.length = xs.length)
    (motive_4 := fun k t ms m r _ => ∀ t0, U.base t0 = .map k t → HasTy U t0 m → OutTy U t0 r)
    (motive_5 := fun cs ms v r _ => ∀ t0, HasTy U t0 v → (∀ c ∈ cs, PathTy U t0 c.index c.typ) → OutTy U t0 r)
    ?null ?mismatch ?bool ?int ?intErr ?uint ?uintErr ?float ?floatErr ?str ?ptr ?ptrNew ?sliceNull ?nilSliceNull ?slice ?sliceGrow
    ?nilSlice ?array ?mapNull ?map ?struct ?any ?anyErr ?anyPanic ?enil ?estop ?epanic ?econs ?afull ?arest ?apanic ?acons
    ?mnil ?mfail ?mpanic ?mnilMap ?mbadKey ?mcons ?snil ?sunknown ?sfail ?spanic ?scons ?slostFail ?slostPanic ?slost h
  case null => intro t v _ hv y e he; cases he; exact hasTy_zero hU t
  case mismatch => intro t v j w _ _ _ hv y e he; cases he; exact hv
  case bool => intro t x b hb hv y e he; cases he; exact .bool hb
  case int =>
    intro t k x raw i hb _ hv y e he; cases he
    exact .int hb (wrapInt_range k i).1 (wrapInt_range k i).2
  case intErr => intro t k x raw _ _ hv y e he; cases he; exact hv
  case uint => intro t k x raw n hb _ hv y e he; cases he; exact .uint hb (wrapUint_range k n)
  case uintErr => intro t k x raw _ _ hv y e he; cases he; exact hv
  case float => intro t k x raw f hb _ hv y e he; cases he; exact .float hb
  case floatErr => intro t k x raw _ _ hv y e he; cases he; exact hv
  case str => intro t x raw hb hv y e he; cases he; exact .str hb
  case ptr =>
    intro t e v j r hb _ _ ih hv y er he
    rcases hv.inv_ptr hb with h | ⟨x, h, hx⟩
    · cases h
    · cases h
      cases r with
      | panic => cases he
      | done a e' => cases he; exact .ptr hb (ih hx a _ rfl)
  case ptrNew =>
    intro t e j r hb _ _ ih hv y er he
    cases r with
    | panic => cases he
    | done a e' => cases he; exact .ptr hb (ih (hasTy_zero hU e) a _ rfl)
  case sliceNull =>
    intro t e arr len hb hv y er he
    cases he
    rcases hv.inv_slice hb with h | ⟨arr', len', h, _, h2⟩
    · cases h
    · cases h; exact .slice hb (Nat.zero_le _) h2
  case nilSliceNull => intro t e hb hv y er he; cases he; exact .nilSlice hb
  case slice =>
    intro t e arr len js r hb hl _ ih hv y er he
    rcases hv.inv_slice hb with h | ⟨arr', len', h, _, h2⟩
    · cases h
    · cases h
      cases r with
      | none => cases he
      | some p =>
        cases he
        obtain ⟨q1, q2, q3⟩ := ih h2 p rfl
        exact .slice hb (by omega) q1
  case sliceGrow =>
    intro t e arr len js r hb hl _ ih hv y er he
    cases r with
    | none => cases he
    | some p =>
      cases he
      obtain ⟨q1, q2, q3⟩ := ih (fun x hx => by rw [(List.mem_replicate.1 hx).2]; exact hasTy_zero hU e) p rfl
      rw [List.length_replicate] at q2
      exact .slice hb (by omega) q1
  case nilSlice =>
    intro t e js r hb _ ih hv y er he
    cases r with
    | none => cases he
    | some p =>
      cases he
      obtain ⟨q1, q2, q3⟩ := ih (fun x hx => by rw [(List.mem_replicate.1 hx).2]; exact hasTy_zero hU e) p rfl
      rw [List.length_replicate] at q2
      exact .slice hb (by omega) q1
  case array =>
    intro t n e xs js r hb _ ih hv y er he
    obtain ⟨xs', h, h1, h2⟩ := hv.inv_array hb
    cases h
    cases r with
    | none => cases he
    | some ys =>
      cases he
      obtain ⟨q1, q2⟩ := ih h2 ys rfl
      exact .array hb (q2.trans h1) q1
  case mapNull => intro t k e v _ hv y er he; cases he; exact hv
  case map => intro t k e v ms r hb _ ih hv; exact ih t hb hv
  case struct => intro t j cs v ms r hb hc _ ih hv; exact ih t hv (cands_path0 hE hb hc)
  case any => intro v j x hx hv y er he; cases he; exact (any_hasTy U).1 j _ hx
  case anyErr => intro t i v j _ _ hv y er he; cases he; exact hv
  case anyPanic => intro t i v j x _ _ _ hv y er he; cases he
  case enil => intro t arr ha p hp; cases hp; exact ⟨ha, rfl, Nat.le_refl _⟩
  case estop =>
    intro t j js x arr y e _ ih ha p hp
    cases hp
    refine ⟨fun z hz => ?_, rfl, Nat.zero_le _⟩
    rcases List.mem_cons.1 hz with rfl | hz
    · exact ih (ha x List.mem_cons_self) _ _ rfl
    · exact ha z (List.mem_cons_of_mem _ hz)
  case epanic => intro t j js x arr _ _ ha p hp; cases hp
  case econs =>
    intro t j js x arr y r _ _ ih1 ih2 ha p hp
    cases r with
    | none => cases hp
    | some q =>
      cases hp
      obtain ⟨q1, q2, q3⟩ := ih2 (fun z hz => ha z (List.mem_cons_of_mem _ hz)) q rfl
      refine ⟨fun z hz => ?_, by simp [q2], by simp; omega⟩
      rcases List.mem_cons.1 hz with rfl | hz
      · exact ih1 (ha x List.mem_cons_self) _ _ rfl
      · exact q1 z hz
  case afull => intro t js ha ys hp; cases hp; exact ⟨ha, rfl⟩
  case arest =>
    intro t x xs ha ys hp
    cases hp
    exact ⟨fun z hz => by rw [(List.mem_replicate.1 hz).2]; exact hasTy_zero hU t, by simp⟩
  case apanic => intro t j js x xs _ _ ha ys hp; cases hp
  case acons =>
    intro t j js x xs y e r _ _ ih1 ih2 ha ys hp
    cases r with
    | none => cases hp
    | some q =>
      cases hp
      obtain ⟨q1, q2⟩ := ih2 (fun z hz => ha z (List.mem_cons_of_mem _ hz)) q rfl
      refine ⟨fun z hz => ?_, by simp [q2]⟩
      rcases List.mem_cons.1 hz with rfl | hz
      · exact ih1 (ha x List.mem_cons_self) _ _ rfl
      · exact q1 z hz
  case mnil => intro k t m t0 _ hm y e he; cases he; exact hm
  case mfail => intro k t key j ms m y e _ _ t0 _ hm y' e' he; cases he; exact hm
  case mpanic => intro k t key j ms m _ _ t0 _ hm y' e' he; cases he
  case mnilMap => intro k t key j ms y _ _ t0 _ hm y' e' he; cases he
  case mbadKey => intro k t key j ms m y _ _ _ t0 _ hm y' e' he; cases he
  case mcons =>
    intro t key j ms es y r _ _ ih1 ih2 t0 hb hm
    refine ih2 t0 hb ?_
    rcases hm.inv_map hb with h | ⟨es', h, h1, h2⟩
    · cases h
    · cases h
      refine .map hb ?_ ?_
      · intro p hp
        rcases setKey_mem hp with ⟨_, hk⟩ | hp
        · rw [hk]; exact .str rfl
        · exact h1 p hp
      · intro p hp
        rcases setKey_mem hp with ⟨hk, _⟩ | hp
        · rw [hk]; exact ih1 (hasTy_zero hU t) _ _ rfl
        · exact h2 p hp
  case snil => intro cs v t0 hv _ y e he; cases he; exact hv
  case sunknown => intro cs key j ms v r _ _ ih t0 hv hp; exact ih t0 hv hp
  case sfail =>
    intro cs key j ms v c x y e hf hs _ ih t0 hv hp y' e' he
    cases he
    have hc := hp c (List.mem_of_find?_eq_some hf)
    exact put_hasTy hc hv (ih (sub_hasTy hc hv hs) _ _ rfl)
  case spanic => intro cs key j ms v c x hf hs _ ih t0 hv hp y' e' he; cases he
  case scons =>
    intro cs key j ms v c x y r hf hs _ _ ih1 ih2 t0 hv hp
    have hc := hp c (List.mem_of_find?_eq_some hf)
    exact ih2 t0 (put_hasTy hc hv (ih1 (sub_hasTy hc hv hs) _ _ rfl)) hp
  case slostFail => intro cs key j ms v c y e hf hs _ ih t0 hv hp y' e' he; cases he; exact hv
  case slostPanic => intro cs key j ms v c hf hs _ ih t0 hv hp y' e' he; cases he
  case slost => intro cs key j ms v c y r hf hs _ _ ih1 ih2 t0 hv hp; exact ih2 t0 hv hp

theorem Comp.trans {U : Univ} {a b c : Ty} (h : Comp U a b) (h' : Comp U b c) : Comp U a c := by
  induction h with
  | refl => exact h'
  | ptr h1 _ ih => exact .ptr h1 (ih h')
  | slice h1 _ ih => exact .slice h1 (ih h')
  | array h1 _ ih => exact .array h1 (ih h')
  | map h1 _ ih => exact .map h1 (ih h')
  | field h1 h2 h3 _ ih => exact .field h1 h2 h3 (ih h')

end Verif.Unjson
