import Verif.Spec.GenOrder
import Verif.Proofs.GenUAgain

/-! # The order of members and generated UnmarshalNodeJSON -/

namespace Verif.Gen
open Verif Verif.Float Verif.Spec Verif.Njson Verif.Unjson

/-! ## Fields -/

theorem open_is_wrap {U : Univ} {t : Ty} {v : GV} {j : Nat} {fs : List GV} {mk : List GV → GV} (h : openStruct U t v = some (j, fs, mk)) : ∃ p, mk = wrapS p := by
  unfold openStruct at h
  split at h
  · split at h
    · cases h; exact ⟨false, rfl⟩
    · cases h
  · split at h
    · cases h; exact ⟨true, rfl⟩
    · cases h
  · cases h

theorem focus_cons {U : Univ} {t : Ty} {v : GV} {i : Nat} {is : List Nat} {x : GV} {mk : GV → GV} (h : focus U t v (i :: is) = some (x, mk)) :
    ∃ j fs p f xi mk', openStruct U t v = some (j, fs, wrapS p) ∧ (U.fields j)[i]? = some f ∧ fs[i]? = some xi ∧ focus U f.typ xi is = some (x, mk') ∧
      mk = fun y => wrapS p (fs.set i (mk' y)) := by
  rw [focus] at h
  split at h
  · cases h
  · rename_i j fs mk0 ho
    obtain ⟨p, rfl⟩ := open_is_wrap ho
    split at h
    · rename_i f xi hf hx
      obtain ⟨⟨x', mk'⟩, h1, h2⟩ := Option.map_eq_some_iff.1 h
      cases h2
      exact ⟨j, fs, p, f, xi, mk', ho, hf, hx, h1, rfl⟩
    · cases h

/-- Two assignments to fields that are apart can be made in either order. -/
theorem focus_comm {U : Univ} : ∀ {p q : List Nat} {t : Ty} {v x a u b : GV} {mk mk2 : GV → GV}, Apart p q → focus U t v p = some (x, mk) →
    focus U t (mk a) q = some (u, mk2) → ∃ mk3, focus U t v q = some (u, mk3) ∧ ∃ mk4, focus U t (mk3 b) p = some (x, mk4) ∧ mk4 a = mk2 b := by
  intro p
  induction p with
  | nil => intro q t v x a u b mk mk2 ha; exact absurd ha apart_nil_left
  | cons i is ih =>
    intro q t v x a u b mk mk2 ha h1 h2
    cases q with
    | nil => exact absurd ha apart_nil_right
    | cons k ks =>
      obtain ⟨j, fs, w, f, xi, mk', ho, hf, hx, hfo, rfl⟩ := focus_cons h1
      obtain ⟨j', fs', w', f', xk, mk2', ho', hf', hx', hfo', rfl⟩ := focus_cons h2
      have hlt := (List.getElem?_eq_some_iff.1 hx).1
      dsimp only at ho'
      rw [open_wrap ho] at ho'
      simp only [Option.some.injEq, Prod.mk.injEq] at ho'
      obtain ⟨rfl, rfl, hw⟩ := ho'
      rw [← hw]
      rcases apart_cons.1 ha with hne | ⟨rfl, ha'⟩
      · rw [List.getElem?_set_ne hne] at hx'
        refine ⟨fun y => wrapS w (fs.set k (mk2' y)), by rw [focus_step ho hf' hx', hfo']; rfl,
          fun y => wrapS w ((fs.set k (mk2' b)).set i (mk' y)), ?_, ?_⟩
        · rw [focus_step (open_wrap ho _) hf (by rw [List.getElem?_set_ne (Ne.symm hne)]; exact hx), hfo]; rfl
        · dsimp only
          rw [List.set_comm _ _ (Ne.symm hne)]
      · rw [List.getElem?_set_self hlt] at hx'
        cases hx'
        rw [hf] at hf'; cases hf'
        obtain ⟨mk3, g1, mk4, g2, g3⟩ := ih (b := b) ha' hfo hfo'
        refine ⟨fun y => wrapS w (fs.set i (mk3 y)), by rw [focus_step ho hf hx, g1]; rfl,
          fun y => wrapS w ((fs.set i (mk3 b)).set i (mk4 y)), ?_, ?_⟩
        · rw [focus_step (open_wrap ho _) hf (List.getElem?_set_self hlt), g2]; rfl
        · simp only [List.set_set, g3]

theorem SameVal.of_ptr {x w : GV} (h : SameVal w (.ptr x)) : ∃ y, w = .ptr y := by
  obtain ⟨y, rfl, _⟩ := h.symm.ptr_inv
  exact ⟨y, rfl⟩

theorem open_same {U : Univ} {t : Ty} {v w : GV} (hs : SameVal v w) {j : Nat} {fs : List GV} {p : Bool} (h : openStruct U t v = some (j, fs, wrapS p)) :
    ∃ gs, openStruct U t w = some (j, gs, wrapS p) ∧ fs.length = gs.length ∧ ∀ (i : Nat) x y, fs[i]? = some x → gs[i]? = some y → SameVal x y := by
  have hrefl : openStruct U t w = openStruct U t v → ∃ gs, openStruct U t w = some (j, gs, wrapS p) ∧ fs.length = gs.length ∧
      ∀ (i : Nat) x y, fs[i]? = some x → gs[i]? = some y → SameVal x y := fun e =>
    ⟨fs, by rw [e]; exact h, rfl, fun i x y hx hy => by rw [hx] at hy; cases hy; exact .refl⟩
  cases hs with
  | refl => exact hrefl rfl
  | slice => exact hrefl (by unfold openStruct; cases U.base t <;> rfl)
  | array => exact hrefl (by unfold openStruct; cases U.base t <;> rfl)
  | map => exact hrefl (by unfold openStruct; cases U.base t <;> rfl)
  | iface => exact hrefl (by unfold openStruct; cases U.base t <;> rfl)
  | @struct xs ys hl hg =>
    cases hb : U.base t with
    | struct i =>
      unfold openStruct at h ⊢
      rw [hb] at h ⊢
      simp only [Option.some.injEq, Prod.mk.injEq] at h ⊢
      obtain ⟨rfl, rfl, hp⟩ := h
      exact ⟨ys, ⟨rfl, rfl, hp⟩, hl, hg⟩
    | _ => exact hrefl (by unfold openStruct; rw [hb])
  | @ptr x y hxy =>
    cases hb : U.base t with
    | ptr e =>
      unfold openStruct at h ⊢
      rw [hb] at h ⊢
      simp only at h ⊢
      cases hbe : U.base e with
      | struct i =>
        rw [hbe] at h
        cases x <;> simp only [Option.some.injEq, Prod.mk.injEq, reduceCtorEq] at h
        obtain ⟨rfl, rfl, hp⟩ := h
        obtain ⟨gs, rfl, g1, g2⟩ := hxy.struct_inv
        exact ⟨gs, by simp only [hp], g1, g2⟩
      | _ => rw [hbe] at h; cases h
    | _ => exact hrefl (by unfold openStruct; rw [hb])

/-- The same field of the same value. -/
theorem focus_same {U : Univ} : ∀ {p : List Nat} {t : Ty} {v w x : GV} {mk : GV → GV}, SameVal v w → focus U t v p = some (x, mk) →
    ∃ x' mk', focus U t w p = some (x', mk') ∧ SameVal x x' ∧ ∀ a b, SameVal a b → SameVal (mk a) (mk' b) := by
  intro p
  induction p with
  | nil => intro t v w x mk hs h; cases h; exact ⟨w, id, rfl, hs, fun _ _ h => h⟩
  | cons i is ih =>
    intro t v w x mk hs h
    obtain ⟨j, fs, p, f, xi, mk', ho, hf, hx, hfo, rfl⟩ := focus_cons h
    obtain ⟨gs, go, gl, gg⟩ := open_same hs ho
    have hlt := (List.getElem?_eq_some_iff.1 hx).1
    have hy : gs[i]? = some gs[i] := List.getElem?_eq_getElem (gl ▸ hlt)
    obtain ⟨x', mk'', k1, k2, k3⟩ := ih (gg i xi _ hx hy) hfo
    refine ⟨x', fun y => wrapS p (gs.set i (mk'' y)), by rw [focus_step go hf hy, k1]; rfl, k2, fun a b hab => ?_⟩
    have hst : SameVal (.struct (fs.set i (mk' a))) (.struct (gs.set i (mk'' b))) := by
      refine .struct (by simp [gl]) ?_
      intro k x y hx hy
      by_cases hk : i = k
      · subst hk
        rw [List.getElem?_set_self hlt] at hx
        rw [List.getElem?_set_self (gl ▸ hlt)] at hy
        cases hx; cases hy
        exact k3 a b hab
      · rw [List.getElem?_set_ne hk] at hx hy
        exact gg k x y hx hy
    cases p with
    | false => exact hst
    | true => exact .ptr hst

/-! ## Members -/

/-- One member is stored in the field of its name. -/
def StepU (E : Env) (o : GenOptions) (p : Pick) (x : GV) (j : JVal) (a : GV) : Prop :=
  RawString E.U p ∧ a = .str (jraw j) ∨ ¬ RawString E.U p ∧ GDec E o p.field.typ x j a none

theorem StepU.cons {E : Env} {o : GenOptions} {i : Nat} {v : GV} {p : Pick} {x : GV} {j : JVal} {a : GV} (h : StepU E o p x j a) (hp : p ∈ unmarshalPicks E o i)
    {mk : GV → GV} (hf : focus E.U (.struct i) v p.field.path = some (x, mk)) {ms : List (Bytes × JVal)} {v' : GV} (hr : GDecMembers E o i (mk a) ms v' none) :
    GDecMembers E o i v ((p.name, j) :: ms) v' none := by
  rcases h with ⟨h1, rfl⟩ | ⟨h1, h2⟩
  · exact .raw hp h1 hf hr
  · exact .cons hp h1 hf h2 hr

theorem gmembers_delay {E : Env} {o : GenOptions} (hF : FieldsApart E o) {i : Nat} {p : Pick} (hp : p ∈ unmarshalPicks E o i) {x : GV} {j : JVal} {a : GV}
    (hs : StepU E o p x j a) {ns' : List (Bytes × JVal)} {z : GV} : ∀ {ns : List (Bytes × JVal)} {v : GV} {mk : GV → GV}, p.name ∉ ns.map Prod.fst →
      focus E.U (.struct i) v p.field.path = some (x, mk) → GDecMembers E o i (mk a) (ns ++ ns') z none → GDecMembers E o i v (ns ++ (p.name, j) :: ns') z none
  | [], v, mk, _, hf, h => hs.cons hp hf h
  | (k2, j2) :: ns, v, mk, hn, hf, h => by
    rw [List.map_cons, List.mem_cons, not_or] at hn
    rw [List.cons_append] at h ⊢
    cases h with
    | unknown h1 h2 => exact .unknown h1 (gmembers_delay hF hp hs hn.2 hf h2)
    | raw h1 h2 h3 h4 =>
      obtain ⟨mk3, g1, mk4, g2, g3⟩ := focus_comm (b := .str (jraw j2)) (hF i p hp _ h1 hn.1) hf h3
      exact .raw h1 h2 g1 (gmembers_delay hF hp hs hn.2 g2 (by rw [g3]; exact h4))
    | @cons _ _ q _ _ u mk2 y _ _ h1 h2 h3 h4 h5 =>
      obtain ⟨mk3, g1, mk4, g2, g3⟩ := focus_comm (b := y) (hF i p hp _ h1 hn.1) hf h3
      exact .cons h1 h2 g1 h4 (gmembers_delay hF hp hs hn.2 g2 (by rw [g3]; exact h5))

theorem gmembers_delayUnknown {E : Env} {o : GenOptions} {i : Nat} {k : Bytes} (hk : ∀ p ∈ unmarshalPicks E o i, p.name ≠ k) {j : JVal}
    {ns' : List (Bytes × JVal)} {z : GV} : ∀ {ns : List (Bytes × JVal)} {v : GV}, GDecMembers E o i v (ns ++ ns') z none →
      GDecMembers E o i v (ns ++ (k, j) :: ns') z none
  | [], v, h => .unknown hk h
  | (k2, j2) :: ns, v, h => by
    rw [List.cons_append] at h ⊢
    cases h with
    | unknown h1 h2 => exact .unknown h1 (gmembers_delayUnknown hk h2)
    | raw h1 h2 h3 h4 => exact .raw h1 h2 h3 (gmembers_delayUnknown hk h4)
    | cons h1 h2 h3 h4 h5 => exact .cons h1 h2 h3 h4 (gmembers_delayUnknown hk h5)

/-! ## Entries -/

theorem entryAt_putEntry {key val k x : GV} {es : List (GV × GV)} :
    EntryAt (putEntry key val es) k x ↔ (k = key ∧ x = val) ∨ (k ≠ key ∧ EntryAt es k x) := by
  constructor
  · intro h
    by_cases hk : k = key
    · subst hk; exact .inl ⟨rfl, h.unique putEntry_at⟩
    · refine .inr ⟨hk, ?_⟩
      induction es with
      | nil =>
        cases h with
        | head => exact absurd rfl hk
        | tail _ h => cases h
      | cons e es ih =>
        obtain ⟨k', y⟩ := e
        rw [putEntry] at h
        split at h
        · rename_i h'; subst h'
          cases h with
          | head => exact absurd rfl hk
          | tail h1 h => exact .tail h1 h
        · cases h with
          | head => exact .head
          | tail h1 h => exact .tail h1 (ih h)
  · rintro (⟨rfl, rfl⟩ | ⟨h1, h2⟩)
    · exact putEntry_at
    · exact putEntry_other (Ne.symm h1) h2

theorem SameEntries.putEntry {es fs : List (GV × GV)} (h : SameEntries es fs) (key : GV) {x y : GV} (hxy : SameVal x y) :
    SameEntries (putEntry key x es) (putEntry key y fs) := by
  constructor
  · intro k
    by_cases hk : k = key
    · subst hk; exact ⟨fun _ => ⟨y, putEntry_at⟩, fun _ => ⟨x, putEntry_at⟩⟩
    · have := h.1 k
      simpa [entryAt_putEntry, hk] using this
  · intro k a b ha hb
    rcases entryAt_putEntry.1 ha with ⟨rfl, rfl⟩ | ⟨h1, h2⟩
    · rcases entryAt_putEntry.1 hb with ⟨_, rfl⟩ | ⟨h1, _⟩
      · exact hxy
      · exact absurd rfl h1
    · rcases entryAt_putEntry.1 hb with ⟨h3, _⟩ | ⟨_, h4⟩
      · exact absurd h3 h1
      · exact h.2 k a b h2 h4

theorem putEntry_comm {a b : GV} (hab : a ≠ b) (x y : GV) (es : List (GV × GV)) :
    SameEntries (putEntry a x (putEntry b y es)) (putEntry b y (putEntry a x es)) := by
  have key : ∀ k z, EntryAt (putEntry a x (putEntry b y es)) k z ↔ EntryAt (putEntry b y (putEntry a x es)) k z := by
    intro k z
    simp only [entryAt_putEntry]
    constructor
    · rintro (⟨rfl, rfl⟩ | ⟨h1, ⟨rfl, rfl⟩ | ⟨h2, h3⟩⟩)
      · exact .inr ⟨hab, .inl ⟨rfl, rfl⟩⟩
      · exact .inl ⟨rfl, rfl⟩
      · exact .inr ⟨h2, .inr ⟨h1, h3⟩⟩
    · rintro (⟨rfl, rfl⟩ | ⟨h1, ⟨rfl, rfl⟩ | ⟨h2, h3⟩⟩)
      · exact .inr ⟨hab.symm, .inl ⟨rfl, rfl⟩⟩
      · exact .inl ⟨rfl, rfl⟩
      · exact .inr ⟨h2, .inr ⟨h1, h3⟩⟩
  refine ⟨fun k => exists_congr (key k), fun k u w hu hw => ?_⟩
  rw [((key k u).1 hu).unique hw]
  exact .refl

theorem gentries_cong {E : Env} {o : GenOptions} {k t : Ty} : ∀ {ns : List (Bytes × JVal)} {es fs es' : List (GV × GV)}, SameEntries es fs →
    GDecEntries E o k t es ns es' none → ∃ fs', GDecEntries E o k t fs ns fs' none ∧ SameEntries es' fs'
  | [], es, fs, es', hs, h => by cases h; exact ⟨fs, .nil, hs⟩
  | (key, j) :: ns, es, fs, es', hs, h => by
    cases h with
    | cons h1 h2 =>
      obtain ⟨fs', h3, h4⟩ := gentries_cong (SameEntries.putEntry hs _ .refl) h2
      exact ⟨fs', .cons h1 h3, h4⟩

theorem gentries_delay {E : Env} {o : GenOptions} {k t : Ty} {key : Bytes} {j : JVal} {g : GV} (hj : GDec E o t (E.U.zero t) j g none) {ns' : List (Bytes × JVal)} :
    ∀ {ns : List (Bytes × JVal)} {fs es' : List (GV × GV)}, key ∉ ns.map Prod.fst → GDecEntries E o k t (putEntry (entryKey E.U k key) g fs) (ns ++ ns') es' none →
    ∃ fs', GDecEntries E o k t fs (ns ++ (key, j) :: ns') fs' none ∧ SameEntries es' fs'
  | [], fs, es', _, h => ⟨es', .cons hj h, SameEntries.refl _⟩
  | (a, u) :: ns, fs, es', hk, h => by
    rw [List.map_cons, List.mem_cons, not_or] at hk
    rw [List.cons_append] at h
    cases h with
    | @cons _ _ _ _ _ _ w _ _ h1 h2 =>
      obtain ⟨y1, h3, h4⟩ := gentries_cong (putEntry_comm (fun e => hk.1 (entryKey_inj e).symm) w g fs) h2
      obtain ⟨y2, h5, h6⟩ := gentries_delay hj hk.2 h3
      exact ⟨y2, .cons h1 h5, h4.trans h6⟩

/-! ## All -/

theorem Shuffled.leaf {j j' : JVal} (h : Shuffled j j') : jtyp j' = jtyp j ∧ jraw j' = jraw j := by
  cases h <;> exact ⟨rfl, rfl⟩

theorem Shuffled.str_inv {s : Bytes} {j : JVal} (h : Shuffled (.str s) j) : j = .str s := by cases h; rfl
theorem Shuffled.bool_inv {b : Bool} {j : JVal} (h : Shuffled (.bool b) j) : j = .bool b := by cases h; rfl
theorem Shuffled.null_inv {j : JVal} (h : Shuffled .null j) : j = .null := by cases h; rfl

theorem SameVal.nilPtr_inv {w : GV} (h : SameVal .nilPtr w) : w = .nilPtr := by cases h; rfl
theorem SameVal.nilSlice_inv {w : GV} (h : SameVal .nilSlice w) : w = .nilSlice := by cases h; rfl
theorem SameVal.nilMap_inv {w : GV} (h : SameVal .nilMap w) : w = .nilMap := by cases h; rfl

theorem gdec_shuffled {E : Env} (hB : OrderBlindIn E) {o : GenOptions} (hF : FieldsApart E o) {t : Ty} {v : GV} {j : JVal} {y : GV} {err : Option UErr}
    (h : GDec E o t v j y err) : err = none → ∀ w j', SameVal v w → Shuffled j j' → ∃ z, GDec E o t w j' z none ∧ SameVal y z := by
  refine GDec.rec
    (motive_1 := fun t v j y err _ => err = none → ∀ w j', SameVal v w → Shuffled j j' → ∃ z, GDec E o t w j' z none ∧ SameVal y z)
    (motive_2 := fun t arr js arr' err _ => err = none → ∀ brr js', arr.length = brr.length → (∀ (i : Nat) x y, arr[i]? = some x → brr[i]? = some y → SameVal x y) →
      ShuffledL js js' → ∃ brr', GDecElems E o t brr js' brr' none ∧ arr'.length = brr'.length ∧ ∀ (i : Nat) x y, arr'[i]? = some x → brr'[i]? = some y → SameVal x y)
    (motive_3 := fun k t es ms es' err _ => err = none → ∀ fs ns, SameEntries es fs → ShuffledM ms ns → ∃ fs', GDecEntries E o k t fs ns fs' none ∧ SameEntries es' fs')
    (motive_4 := fun i v ms v' err _ => err = none → ∀ w ns, SameVal v w → ShuffledM ms ns → ∃ w', GDecMembers E o i w ns w' none ∧ SameVal v' w')
    ?_ ?_ ?_ ?_ ?_ ?_ ?_ ?_ ?_ ?_ ?_ ?_ ?_ ?_ ?_ ?_ ?_ ?_ ?_ ?_ ?_ ?_ ?_ ?_ ?_ ?_ ?_ ?_ ?_ ?_ ?_ ?_ ?_ ?_ ?_ ?_ ?_ ?_ ?_ ?_ ?_ h
  · intro t v j y h1 h2 _ w j' hs hj; exact ⟨y, .time h1 (by rw [(Shuffled.leaf hj).2]; exact h2), .refl⟩
  · intro t v j h1 h2 he; cases he
  · intro t v j r h1 h2 h3 h4 h5 h6 he w j' hs hj
    subst h6
    have hf : (E.U.unmarshal .jsonUnmarshaler (.ptr t) (.ptr v) j.ser).2 = false := by
      cases hr : (E.U.unmarshal .jsonUnmarshaler (.ptr t) (.ptr v) j.ser).2 with
      | false => rfl
      | true => rw [hr] at he; cases he
    obtain ⟨g1, g2, g3⟩ := hB.json t v w j j' h4 hs hj h5 hf
    have := GDec.json (o := o) h1 h2 h3 h4 g1 rfl
    rw [g2] at this
    exact ⟨_, this, g3⟩
  · intro t v s r h1 h2 h3 h4 h5 h6 h7 he w j' hs hj
    subst h7
    cases Shuffled.str_inv hj
    have hf : (E.U.unmarshal .textUnmarshaler (.ptr t) (.ptr v) s).2 = false := by
      cases hr : (E.U.unmarshal .textUnmarshaler (.ptr t) (.ptr v) s).2 with
      | false => rfl
      | true => rw [hr] at he; cases he
    obtain ⟨g1, g2, g3⟩ := hB.text t v w s h5 hs h6 hf
    have := GDec.text (o := o) h1 h2 h3 h4 h5 g1 rfl
    rw [g2] at this
    exact ⟨_, this, g3⟩
  · intro t v j h1 h2 h3 h4 h5 h6 he; cases he
  · intro t v b h1 h2 _ w j' hs hj; cases Shuffled.bool_inv hj; exact ⟨_, .bool h1 h2, .refl⟩
  · intro t v j h1 h2 h3 he; cases he
  · intro t v s h1 h2 _ w j' hs hj; cases Shuffled.str_inv hj; exact ⟨_, .str h1 h2, .refl⟩
  · intro t v j h1 h2 h3 _ w j' hs hj; exact ⟨_, .strOther h1 h2 (by rw [(Shuffled.leaf hj).1]; exact h3), .refl⟩
  · intro t k v j h1 h2 h3 _ w j' hs hj
    rw [← (Shuffled.leaf hj).2] at h3 ⊢
    exact ⟨_, .int h1 h2 h3, .refl⟩
  · intro t k v j h1 h2 h3 he; cases he
  · intro t k v j h1 h2 h3 _ w j' hs hj
    rw [← (Shuffled.leaf hj).2] at h3 ⊢
    exact ⟨_, .uint h1 h2 h3, .refl⟩
  · intro t k v j h1 h2 h3 he; cases he
  · intro t k v j h1 h2 h3 _ w j' hs hj
    rw [← (Shuffled.leaf hj).2] at h3 ⊢
    exact ⟨_, .float h1 h2 h3, .refl⟩
  · intro t k v j h1 h2 h3 he; cases he
  · intro t e v h1 h2 _ w j' hs hj; cases Shuffled.null_inv hj; exact ⟨_, .ptrNull h1 h2, .refl⟩
  · intro t e v j y err h1 h2 h3 _ ih he w j' hs hj
    obtain ⟨x, rfl, hx⟩ := hs.ptr_inv
    obtain ⟨z, g1, g2⟩ := ih he x j' hx hj
    exact ⟨_, .ptr h1 h2 (fun h => h3 (hj.null_iff.2 h)) g1, .ptr g2⟩
  · intro t e j y err h1 h2 h3 _ ih he w j' hs hj
    cases SameVal.nilPtr_inv hs
    obtain ⟨z, g1, g2⟩ := ih he _ j' .refl hj
    exact ⟨_, .ptrNew h1 h2 (fun h => h3 (hj.null_iff.2 h)) g1, .ptr g2⟩
  · intro t e v h1 h2 _ w j' hs hj; cases Shuffled.null_inv hj; exact ⟨_, .sliceNull h1 h2, .refl⟩
  · intro t e h1 h2 _ w j' hs hj
    cases SameVal.nilSlice_inv hs
    obtain ⟨ys, rfl, hl⟩ := hj.arr_inv
    cases hl
    exact ⟨_, .sliceNil h1 h2, .refl⟩
  · intro t e js arr err h1 h2 h3 _ ih he w j' hs hj
    cases SameVal.nilSlice_inv hs
    obtain ⟨ys, rfl, hl⟩ := hj.arr_inv
    have hlen := shuffledL_length hl
    obtain ⟨brr, g1, g2, g3⟩ := ih he _ ys rfl (fun i x y hx hy => by rw [hx] at hy; cases hy; exact .refl) hl
    rw [hlen] at g1 ⊢
    exact ⟨_, .sliceNew h1 h2 (by rintro rfl; exact h3 (List.eq_nil_of_length_eq_zero hlen)) g1, .slice g2 g3⟩
  · intro t e arr len js arr' err h1 h2 h3 _ ih he w j' hs hj
    obtain ⟨brr, rfl, k1, k2⟩ := hs.slice_inv
    obtain ⟨ys, rfl, hl⟩ := hj.arr_inv
    obtain ⟨brr', g1, g2, g3⟩ := ih he brr ys k1 k2 hl
    rw [shuffledL_length hl]
    exact ⟨_, .sliceFit h1 h2 (by rw [← shuffledL_length hl, ← k1]; exact h3) g1, .slice g2 g3⟩
  · intro t e arr len js arr' err h1 h2 h3 _ ih he w j' hs hj
    obtain ⟨brr, rfl, k1, k2⟩ := hs.slice_inv
    obtain ⟨ys, rfl, hl⟩ := hj.arr_inv
    obtain ⟨brr', g1, g2, g3⟩ := ih he _ ys rfl (fun i x y hx hy => by rw [hx] at hy; cases hy; exact .refl) hl
    rw [shuffledL_length hl] at g1 ⊢
    exact ⟨_, .sliceGrow h1 h2 (by rw [← shuffledL_length hl, ← k1]; exact h3) g1, .slice g2 g3⟩
  · intro t e v j h1 h2 h3 h4 he; cases he
  · intro t k e v h1 h2 _ w j' hs hj; cases Shuffled.null_inv hj; exact ⟨_, .mapNull h1 h2, .refl⟩
  · intro t k e es ms es' err h1 h2 _ ih he w j' hs hj
    obtain ⟨fs, rfl, k1, k2⟩ := hs.map_inv
    obtain ⟨ns, rfl, hm⟩ := hj.obj_inv
    obtain ⟨fs', g1, g2⟩ := ih he fs ns ⟨k1, k2⟩ hm
    exact ⟨_, .map h1 h2 g1, .map g2.1 g2.2⟩
  · intro t k e ms es' err h1 h2 _ ih he w j' hs hj
    cases SameVal.nilMap_inv hs
    obtain ⟨ns, rfl, hm⟩ := hj.obj_inv
    obtain ⟨fs', g1, g2⟩ := ih he [] ns (SameEntries.refl _) hm
    exact ⟨_, .mapNew h1 h2 g1, .map g2.1 g2.2⟩
  · intro t k e v j h1 h2 h3 h4 he; cases he
  · intro i v ms v' err h1 _ ih he w j' hs hj
    obtain ⟨ns, rfl, hm⟩ := hj.obj_inv
    obtain ⟨z, g1, g2⟩ := ih he w ns hs hm
    exact ⟨z, .struct h1 g1, g2⟩
  · intro i v jv h1 h2 he; cases he
  · intro t arr _ brr js' hl hs hj; cases hj; exact ⟨brr, .nil, hl, hs⟩
  · intro t x arr j js y arr' err _ _ ih1 ih2 he brr js' hl hs hj
    cases hj with
    | cons hj1 hj2 =>
      cases brr with
      | nil => simp at hl
      | cons x' brr =>
        obtain ⟨z, g1, g2⟩ := ih1 rfl x' _ (hs 0 x x' rfl rfl) hj1
        obtain ⟨brr', k1, k2, k3⟩ := ih2 he brr _ (by simpa using hl) (fun i u w hu hw => hs (i + 1) u w (by simpa using hu) (by simpa using hw)) hj2
        refine ⟨_, .cons g1 k1, by simp [k2], ?_⟩
        intro i u w hu hw
        cases i with
        | zero => simp at hu hw; subst hu; subst hw; exact g2
        | succ i => simp at hu hw; exact k3 i u w hu hw
  · intro t x arr j js y err _ ih1 he; cases he
  · intro k t es _ fs ns hs hm; cases hm; exact ⟨fs, .nil, hs⟩
  · intro k t es key j ms y es' err _ _ ih1 ih2 he fs ns hs hm
    cases hm with
    | insert hx hk hm =>
      obtain ⟨z, g1, g2⟩ := ih1 rfl _ _ .refl hx
      obtain ⟨fs1, k1, k2⟩ := ih2 he _ _ (SameEntries.putEntry hs _ g2) hm
      obtain ⟨fs2, l1, l2⟩ := gentries_delay g1 hk k1
      exact ⟨fs2, l1, k2.trans l2⟩
  · intro k t es key j ms y err _ _ he; cases he
  · intro i v _ w ns hs hm; cases hm; exact ⟨w, .nil, hs⟩
  · intro i v key j ms v' err h1 _ ih he w ns hs hm
    cases hm with
    | insert hx hk hm =>
      obtain ⟨w', g1, g2⟩ := ih he w _ hs hm
      exact ⟨w', gmembers_delayUnknown h1 g1, g2⟩
  · intro i v p j ms x mk v' err h1 h2 h3 _ ih he w ns hs hm
    generalize hn : p.name = key at hm
    cases hm with
    | insert hx hk hm =>
      subst hn
      obtain ⟨x', mk', k1, k2, k3⟩ := focus_same hs h3
      obtain ⟨w', g1, g2⟩ := ih he _ _ (k3 _ (.str (jraw _)) (by rw [(Shuffled.leaf hx).2]; exact .refl)) hm
      exact ⟨w', gmembers_delay hF h1 (.inl ⟨h2, rfl⟩) hk k1 g1, g2⟩
  · intro i v p j ms x mk y v' err h1 h2 h3 _ _ ih1 ih2 he w ns hs hm
    generalize hn : p.name = key at hm
    cases hm with
    | insert hx hk hm =>
      subst hn
      obtain ⟨x', mk', k1, k2, k3⟩ := focus_same hs h3
      obtain ⟨z, l1, l2⟩ := ih1 rfl x' _ k2 hx
      obtain ⟨w', g1, g2⟩ := ih2 he _ _ (k3 _ _ l2) hm
      exact ⟨w', gmembers_delay hF h1 (.inr ⟨h2, l1⟩) hk k1 g1, g2⟩
  · intro i v p j ms x mk y err h1 h2 h3 _ ih1 he; cases he

end Verif.Gen
