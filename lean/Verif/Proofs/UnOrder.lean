import Verif.Spec.UnOrder
import Verif.Proofs.UnConv
import Verif.Proofs.UnFits
import Verif.Proofs.UnUnique

namespace Verif.Unjson
open Verif Verif.Float Verif.Spec Verif.Njson Verif.Gen

/-! ## Values -/

theorem EntryAt.unique {es : List (GV × GV)} {k x y : GV} (h : EntryAt es k x) : EntryAt es k y → x = y := by
  induction h with
  | head => intro h; cases h with
    | head => rfl
    | tail h => exact absurd rfl h
  | tail hne _ ih => intro h; cases h with
    | head => exact absurd rfl hne
    | tail _ h => exact ih h

theorem SameVal.symm {v w : GV} (h : SameVal v w) : SameVal w v := by
  induction h with
  | refl => exact .refl
  | ptr _ ih => exact .ptr ih
  | slice hl _ ih => exact .slice hl.symm fun i x y hx hy => ih i y x hy hx
  | array hl _ ih => exact .array hl.symm fun i x y hx hy => ih i y x hy hx
  | map hk _ ih => exact .map (fun k => (hk k).symm) fun k x y hx hy => ih k y x hy hx
  | iface _ ih => exact .iface ih
  | struct hl _ ih => exact .struct hl.symm fun i x y hx hy => ih i y x hy hx

theorem list_mid {xs ys : List GV} (h : xs.length = ys.length) {i : Nat} {x : GV} (hx : xs[i]? = some x) : ∃ y, ys[i]? = some y := by
  have := (List.getElem?_eq_some_iff.1 hx).1
  exact ⟨_, List.getElem?_eq_getElem (by omega)⟩

theorem SameVal.trans {u v : GV} (h : SameVal u v) : ∀ {w}, SameVal v w → SameVal u w := by
  induction h with
  | refl => exact id
  | ptr h ih => intro w hw; cases hw with
    | refl => exact .ptr h
    | ptr hw => exact .ptr (ih hw)
  | slice hl h ih => intro w hw; cases hw with
    | refl => exact .slice hl h
    | slice hl' h' =>
      refine .slice (hl.trans hl') fun i x z hx hz => ?_
      obtain ⟨y, hy⟩ := list_mid hl hx
      exact ih i x y hx hy (h' i y z hy hz)
  | array hl h ih => intro w hw; cases hw with
    | refl => exact .array hl h
    | array hl' h' =>
      refine .array (hl.trans hl') fun i x z hx hz => ?_
      obtain ⟨y, hy⟩ := list_mid hl hx
      exact ih i x y hx hy (h' i y z hy hz)
  | map hk h ih => intro w hw; cases hw with
    | refl => exact .map hk h
    | map hk' h' =>
      refine .map (fun k => (hk k).trans (hk' k)) fun k x z hx hz => ?_
      obtain ⟨y, hy⟩ := (hk k).1 ⟨x, hx⟩
      exact ih k x y hx hy (h' k y z hy hz)
  | iface h ih => intro w hw; cases hw with
    | refl => exact .iface h
    | iface hw => exact .iface (ih hw)
  | struct hl h ih => intro w hw; cases hw with
    | refl => exact .struct hl h
    | struct hl' h' =>
      refine .struct (hl.trans hl') fun i x z hx hz => ?_
      obtain ⟨y, hy⟩ := list_mid hl hx
      exact ih i x y hx hy (h' i y z hy hz)

theorem SameVal.struct_inv {fs : List GV} {w : GV} (h : SameVal (.struct fs) w) : ∃ gs, w = .struct gs ∧ fs.length = gs.length ∧
    ∀ (i : Nat) x y, fs[i]? = some x → gs[i]? = some y → SameVal x y := by
  cases h with
  | refl => exact ⟨fs, rfl, rfl, fun i x y hx hy => by rw [hx] at hy; cases hy; exact .refl⟩
  | struct hl h => exact ⟨_, rfl, hl, h⟩

theorem SameVal.map_inv {es : List (GV × GV)} {w : GV} (h : SameVal (.map es) w) : ∃ fs, w = .map fs ∧ (∀ k, (∃ x, EntryAt es k x) ↔ ∃ y, EntryAt fs k y) ∧
    ∀ k x y, EntryAt es k x → EntryAt fs k y → SameVal x y := by
  cases h with
  | refl => exact ⟨es, rfl, fun _ => Iff.rfl, fun k x y hx hy => by rw [hx.unique hy]; exact .refl⟩
  | map hk h => exact ⟨_, rfl, hk, h⟩

theorem SameVal.ptr_inv {x w : GV} (h : SameVal (.ptr x) w) : ∃ y, w = .ptr y ∧ SameVal x y := by
  cases h with
  | refl => exact ⟨x, rfl, .refl⟩
  | ptr h => exact ⟨_, rfl, h⟩

theorem SameVal.slice_inv {xs : List GV} {n : Nat} {w : GV} (h : SameVal (.slice xs n) w) : ∃ ys, w = .slice ys n ∧ xs.length = ys.length ∧
    ∀ (i : Nat) x y, xs[i]? = some x → ys[i]? = some y → SameVal x y := by
  cases h with
  | refl => exact ⟨xs, rfl, rfl, fun i x y hx hy => by rw [hx] at hy; cases hy; exact .refl⟩
  | slice hl h => exact ⟨_, rfl, hl, h⟩

theorem SameVal.array_inv {xs : List GV} {w : GV} (h : SameVal (.array xs) w) : ∃ ys, w = .array ys ∧ xs.length = ys.length ∧
    ∀ (i : Nat) x y, xs[i]? = some x → ys[i]? = some y → SameVal x y := by
  cases h with
  | refl => exact ⟨xs, rfl, rfl, fun i x y hx hy => by rw [hx] at hy; cases hy; exact .refl⟩
  | array hl h => exact ⟨_, rfl, hl, h⟩

theorem sameVal_sub : ∀ (p : List Int) {v w : GV}, SameVal v w →
    (sub v p = none → sub w p = none) ∧ ∀ x, sub v p = some x → ∃ y, sub w p = some y ∧ SameVal x y
  | [], v, w, h => by
    constructor
    · intro hv; rw [sub] at hv; cases hv
    · intro x hx; rw [sub] at hx; cases hx; exact ⟨w, by rw [sub], h⟩
  | i :: p, v, w, h => by
    rw [sub_cons, sub_cons]
    by_cases hi : i = -1
    · rw [if_pos hi, if_pos hi]
      cases h with
      | refl => exact ⟨id, fun x hx => ⟨x, hx, .refl⟩⟩
      | ptr h => exact sameVal_sub p h
      | _ => exact ⟨fun _ => rfl, fun x hx => by cases hx⟩
    · rw [if_neg hi, if_neg hi]
      cases h with
      | refl => exact ⟨id, fun x hx => ⟨x, hx, .refl⟩⟩
      | @struct xs ys hl h =>
        simp only
        cases hx : xs[i.toNat]? with
        | none =>
          have : ys[i.toNat]? = none := by rw [List.getElem?_eq_none_iff] at hx ⊢; omega
          simp [this]
        | some x =>
          obtain ⟨y, hy⟩ := list_mid hl hx
          simp only [hy]
          exact sameVal_sub p (h _ x y hx hy)
      | _ => exact ⟨fun _ => rfl, fun x hx => by cases hx⟩

theorem sameVal_put {a b : GV} (hab : SameVal a b) : ∀ (p : List Int) {v w : GV}, SameVal v w → SameVal (put a v p) (put b w p)
  | [], v, w, h => by rw [put, put]; exact hab
  | i :: p, v, w, h => by
    rw [put_cons, put_cons]
    by_cases hi : i = -1
    · rw [if_pos hi, if_pos hi]
      cases h with
      | refl => cases v with
        | ptr x => exact .ptr (sameVal_put hab p .refl)
        | _ => exact .refl
      | ptr h => exact .ptr (sameVal_put hab p h)
      | slice hl h => exact .slice hl h
      | array hl h => exact .array hl h
      | map hl h => exact .map hl h
      | iface h => exact .iface h
      | struct hl h => exact .struct hl h
    · rw [if_neg hi, if_neg hi]
      have key : ∀ {xs ys : List GV}, xs.length = ys.length → (∀ (i : Nat) x y, xs[i]? = some x → ys[i]? = some y → SameVal x y) →
          SameVal (.struct (match xs[i.toNat]? with | some x => xs.set i.toNat (put a x p) | none => xs))
            (.struct (match ys[i.toNat]? with | some x => ys.set i.toNat (put b x p) | none => ys)) := by
        intro xs ys hl h
        cases hx : xs[i.toNat]? with
        | none =>
          have : ys[i.toNat]? = none := by rw [List.getElem?_eq_none_iff] at hx ⊢; omega
          rw [this]
          exact .struct hl h
        | some x =>
          obtain ⟨y, hy⟩ := list_mid hl hx
          rw [hy]
          refine .struct (by simp [hl]) fun k u w hu hw => ?_
          by_cases hk : i.toNat = k
          · subst hk
            rw [List.getElem?_set_self (List.getElem?_eq_some_iff.1 hx).1] at hu
            rw [List.getElem?_set_self (List.getElem?_eq_some_iff.1 hy).1] at hw
            cases hu; cases hw
            exact sameVal_put hab p (h _ x y hx hy)
          · rw [List.getElem?_set_ne hk] at hu hw
            exact h k u w hu hw
      cases h with
      | refl => cases v with
        | struct xs => exact key rfl fun i x y hx hy => by rw [hx] at hy; cases hy; exact .refl
        | _ => exact .refl
      | struct hl h => exact key hl h
      | slice hl h => exact .slice hl h
      | array hl h => exact .array hl h
      | map hl h => exact .map hl h
      | iface h => exact .iface h
      | ptr h => exact .ptr h

/-! ## Maps -/

/-- The entries of two maps are the same. -/
def SameEntries (es fs : List (GV × GV)) : Prop :=
  (∀ k, (∃ x, EntryAt es k x) ↔ ∃ y, EntryAt fs k y) ∧ ∀ k x y, EntryAt es k x → EntryAt fs k y → SameVal x y

theorem SameEntries.refl (es : List (GV × GV)) : SameEntries es es :=
  ⟨fun _ => Iff.rfl, fun k x y hx hy => by rw [hx.unique hy]; exact .refl⟩

theorem SameEntries.trans {es fs gs : List (GV × GV)} (h : SameEntries es fs) (h' : SameEntries fs gs) : SameEntries es gs :=
  ⟨fun k => (h.1 k).trans (h'.1 k), fun k x z hx hz => by
    obtain ⟨y, hy⟩ := (h.1 k).1 ⟨x, hx⟩
    exact (h.2 k x y hx hy).trans (h'.2 k y z hy hz)⟩

theorem entryAt_setKey {key : Bytes} {val k x : GV} : ∀ {es : List (GV × GV)},
    EntryAt (setKey key val es) k x ↔ (k = .str key ∧ x = val) ∨ (k ≠ .str key ∧ EntryAt es k x)
  | [] => by
    rw [setKey]
    constructor
    · intro h
      cases h with
      | head => exact .inl ⟨rfl, rfl⟩
      | tail _ h => cases h
    · rintro (⟨rfl, rfl⟩ | ⟨_, h⟩)
      · exact .head
      · cases h
  | (k', y) :: es => by
    have other : k' ≠ .str key → (EntryAt ((k', y) :: setKey key val es) k x ↔
        (k = .str key ∧ x = val) ∨ (k ≠ .str key ∧ EntryAt ((k', y) :: es) k x)) := by
      intro hne
      constructor
      · intro h
        cases h with
        | head => exact .inr ⟨hne, .head⟩
        | tail h1 h2 =>
          rcases entryAt_setKey.1 h2 with h | ⟨h3, h4⟩
          · exact .inl h
          · exact .inr ⟨h3, .tail h1 h4⟩
      · rintro (⟨rfl, rfl⟩ | ⟨h1, h2⟩)
        · exact .tail hne (entryAt_setKey.2 (.inl ⟨rfl, rfl⟩))
        · cases h2 with
          | head => exact .head
          | tail h3 h4 => exact .tail h3 (entryAt_setKey.2 (.inr ⟨h1, h4⟩))
    cases k' with
    | str s =>
      by_cases hs : s = key
      · subst hs
        rw [setKey]
        simp only [if_true]
        constructor
        · intro h
          cases h with
          | head => exact .inl ⟨rfl, rfl⟩
          | tail h1 h2 => exact .inr ⟨Ne.symm h1, .tail h1 h2⟩
        · rintro (⟨rfl, rfl⟩ | ⟨h1, h2⟩)
          · exact .head
          · cases h2 with
            | head => exact absurd rfl h1
            | tail h3 h4 => exact .tail h3 h4
      · rw [setKey]
        simp only [if_neg hs]
        exact other fun h => hs (by cases h; rfl)
    | _ =>
      rw [setKey]
      · exact other (by intro h; cases h)
      · intro s h; cases h

theorem SameEntries.setKey {es fs : List (GV × GV)} (h : SameEntries es fs) (key : Bytes) {x y : GV} (hxy : SameVal x y) :
    SameEntries (setKey key x es) (setKey key y fs) := by
  constructor
  · intro k
    constructor
    · rintro ⟨z, hz⟩
      rcases entryAt_setKey.1 hz with ⟨rfl, rfl⟩ | ⟨h1, h2⟩
      · exact ⟨y, entryAt_setKey.2 (.inl ⟨rfl, rfl⟩)⟩
      · obtain ⟨w, hw⟩ := (h.1 k).1 ⟨z, h2⟩; exact ⟨w, entryAt_setKey.2 (.inr ⟨h1, hw⟩)⟩
    · rintro ⟨z, hz⟩
      rcases entryAt_setKey.1 hz with ⟨rfl, rfl⟩ | ⟨h1, h2⟩
      · exact ⟨x, entryAt_setKey.2 (.inl ⟨rfl, rfl⟩)⟩
      · obtain ⟨w, hw⟩ := (h.1 k).2 ⟨z, h2⟩; exact ⟨w, entryAt_setKey.2 (.inr ⟨h1, hw⟩)⟩
  · intro k a b ha hb
    rcases entryAt_setKey.1 ha with ⟨rfl, rfl⟩ | ⟨h1, h2⟩
    · rcases entryAt_setKey.1 hb with ⟨_, rfl⟩ | ⟨h1, _⟩
      · exact hxy
      · exact absurd rfl h1
    · rcases entryAt_setKey.1 hb with ⟨h3, _⟩ | ⟨_, h4⟩
      · exact absurd h3 h1
      · exact h.2 k a b h2 h4

theorem setKey_comm {a b : Bytes} (hab : a ≠ b) (x y : GV) (es : List (GV × GV)) :
    SameEntries (setKey a x (setKey b y es)) (setKey b y (setKey a x es)) := by
  have key : ∀ k z, EntryAt (setKey a x (setKey b y es)) k z ↔ EntryAt (setKey b y (setKey a x es)) k z := by
    intro k z
    simp only [entryAt_setKey]
    have : (GV.str a ≠ GV.str b) := fun h => hab (by cases h; rfl)
    constructor
    · rintro (⟨rfl, rfl⟩ | ⟨h1, ⟨rfl, rfl⟩ | ⟨h2, h3⟩⟩)
      · exact .inr ⟨this, .inl ⟨rfl, rfl⟩⟩
      · exact .inl ⟨rfl, rfl⟩
      · exact .inr ⟨h2, .inr ⟨h1, h3⟩⟩
    · rintro (⟨rfl, rfl⟩ | ⟨h1, ⟨rfl, rfl⟩ | ⟨h2, h3⟩⟩)
      · exact .inr ⟨this.symm, .inl ⟨rfl, rfl⟩⟩
      · exact .inl ⟨rfl, rfl⟩
      · exact .inr ⟨h2, .inr ⟨h1, h3⟩⟩
  refine ⟨fun k => exists_congr (key k), fun k u w hu hw => ?_⟩
  rw [((key k u).1 hu).unique hw]
  exact .refl

/-! ## Shuffled trees -/

theorem shuffledL_refl : ∀ xs, ShuffledL xs xs
  | [] => .nil
  | _ :: xs => .cons .same (shuffledL_refl xs)

theorem shuffledM_refl : ∀ ms, ShuffledM ms ms
  | [] => .nil
  | (_, _) :: ms => .insert (ns := []) .same (by simp) (shuffledM_refl ms)

theorem Shuffled.arr_inv {xs : List JVal} {j : JVal} (h : Shuffled (.arr xs) j) : ∃ ys, j = .arr ys ∧ ShuffledL xs ys := by
  cases h with
  | same => exact ⟨xs, rfl, shuffledL_refl xs⟩
  | arr h => exact ⟨_, rfl, h⟩

theorem Shuffled.obj_inv {ms : List (Bytes × JVal)} {j : JVal} (h : Shuffled (.obj ms) j) : ∃ ns, j = .obj ns ∧ ShuffledM ms ns := by
  cases h with
  | same => exact ⟨ms, rfl, shuffledM_refl ms⟩
  | obj h => exact ⟨_, rfl, h⟩

theorem Shuffled.null_iff {j j' : JVal} (h : Shuffled j j') : j = .null ↔ j' = .null := by
  cases h with
  | same => exact Iff.rfl
  | _ => simp

theorem shuffledL_length : ∀ {xs ys}, ShuffledL xs ys → xs.length = ys.length
  | _, _, .nil => rfl
  | _, _, .cons _ h => by simp [shuffledL_length h]

theorem shuffledM_extend {k : Bytes} {x y : JVal} (hx : Shuffled y x) : ∀ {A B M : List (Bytes × JVal)}, k ∉ A.map Prod.fst → ShuffledM (A ++ B) M →
    ShuffledM (A ++ (k, y) :: B) ((k, x) :: M)
  | [], B, M, _, h => .insert (ns := []) hx (by simp) h
  | (a, u) :: A, B, M, hk, h => by
    rw [List.map_cons, List.mem_cons, not_or] at hk
    rw [List.cons_append] at h
    cases h with
    | @insert _ _ z _ M1 M2 h1 h2 h3 =>
      have := shuffledM_extend hx hk.2 h3
      rw [List.cons_append]
      exact ShuffledM.insert (ns := (k, x) :: M1) h1 (by
        rw [List.map_cons, List.mem_cons, not_or]; exact ⟨Ne.symm hk.1, h2⟩) this

theorem Shuffled.symm {j j' : JVal} (h : Shuffled j j') : Shuffled j' j :=
  Shuffled.rec (motive_1 := fun j j' _ => Shuffled j' j) (motive_2 := fun xs ys _ => ShuffledL ys xs)
    (motive_3 := fun ms ns _ => ShuffledM ns ms) .same (fun _ ih => .arr ih) (fun _ ih => .obj ih) .nil (fun _ _ ih1 ih2 => .cons ih1 ih2) .nil
    (fun _ hk _ ih1 ih2 => shuffledM_extend ih1 hk ih2) h

/-- A permutation of members with different names. -/
theorem shuffledM_perm {ms ns : List (Bytes × JVal)} (hp : ms.Perm ns) (hn : (ms.map Prod.fst).Nodup) : ShuffledM ms ns := by
  induction ms generalizing ns with
  | nil => rw [List.nil_perm.1 hp]; exact .nil
  | cons m ms ih =>
    obtain ⟨k, x⟩ := m
    obtain ⟨n1, n2, rfl⟩ := List.append_of_mem (hp.subset List.mem_cons_self)
    have hp' : ms.Perm (n1 ++ n2) := by
      have := hp.trans (List.perm_middle)
      exact List.perm_cons _ |>.1 this
    rw [List.map_cons, List.nodup_cons] at hn
    refine .insert .same (fun h => hn.1 ?_) (ih hp' hn.2)
    exact (hp'.map Prod.fst).symm.subset (by rw [List.map_append]; exact List.mem_append_left _ h)

/-! ## `interface{}` -/

theorem anyOf_shuffled {j j' : JVal} (h : Shuffled j j') : ∀ {x}, anyOf j = some x → ∃ y, anyOf j' = some y ∧ SameVal x y := by
  refine Shuffled.rec
    (motive_1 := fun j j' _ => ∀ {x}, anyOf j = some x → ∃ y, anyOf j' = some y ∧ SameVal x y)
    (motive_2 := fun xs ys _ => ∀ {gs}, anyElems xs = some gs → ∃ hs, anyElems ys = some hs ∧ gs.length = hs.length ∧
      ∀ (i : Nat) x y, gs[i]? = some x → hs[i]? = some y → SameVal x y)
    (motive_3 := fun ms ns _ => ∀ {es fs es'}, SameEntries es fs → anyMembers ms es = some es' → ∃ fs', anyMembers ns fs = some fs' ∧ SameEntries es' fs')
    ?same ?arr ?obj ?lnil ?lcons ?mnil ?minsert h
  case same => intro j x hx; exact ⟨x, hx, .refl⟩
  case arr =>
    intro xs ys _ ih x hx
    rw [anyOf, Option.map_eq_some_iff] at hx
    obtain ⟨gs, h1, rfl⟩ := hx
    obtain ⟨hs, h2, h3, h4⟩ := ih h1
    exact ⟨_, by rw [anyOf, h2]; rfl, by rw [h3]; exact .iface (.slice h3 h4)⟩
  case obj =>
    intro ms ns _ ih x hx
    rw [anyOf, Option.map_eq_some_iff] at hx
    obtain ⟨es, h1, rfl⟩ := hx
    obtain ⟨fs, h2, h3⟩ := ih (.refl []) h1
    exact ⟨_, by rw [anyOf, h2]; rfl, .iface (.map h3.1 h3.2)⟩
  case lnil => intro gs h; rw [anyElems] at h; cases h; exact ⟨[], by rw [anyElems], rfl, fun i x y hx => by simp at hx⟩
  case lcons =>
    intro x y xs ys _ _ ih1 ih2 gs hg
    rw [anyElems] at hg
    cases hx : anyOf x with
    | none => rw [hx] at hg; cases hg
    | some g =>
      cases hxs : anyElems xs with
      | none => rw [hx, hxs] at hg; cases hg
      | some gs' =>
        rw [hx, hxs] at hg; cases hg
        obtain ⟨h, h1, h2⟩ := ih1 hx
        obtain ⟨hs, h3, h4, h5⟩ := ih2 hxs
        refine ⟨h :: hs, by rw [anyElems, h1, h3], by simp [h4], fun i u w hu hw => ?_⟩
        cases i with
        | zero => simp at hu hw; subst hu; subst hw; exact h2
        | succ i => simp at hu hw; exact h5 i u w hu hw
  case mnil => intro es fs es' h hm; rw [anyMembers] at hm; cases hm; exact ⟨fs, by rw [anyMembers], h⟩
  case minsert =>
    intro k x y ms ns ns' _ hk _ ih1 ih2 es fs es' h hm
    rw [anyMembers] at hm
    cases hx : anyOf x with
    | none => rw [hx] at hm; cases hm
    | some g =>
      rw [hx] at hm
      obtain ⟨g', h1, h2⟩ := ih1 hx
      obtain ⟨fs', h3, h4⟩ := ih2 (h.setKey k h2) hm
      have cong : ∀ (ns : List (Bytes × JVal)) {es fs es'}, SameEntries es fs → anyMembers ns es = some es' →
          ∃ fs', anyMembers ns fs = some fs' ∧ SameEntries es' fs' := by
        intro ns
        induction ns with
        | nil => intro es fs es' h hm; rw [anyMembers] at hm; cases hm; exact ⟨fs, by rw [anyMembers], h⟩
        | cons n ns ih =>
          intro es fs es' h hm
          obtain ⟨a, u⟩ := n
          rw [anyMembers] at hm ⊢
          cases hu : anyOf u with
          | none => rw [hu] at hm; cases hm
          | some w => rw [hu] at hm; exact ih (h.setKey a .refl) hm
      have delay : ∀ (ns : List (Bytes × JVal)) {fs fs'}, k ∉ ns.map Prod.fst → anyMembers (ns ++ ns') (setKey k g' fs) = some fs' →
          ∃ gs', anyMembers (ns ++ (k, y) :: ns') fs = some gs' ∧ SameEntries fs' gs' := by
        intro ns
        induction ns with
        | nil => intro fs fs' _ hm; exact ⟨fs', by rw [List.nil_append, anyMembers, h1]; exact hm, .refl _⟩
        | cons n ns ih =>
          intro fs fs' hk hm
          obtain ⟨a, u⟩ := n
          rw [List.map_cons, List.mem_cons, not_or] at hk
          rw [List.cons_append, anyMembers] at hm ⊢
          cases hu : anyOf u with
          | none => rw [hu] at hm; cases hm
          | some w =>
            rw [hu] at hm
            simp only at hm ⊢
            obtain ⟨gs1, q1, q2⟩ := cong _ (setKey_comm (Ne.symm hk.1) w g' fs) hm
            obtain ⟨gs2, q3, q4⟩ := ih hk.2 q1
            exact ⟨gs2, q3, q2.trans q4⟩
      obtain ⟨gs', q1, q2⟩ := delay ns hk h3
      exact ⟨gs', q1, h4.trans q2⟩

/-! ## Decoding -/

/-- What the theorem says of one tree and one type. -/
def OrderFree (U : Univ) (o : Options) (t : Ty) (j : JVal) : Prop := ∀ {j' v v' y}, Shuffled j j' → SameVal v v' → Decodes U o t v j (.done y none) →
  ∃ y', Decodes U o t v' j' (.done y' none) ∧ SameVal y y'

theorem decElems_shuffled {U : Univ} (hE : U.EmbedsStructs) {o : Options} : ∀ {t : Ty} {js js' : List JVal}, (∀ j ∈ js, Fits U o t j) → (∀ j ∈ js, OrderFree U o t j) →
    ShuffledL js js' → ∀ {xs xs' p}, xs.length = xs'.length → (∀ (i : Nat) x y, xs[i]? = some x → xs'[i]? = some y → SameVal x y) →
    DecElems U o t js xs (some p) → ∃ q, DecElems U o t js' xs' (some q) ∧ p.2 = q.2 ∧ p.1.length = q.1.length ∧
      ∀ (i : Nat) x y, p.1[i]? = some x → q.1[i]? = some y → SameVal x y
  | t, [], js', _, _, hs, xs, xs', p, hl, hx, h => by
    cases hs
    cases h
    exact ⟨(xs', 0), .nil, rfl, hl, hx⟩
  | t, j :: js, js', hf, hj, hs, xs, xs', p, hl, hx, h => by
    cases hs with
    | @cons _ j' _ js' h1 h2 =>
      generalize hr : some p = r at h
      cases h with
      | stop h => have := (decodes_fits hE h _ _ rfl).1 (hf j List.mem_cons_self); cases this
      | panic => cases hr
      | @cons _ _ _ x xs y r h3 h4 =>
        cases r with
        | none => cases hr
        | some p' =>
          cases hr
          cases xs' with
          | nil => simp at hl
          | cons x' xs' =>
            obtain ⟨y', h5, h6⟩ := hj j List.mem_cons_self h1 (hx 0 x x' rfl rfl) h3
            obtain ⟨q, h7, h8, h9, h10⟩ := decElems_shuffled hE (fun j h => hf j (by simp [h])) (fun j h => hj j (by simp [h])) h2 (by simpa using hl)
              (fun i u w hu hw => hx (i + 1) u w (by simpa using hu) (by simpa using hw)) h4
            refine ⟨_, .cons h5 h7, by simp [h8], by simp [h9], fun i u w hu hw => ?_⟩
            cases i with
            | zero => simp at hu hw; subst hu; subst hw; exact h6
            | succ i => simp at hu hw; exact h10 i u w hu hw

theorem decArr_shuffled {U : Univ} (hE : U.EmbedsStructs) {o : Options} : ∀ {t : Ty} {js js' : List JVal}, (∀ j ∈ js, Fits U o t j) → (∀ j ∈ js, OrderFree U o t j) →
    ShuffledL js js' → ∀ {xs xs' p}, xs.length = xs'.length → (∀ (i : Nat) x y, xs[i]? = some x → xs'[i]? = some y → SameVal x y) →
    DecArr U o t js xs (some p) → ∃ q, DecArr U o t js' xs' (some q) ∧ p.length = q.length ∧
      ∀ (i : Nat) x y, p[i]? = some x → q[i]? = some y → SameVal x y
  | t, js, js', _, _, hs, [], [], p, hl, hx, h => by
    generalize hr : some p = r at h
    cases h
    cases hr
    exact ⟨[], .full, rfl, fun i x y hx => by simp at hx⟩
  | t, [], js', _, _, hs, x :: xs, x' :: xs', p, hl, hx, h => by
    cases hs
    cases h
    refine ⟨_, .rest, by simpa using hl, fun i u w hu hw => ?_⟩
    rw [List.length_cons, List.length_cons] at hl
    rw [hl, hw] at hu
    cases hu; exact .refl
  | t, j :: js, js', hf, hj, hs, x :: xs, x' :: xs', p, hl, hx, h => by
    cases hs with
    | @cons _ j' _ js' h1 h2 =>
      generalize hr : some p = r at h
      cases h with
      | panic => cases hr
      | @cons _ _ _ _ _ y e r h3 h4 =>
        cases r with
        | none => cases hr
        | some p' =>
          cases hr
          cases (decodes_fits hE h3 _ _ rfl).1 (hf j List.mem_cons_self)
          obtain ⟨y', h5, h6⟩ := hj j List.mem_cons_self h1 (hx 0 x x' rfl rfl) h3
          obtain ⟨q, h7, h9, h10⟩ := decArr_shuffled hE (fun j h => hf j (by simp [h])) (fun j h => hj j (by simp [h])) h2 (by simpa using hl)
            (fun i u w hu hw => hx (i + 1) u w (by simpa using hu) (by simpa using hw)) h4
          refine ⟨_, .cons h5 h7, by simp [h9], fun i u w hu hw => ?_⟩
          cases i with
          | zero => simp at hu hw; subst hu; subst hw; exact h6
          | succ i => simp at hu hw; exact h10 i u w hu hw

theorem decEntries_cong {U : Univ} {o : Options} {k t : Ty} : ∀ {ns : List (Bytes × JVal)} {m m' y : GV}, SameVal m m' → DecEntries U o k t ns m (.done y none) →
    ∃ y', DecEntries U o k t ns m' (.done y' none) ∧ SameVal y y'
  | [], m, m', y, hm, h => by cases h; exact ⟨m', .nil, hm⟩
  | (key, j) :: ns, m, m', y, hm, h => by
    cases h with
    | cons h1 h2 =>
      obtain ⟨fs, rfl, hk, he⟩ := hm.map_inv
      have hs := fun z => SameEntries.setKey ⟨hk, he⟩ key (SameVal.refl (v := z))
      obtain ⟨y', h3, h4⟩ := decEntries_cong (.map (hs _).1 (hs _).2) h2
      exact ⟨y', .cons h1 h3, h4⟩

theorem decEntries_delay {U : Univ} {o : Options} {t : Ty} {k : Bytes} {j : JVal} {g : GV} (hj : Decodes U o t (U.zero t) j (.done g none))
    {ns' : List (Bytes × JVal)} : ∀ {ns : List (Bytes × JVal)} {fs : List (GV × GV)} {y : GV}, k ∉ ns.map Prod.fst →
    DecEntries U o .string t (ns ++ ns') (.map (setKey k g fs)) (.done y none) →
    ∃ y', DecEntries U o .string t (ns ++ (k, j) :: ns') (.map fs) (.done y' none) ∧ SameVal y y'
  | [], fs, y, _, h => ⟨y, .cons hj h, .refl⟩
  | (a, u) :: ns, fs, y, hk, h => by
    rw [List.map_cons, List.mem_cons, not_or] at hk
    rw [List.cons_append] at h
    cases h with
    | @cons _ _ _ _ _ w _ h1 h2 =>
      have hs := setKey_comm (Ne.symm hk.1) w g fs
      obtain ⟨y1, h3, h4⟩ := decEntries_cong (.map hs.1 hs.2) h2
      obtain ⟨y2, h5, h6⟩ := decEntries_delay hj hk.2 h3
      exact ⟨y2, .cons h1 h5, h4.trans h6⟩

theorem decEntries_shuffled {U : Univ} {o : Options} {k t : Ty} : ∀ {ms ns : List (Bytes × JVal)}, (∀ p ∈ ms, OrderFree U o t p.2) → ShuffledM ms ns →
    ∀ {m m' y : GV}, SameVal m m' → DecEntries U o k t ms m (.done y none) → ∃ y', DecEntries U o k t ns m' (.done y' none) ∧ SameVal y y'
  | [], ns, _, hs, m, m', y, hm, h => by cases hs; cases h; exact ⟨m', .nil, hm⟩
  | (key, j) :: ms, ns, hj, hs, m, m', y, hm, h => by
    cases hs with
    | insert h1 h2 h3 =>
      cases h with
      | cons h4 h5 =>
        obtain ⟨fs, rfl, hk, he⟩ := hm.map_inv
        obtain ⟨g, h6, h7⟩ := hj _ List.mem_cons_self h1 .refl h4
        have hs := SameEntries.setKey ⟨hk, he⟩ key h7
        obtain ⟨y1, h8, h9⟩ := decEntries_shuffled (fun p hp => hj p (by simp [hp])) h3 (.map hs.1 hs.2) h5
        obtain ⟨y2, h10, h11⟩ := decEntries_delay h6 h2 h8
        exact ⟨y2, h10, h9.trans h11⟩

theorem find_apart {cs : List Cand} (hp : cs.Pairwise fun a b => IApart a.index b.index) {a b : Bytes} (hab : a ≠ b) {c d : Cand}
    (hc : cs.find? (fun c => c.key = a) = some c) (hd : cs.find? (fun c => c.key = b) = some d) : IApart c.index d.index := by
  have hck : c.key = a := by simpa using List.find?_some hc
  have hdk : d.key = b := by simpa using List.find?_some hd
  have : Std.Symm fun a b : Cand => IApart a.index b.index := ⟨fun _ _ h => h.symm⟩
  exact hp.forall (List.mem_of_find?_eq_some hc) (List.mem_of_find?_eq_some hd) (fun h => hab (by rw [← hck, ← hdk, h]))

theorem decMembers_delay {U : Univ} {o : Options} {cs : List Cand} (hp : cs.Pairwise fun a b => IApart a.index b.index) {k : Bytes} {j : JVal} {c : Cand}
    (hc : cs.find? (fun c => c.key = k) = some c) {x g : GV} (hj : Decodes U o c.typ x j (.done g none)) {ns' : List (Bytes × JVal)} :
    ∀ {ns : List (Bytes × JVal)} {v y : GV}, k ∉ ns.map Prod.fst → sub v c.index = some x → DecMembers U o cs (ns ++ ns') (put g v c.index) (.done y none) →
    DecMembers U o cs (ns ++ (k, j) :: ns') v (.done y none)
  | [], v, y, _, hx, h => .cons hc hx hj h
  | (a, u) :: ns, v, y, hk, hx, h => by
    rw [List.map_cons, List.mem_cons, not_or] at hk
    rw [List.cons_append] at h ⊢
    cases h with
    | unknown h1 h2 => exact .unknown h1 (decMembers_delay hp hc hj hk.2 hx h2)
    | cons h1 h2 h3 h4 =>
      have ha := find_apart hp hk.1 hc h1
      rw [iapart_sub_put ha] at h2
      rw [iapart_put_comm ha] at h4
      exact .cons h1 h2 h3 (decMembers_delay hp hc hj hk.2 (by rw [iapart_sub_put ha.symm, hx]) h4)
    | lost h1 h2 h3 h4 =>
      have ha := find_apart hp hk.1 hc h1
      rw [iapart_sub_put ha] at h2
      exact .lost h1 h2 h3 (decMembers_delay hp hc hj hk.2 hx h4)

theorem decMembers_delayUnknown {U : Univ} {o : Options} {cs : List Cand} {k : Bytes} {j : JVal} (hc : cs.find? (fun c => c.key = k) = none)
    {ns' : List (Bytes × JVal)} : ∀ {ns : List (Bytes × JVal)} {v y : GV}, DecMembers U o cs (ns ++ ns') v (.done y none) →
    DecMembers U o cs (ns ++ (k, j) :: ns') v (.done y none)
  | [], v, y, h => .unknown hc h
  | (a, u) :: ns, v, y, h => by
    rw [List.cons_append] at h ⊢
    cases h with
    | unknown h1 h2 => exact .unknown h1 (decMembers_delayUnknown hc h2)
    | cons h1 h2 h3 h4 => exact .cons h1 h2 h3 (decMembers_delayUnknown hc h4)
    | lost h1 h2 h3 h4 => exact .lost h1 h2 h3 (decMembers_delayUnknown hc h4)

theorem decMembers_delayLost {U : Univ} {o : Options} {cs : List Cand} (hp : cs.Pairwise fun a b => IApart a.index b.index) {k : Bytes} {j : JVal} {c : Cand}
    (hc : cs.find? (fun c => c.key = k) = some c) {g : GV} (hj : Decodes U o c.typ (U.zero c.typ) j (.done g none)) {ns' : List (Bytes × JVal)} :
    ∀ {ns : List (Bytes × JVal)} {v y : GV}, k ∉ ns.map Prod.fst → sub v c.index = none → DecMembers U o cs (ns ++ ns') v (.done y none) →
    DecMembers U o cs (ns ++ (k, j) :: ns') v (.done y none)
  | [], v, y, _, hx, h => .lost hc hx hj h
  | (a, u) :: ns, v, y, hk, hx, h => by
    rw [List.map_cons, List.mem_cons, not_or] at hk
    rw [List.cons_append] at h ⊢
    cases h with
    | unknown h1 h2 => exact .unknown h1 (decMembers_delayLost hp hc hj hk.2 hx h2)
    | cons h1 h2 h3 h4 =>
      have ha := find_apart hp hk.1 hc h1
      exact .cons h1 h2 h3 (decMembers_delayLost hp hc hj hk.2 (by rw [iapart_sub_put ha.symm, hx]) h4)
    | lost h1 h2 h3 h4 => exact .lost h1 h2 h3 (decMembers_delayLost hp hc hj hk.2 hx h4)

theorem decMembers_shuffled {U : Univ} {o : Options} {cs : List Cand} (hp : cs.Pairwise fun a b => IApart a.index b.index) :
    ∀ {ms ns : List (Bytes × JVal)}, (∀ m ∈ ms, ∀ c, cs.find? (fun c => c.key = m.1) = some c → OrderFree U o c.typ m.2) → ShuffledM ms ns →
    ∀ {v v' y : GV}, SameVal v v' → DecMembers U o cs ms v (.done y none) → ∃ y', DecMembers U o cs ns v' (.done y' none) ∧ SameVal y y'
  | [], ns, _, hs, v, v', y, hv, h => by cases hs; cases h; exact ⟨v', .nil, hv⟩
  | (key, j) :: ms, ns, hj, hs, v, v', y, hv, h => by
    cases hs with
    | insert h1 h2 h3 =>
      have hj' := fun m hm => hj m (List.mem_cons_of_mem _ hm)
      cases h with
      | unknown h4 h5 =>
        obtain ⟨y', h6, h7⟩ := decMembers_shuffled hp hj' h3 hv h5
        exact ⟨y', decMembers_delayUnknown h4 h6, h7⟩
      | cons h4 h5 h6 h7 =>
        obtain ⟨x', h8, h9⟩ := (sameVal_sub _ hv).2 _ h5
        obtain ⟨g, h10, h11⟩ := hj _ List.mem_cons_self _ h4 h1 h9 h6
        obtain ⟨y', h12, h13⟩ := decMembers_shuffled hp hj' h3 (sameVal_put h11 _ hv) h7
        exact ⟨y', decMembers_delay hp h4 h10 h2 h8 h12, h13⟩
      | lost h4 h5 h6 h7 =>
        have h8 := (sameVal_sub _ hv).1 h5
        obtain ⟨g, h10, _⟩ := hj _ List.mem_cons_self _ h4 h1 .refl h6
        obtain ⟨y', h12, h13⟩ := decMembers_shuffled hp hj' h3 hv h7
        exact ⟨y', decMembers_delayLost hp h4 h10 h2 h8 h12, h13⟩

theorem out_map_done {r : Out GV} {f : GV → GV} {y : GV} (h : .done y none = r.map f) : ∃ z, r = .done z none ∧ y = f z := by
  cases r with
  | panic => cases h
  | done z e => cases h; exact ⟨z, rfl, rfl⟩

theorem fits_orderFree {U : Univ} (hU : U.Ok) (hE : U.EmbedsStructs) {o : Options} {t : Ty} {j : JVal} (h : Fits U o t j) : OrderFree U o t j := by
  induction h with
  | null =>
    intro j' v v' y hs hv hd
    cases hs
    generalize hr : Out.done y none = r at hd
    cases hd with
    | null hz => cases hr; exact ⟨_, .null hz, .refl⟩
    | mismatch | anyErr | anyPanic => cases hr
    | ptr _ h | ptrNew _ h => exact absurd rfl h
    | sliceNull hb => cases hr; obtain ⟨ys, rfl, hl, hx⟩ := hv.slice_inv; exact ⟨_, .sliceNull hb, .slice hl hx⟩
    | nilSliceNull hb => cases hr; cases hv; exact ⟨_, .nilSliceNull hb, .refl⟩
    | mapNull hb => cases hr; exact ⟨_, .mapNull hb, hv⟩
    | any h => cases hr; exact ⟨_, .any h, .refl⟩
  | bool hb =>
    intro j' v v' y hs hv hd
    cases hs
    generalize hr : Out.done y none = r at hd
    cases hd with
    | mismatch | anyErr | anyPanic => cases hr
    | ptr hb' | ptrNew hb' => rw [hb] at hb'; cases hb'
    | bool hb => cases hr; cases hv; exact ⟨_, .bool hb, .refl⟩
    | any => simp [base_any] at hb
  | @int t k raw hb hi =>
    intro j' v v' y hs hv hd
    cases hs
    generalize hr : Out.done y none = r at hd
    cases hd with
    | mismatch | intErr | uintErr | floatErr | anyErr | anyPanic => cases hr
    | ptr hb' | ptrNew hb' => rw [hb] at hb'; cases hb'
    | int hb hi => cases hr; cases hv; exact ⟨_, .int hb hi, .refl⟩
    | uint hb' | float hb' => rw [hb] at hb'; cases hb'
    | any => simp [base_any] at hb
  | uint hb hi =>
    intro j' v v' y hs hv hd
    cases hs
    generalize hr : Out.done y none = r at hd
    cases hd with
    | mismatch | intErr | uintErr | floatErr | anyErr | anyPanic => cases hr
    | ptr hb' | ptrNew hb' => rw [hb] at hb'; cases hb'
    | uint hb hi => cases hr; cases hv; exact ⟨_, .uint hb hi, .refl⟩
    | int hb' | float hb' => rw [hb] at hb'; cases hb'
    | any => simp [base_any] at hb
  | float hb hi =>
    intro j' v v' y hs hv hd
    cases hs
    generalize hr : Out.done y none = r at hd
    cases hd with
    | mismatch | intErr | uintErr | floatErr | anyErr | anyPanic => cases hr
    | ptr hb' | ptrNew hb' => rw [hb] at hb'; cases hb'
    | float hb hi => cases hr; cases hv; exact ⟨_, .float hb hi, .refl⟩
    | int hb' | uint hb' => rw [hb] at hb'; cases hb'
    | any => simp [base_any] at hb
  | str hb =>
    intro j' v v' y hs hv hd
    cases hs
    generalize hr : Out.done y none = r at hd
    cases hd with
    | mismatch | anyErr | anyPanic => cases hr
    | ptr hb' | ptrNew hb' => rw [hb] at hb'; cases hb'
    | str hb => cases hr; cases hv; exact ⟨_, .str hb, .refl⟩
    | any => simp [base_any] at hb
  | @ptr t e j hb _ ih =>
    intro j' v v' y hs hv hd
    generalize hr : Out.done y none = r at hd
    cases hd with
    | null hz => cases hr; cases hs; exact ⟨_, .null hz, .refl⟩
    | mismatch hw => cases hr
    | ptr hb' hn hd =>
      rw [hb] at hb'; cases hb'
      obtain ⟨z, rfl, rfl⟩ := out_map_done hr
      obtain ⟨x', rfl, hx⟩ := hv.ptr_inv
      obtain ⟨z', h1, h2⟩ := ih hs hx hd
      exact ⟨_, .ptr hb (mt hs.null_iff.2 hn) h1, .ptr h2⟩
    | ptrNew hb' hn hd =>
      rw [hb] at hb'; cases hb'
      obtain ⟨z, rfl, rfl⟩ := out_map_done hr
      cases hv
      obtain ⟨z', h1, h2⟩ := ih hs .refl hd
      exact ⟨_, .ptrNew hb (mt hs.null_iff.2 hn) h1, .ptr h2⟩
    | sliceNull hb' | nilSliceNull hb' | mapNull hb' | bool hb' | str hb' => rw [hb] at hb'; cases hb'
    | int hb' | uint hb' | float hb' | slice hb' | sliceGrow hb' | nilSlice hb' | array hb' | map hb' | struct hb' => rw [hb] at hb'; cases hb'
    | intErr | uintErr | floatErr | anyErr | anyPanic => cases hr
    | any => simp [base_any] at hb
  | @slice t e js hb hf ih =>
    intro j' v v' y hs hv hd
    obtain ⟨js', rfl, hl⟩ := hs.arr_inv
    have hlen := shuffledL_length hl
    generalize hr : Out.done y none = r at hd
    cases hd with
    | mismatch hw => cases hr
    | @slice _ e' arr len _ r hb' hle hd =>
      rw [hb] at hb'; cases hb'
      cases r with
      | none => cases hr
      | some p =>
        cases hr
        obtain ⟨ys, rfl, h1, h2⟩ := hv.slice_inv
        obtain ⟨q, h3, h4, h5, h6⟩ := decElems_shuffled hE hf (fun j hj => ih j hj) hl h1 h2 hd
        exact ⟨_, .slice hb (by omega) h3, by rw [h4]; exact .slice h5 h6⟩
    | @sliceGrow _ e' arr len _ r hb' hle hd =>
      rw [hb] at hb'; cases hb'
      cases r with
      | none => cases hr
      | some p =>
        cases hr
        obtain ⟨ys, rfl, h1, h2⟩ := hv.slice_inv
        obtain ⟨q, h3, h4, h5, h6⟩ := decElems_shuffled hE hf (fun j hj => ih j hj) hl (xs' := List.replicate js'.length (U.zero e)) (by simp [hlen])
          (fun i x y hx hy => by rw [← hlen, hx] at hy; cases hy; exact .refl) hd
        exact ⟨_, .sliceGrow hb (by omega) h3, by rw [h4]; exact .slice h5 h6⟩
    | @nilSlice _ e' _ r hb' hd =>
      rw [hb] at hb'; cases hb'
      cases r with
      | none => cases hr
      | some p =>
        cases hr
        cases hv
        obtain ⟨q, h3, h4, h5, h6⟩ := decElems_shuffled hE hf (fun j hj => ih j hj) hl (xs' := List.replicate js'.length (U.zero e)) (by simp [hlen])
          (fun i x y hx hy => by rw [← hlen, hx] at hy; cases hy; exact .refl) hd
        exact ⟨_, .nilSlice hb h3, by rw [h4]; exact .slice h5 h6⟩
    | ptr hb' | ptrNew hb' | array hb' => rw [hb] at hb'; cases hb'
    | anyErr | anyPanic => cases hr
    | any => simp [base_any] at hb
  | @array t n e js hb hf ih =>
    intro j' v v' y hs hv hd
    obtain ⟨js', rfl, hl⟩ := hs.arr_inv
    generalize hr : Out.done y none = r at hd
    cases hd with
    | mismatch hw => cases hr
    | @array _ n' e' xs _ r hb' hd =>
      rw [hb] at hb'; cases hb'
      cases r with
      | none => cases hr
      | some p =>
        cases hr
        obtain ⟨ys, rfl, h1, h2⟩ := hv.array_inv
        obtain ⟨q, h3, h5, h6⟩ := decArr_shuffled hE hf (fun j hj => ih j hj) hl h1 h2 hd
        exact ⟨_, .array hb h3, .array h5 h6⟩
    | ptr hb' | ptrNew hb' | slice hb' | sliceGrow hb' | nilSlice hb' => rw [hb] at hb'; cases hb'
    | anyErr | anyPanic => cases hr
    | any => simp [base_any] at hb
  | @map t k e ms hb hf ih =>
    intro j' v v' y hs hv hd
    obtain ⟨ns, rfl, hl⟩ := hs.obj_inv
    generalize hr : Out.done y none = r at hd
    cases hd with
    | mismatch hw => cases hr
    | map hb' hd =>
      rw [hb] at hb'; cases hb'
      subst hr
      obtain ⟨y', h1, h2⟩ := decEntries_shuffled (fun p hp => ih p hp) hl hv hd
      exact ⟨y', .map hb h1, h2⟩
    | ptr hb' | ptrNew hb' | struct hb' => rw [hb] at hb'; cases hb'
    | anyErr | anyPanic => cases hr
    | any => simp [base_any] at hb
  | @struct t i cs ms hb hc hf ih =>
    intro j' v v' y hs hv hd
    obtain ⟨ns, rfl, hl⟩ := hs.obj_inv
    generalize hr : Out.done y none = r at hd
    cases hd with
    | mismatch hw => cases hr
    | struct hb' hc' hd =>
      rw [hb] at hb'; cases hb'
      cases cands_unique hc hc'
      subst hr
      obtain ⟨y', h1, h2⟩ := decMembers_shuffled (resolve_apart hU hE hc) (fun m hm c hc => ih m hm c hc) hl hv hd
      exact ⟨y', .struct hb hc h1, h2⟩
    | ptr hb' | ptrNew hb' | map hb' => rw [hb] at hb'; cases hb'
    | anyErr | anyPanic => cases hr
    | any => simp [base_any] at hb
  | @any t i j hb hj =>
    intro j' v v' y hs hv hd
    generalize hr : Out.done y none = r at hd
    cases hd with
    | any h => cases hr; obtain ⟨x', h1, h2⟩ := anyOf_shuffled hs h; exact ⟨x', .any h1, h2⟩
    | null hz => simp [NullZero, hb] at hz
    | mismatch hw => cases hr
    | bool hb' | int hb' | uint hb' | float hb' | str hb' | ptr hb' | ptrNew hb' | sliceNull hb' | nilSliceNull hb' | slice hb' | sliceGrow hb' | nilSlice hb'
    | array hb' | mapNull hb' | map hb' | struct hb' => rw [hb] at hb'; cases hb'
    | intErr | uintErr | floatErr | anyErr | anyPanic => cases hr

theorem shuffledL_mem : ∀ {xs ys : List JVal}, ShuffledL xs ys → ∀ y ∈ ys, ∃ x ∈ xs, Shuffled x y
  | _, _, .nil, y, hy => by cases hy
  | _, _, .cons h1 h2, y, hy => by
    rcases List.mem_cons.1 hy with rfl | hy
    · exact ⟨_, List.mem_cons_self, h1⟩
    · obtain ⟨x, h3, h4⟩ := shuffledL_mem h2 y hy; exact ⟨x, List.mem_cons_of_mem _ h3, h4⟩

theorem shuffledM_mem : ∀ {ms ns : List (Bytes × JVal)}, ShuffledM ms ns → ∀ n ∈ ns, ∃ m ∈ ms, m.1 = n.1 ∧ Shuffled m.2 n.2
  | _, _, .nil, y, hy => by cases hy
  | _, _, .insert (k := k) (y := z) (ns := n1) (ns' := n2) h1 _ h2, y, hy => by
    rw [List.mem_append, List.mem_cons] at hy
    have : y = (k, z) ∨ y ∈ n1 ++ n2 := by
      rcases hy with hy | rfl | hy
      · exact .inr (List.mem_append_left _ hy)
      · exact .inl rfl
      · exact .inr (List.mem_append_right _ hy)
    rcases this with rfl | hy
    · exact ⟨_, List.mem_cons_self, rfl, h1⟩
    · obtain ⟨x, h3, h4⟩ := shuffledM_mem h2 y hy; exact ⟨x, List.mem_cons_of_mem _ h3, h4⟩

theorem Fits.shuffled {U : Univ} {o : Options} {t : Ty} {j : JVal} (h : Fits U o t j) : ∀ {j'}, Shuffled j j' → Fits U o t j' := by
  induction h with
  | null => intro j' hs; cases hs; exact .null
  | bool hb => intro j' hs; cases hs; exact .bool hb
  | int hb hi => intro j' hs; cases hs; exact .int hb hi
  | uint hb hi => intro j' hs; cases hs; exact .uint hb hi
  | float hb hi => intro j' hs; cases hs; exact .float hb hi
  | str hb => intro j' hs; cases hs; exact .str hb
  | ptr hb _ ih => intro j' hs; exact .ptr hb (ih hs)
  | slice hb _ ih =>
    intro j' hs
    obtain ⟨ys, rfl, hl⟩ := hs.arr_inv
    exact .slice hb fun y hy => by obtain ⟨x, h1, h2⟩ := shuffledL_mem hl y hy; exact ih x h1 h2
  | array hb _ ih =>
    intro j' hs
    obtain ⟨ys, rfl, hl⟩ := hs.arr_inv
    exact .array hb fun y hy => by obtain ⟨x, h1, h2⟩ := shuffledL_mem hl y hy; exact ih x h1 h2
  | map hb _ ih =>
    intro j' hs
    obtain ⟨ns, rfl, hl⟩ := hs.obj_inv
    exact .map hb fun n hn => by obtain ⟨m, h1, _, h2⟩ := shuffledM_mem hl n hn; exact ih m h1 h2
  | struct hb hc _ ih =>
    intro j' hs
    obtain ⟨ns, rfl, hl⟩ := hs.obj_inv
    exact .struct hb hc fun n hn c hf => by obtain ⟨m, h1, h3, h2⟩ := shuffledM_mem hl n hn; exact ih m h1 c (by rw [h3]; exact hf) h2
  | any hb hj =>
    intro j' hs
    refine .any hb fun h => ?_
    rename_i j
    cases hx : anyOf j with
    | none => exact hj hx
    | some x => obtain ⟨y, h1, _⟩ := anyOf_shuffled hs hx; rw [h] at h1; cases h1

end Verif.Unjson
