import Verif.Proofs.GenDecPath

/-! # What an assignment to a field leaves alone -/

namespace Verif.Gen
open Verif Verif.Float Verif.Spec Verif.Njson Verif.Unjson

theorem apart_cons {i k : Nat} {is ks : List Nat} : Apart (i :: is) (k :: ks) ↔ i ≠ k ∨ i = k ∧ Apart is ks := by
  unfold Apart
  rw [List.cons_prefix_cons, List.cons_prefix_cons]
  by_cases h : i = k
  · subst h; simp
  · simp [h, Ne.symm h]

theorem apart_nil_left {q : List Nat} : ¬ Apart [] q := fun h => h.1 List.nil_prefix
theorem apart_nil_right {p : List Nat} : ¬ Apart p [] := fun h => h.2 List.nil_prefix
theorem Apart.symm {p q : List Nat} (h : Apart p q) : Apart q p := ⟨h.2, h.1⟩

theorem open_wrap {U : Univ} {t : Ty} {v : GV} {j : Nat} {fs : List GV} {p : Bool} (h : openStruct U t v = some (j, fs, wrapS p)) (fs' : List GV) :
    openStruct U t (wrapS p fs') = some (j, fs', wrapS p) := by
  unfold openStruct at h ⊢
  cases hb : U.base t with
  | struct i =>
    rw [hb] at h
    simp only at h ⊢
    cases v <;> simp only [Option.some.injEq, Prod.mk.injEq, reduceCtorEq] at h
    obtain ⟨rfl, rfl, hp⟩ := h
    have := congrFun hp []
    cases p with
    | true => simp [wrapS] at this
    | false => rfl
  | ptr e =>
    rw [hb] at h
    simp only at h ⊢
    split at h
    swap; · cases h
    rename_i _ _ _ _ hb' _
    simp only [Option.some.injEq, Prod.mk.injEq] at h
    obtain ⟨rfl, rfl, hp⟩ := h
    have := congrFun hp []
    cases p with
    | true => simp only [wrapS, if_true, hb']; rfl
    | false => simp [wrapS] at this
  | _ => rw [hb] at h; cases h

theorem open_base {U : Univ} {t : Ty} {v : GV} {j : Nat} {fs : List GV} {p : Bool} (h : openStruct U t v = some (j, fs, wrapS p)) :
    U.base t = .struct j ∨ ∃ e, U.base t = .ptr e ∧ U.base e = .struct j := by
  unfold openStruct at h
  cases hb : U.base t with
  | struct i =>
    rw [hb] at h
    simp only at h
    cases v <;> simp only [Option.some.injEq, Prod.mk.injEq, reduceCtorEq] at h
    left; rw [h.1]
  | ptr e =>
    rw [hb] at h
    simp only at h
    split at h
    swap; · cases h
    rename_i _ _ _ _ hb' _
    simp only [Option.some.injEq, Prod.mk.injEq] at h
    right; exact ⟨e, rfl, by rw [hb', h.1]⟩
  | _ => rw [hb] at h; cases h

theorem focus_step {U : Univ} {t : Ty} {v : GV} {j : Nat} {fs : List GV} {p : Bool} {i : Nat} {f : Field} {x : GV}
    (h : openStruct U t v = some (j, fs, wrapS p)) (hf : (U.fields j)[i]? = some f) (hx : fs[i]? = some x) (is : List Nat) :
    focus U t v (i :: is) = (focus U f.typ x is).map fun r => (r.1, fun y => wrapS p (fs.set i (r.2 y))) := by
  rw [focus, h]; simp only [hf, hx]

/-- The content of a field, with zeros below nil pointers. -/
def seenAt (U : Univ) (t : Ty) (v : GV) (p : List Nat) : Option GV := (focus U t v p).map Prod.fst

theorem seenAt_step {U : Univ} {t : Ty} {v : GV} {j : Nat} {fs : List GV} {p : Bool} {i : Nat} (h : openStruct U t v = some (j, fs, wrapS p)) (is : List Nat) :
    seenAt U t v (i :: is) = match (U.fields j)[i]?, fs[i]? with
      | some f, some x => seenAt U f.typ x is
      | _, _ => none := by
  unfold seenAt
  rw [focus, h]
  dsimp only
  cases (U.fields j)[i]? <;> cases fs[i]? <;> simp only [Option.map_none, Option.map_map]
  rfl

structure FocusSpec (U : Univ) (t tt : Ty) (v : GV) (p : List Nat) (x : GV) (mk : GV → GV) : Prop where
  found : focus U t v p = some (x, mk)
  typed : HasTy U tt x
  keeps : ∀ y, HasTy U tt y → HasTy U t (mk y)
  get : ∀ y, getPath (mk y) p = some y
  other : ∀ y q z, Apart p q → getPath v q = some z → getPath (mk y) q = some z
  seen : ∀ y q, Apart p q → seenAt U t (mk y) q = seenAt U t v q

theorem focus_spec {U : Univ} (hU : U.Ok) : ∀ {p : List Nat} {t tt : Ty} {v : GV}, pathTy U t p = some tt → HasTy U t v →
    ∃ x mk, FocusSpec U t tt v p x mk := by
  intro p
  induction p with
  | nil =>
    intro t tt v hp hv
    cases hp
    exact ⟨v, id, rfl, hv, fun _ h => h, fun _ => rfl, fun _ _ _ h => absurd h apart_nil_left, fun _ _ h => absurd h apart_nil_left⟩
  | cons i is ih =>
    intro t tt v hp hv
    rw [pathTy] at hp
    obtain ⟨t', hf, hp⟩ := Option.bind_eq_some_iff.1 hp
    obtain ⟨j, f, p, fs, z, h1, rfl, h3, h4, h5, h6, h7, h8⟩ := open_struct hU hf hv
    obtain ⟨x, mk, g⟩ := ih hp h4
    have hlt := (List.getElem?_eq_some_iff.1 h3).1
    refine ⟨x, fun y => wrapS p (fs.set i (mk y)), ?_, g.typed, fun y hy => h7 _ (g.keeps y hy), ?_, ?_, ?_⟩
    · rw [focus_step h5 h1 h3, g.found]; rfl
    · intro y
      rw [getPath_wrap, List.getElem?_set_self hlt]
      exact g.get y
    · intro y q w ha hw
      cases q with
      | nil => exact absurd ha apart_nil_right
      | cons k ks =>
        rcases h8 with rfl | ⟨e, hb, rfl, -⟩
        · rw [getPath_wrap] at hw ⊢
          rcases apart_cons.1 ha with hne | ⟨rfl, ha'⟩
          · rwa [List.getElem?_set_ne hne]
          · rw [h3] at hw
            rw [List.getElem?_set_self hlt]
            exact g.other y ks w ha' hw
        · cases hw
    · intro y q ha
      cases q with
      | nil => exact absurd ha apart_nil_right
      | cons k ks =>
        rw [seenAt_step h5, seenAt_step (open_wrap h5 _)]
        rcases apart_cons.1 ha with hne | ⟨rfl, ha'⟩
        · rw [List.getElem?_set_ne hne]
        · rw [List.getElem?_set_self hlt, h1, h3]
          exact g.seen y ks ha'

/-- A path that can be read leads to what is seen there. -/
theorem seen_of_get {U : Univ} (hU : U.Ok) : ∀ {p : List Nat} {t tt : Ty} {v x : GV}, pathTy U t p = some tt → HasTy U t v → getPath v p = some x →
    seenAt U t v p = some x := by
  intro p
  induction p with
  | nil => intro t tt v x _ _ h; cases h; rfl
  | cons i is ih =>
    intro t tt v x hp hv h
    rw [pathTy] at hp
    obtain ⟨t', hf, hp⟩ := Option.bind_eq_some_iff.1 hp
    obtain ⟨j, f, p, fs, z, h1, rfl, h3, h4, h5, h6, h7, h8⟩ := open_struct hU hf hv
    rw [seenAt_step h5, h1, h3]
    rcases h8 with rfl | ⟨e, hb, rfl, -⟩
    · rw [getPath_wrap, h3] at h
      exact ih hp h4 h
    · cases h

/-- Zero values have the fewest fields within reach. -/
theorem reach_zero {U : Univ} (hU : U.Ok) : ∀ {p : List Nat} {t tt : Ty} {v x : GV}, pathTy U t p = some tt → HasTy U t v →
    getPath (U.zero t) p = some x → ∃ y, getPath v p = some y := by
  intro p
  induction p with
  | nil => intro t tt v x _ _ _; exact ⟨v, rfl⟩
  | cons i is ih =>
    intro t tt v x hp hv h
    rw [pathTy] at hp
    obtain ⟨t', hf, hp⟩ := Option.bind_eq_some_iff.1 hp
    obtain ⟨j, f, hb, h1, rfl⟩ := fieldTy_some hf
    rcases hb with hb | ⟨e, hb, -⟩
    · obtain ⟨fs, rfl, hl, hh⟩ := hv.inv_struct hb
      have hlt : i < fs.length := by rw [hl]; exact (List.getElem?_eq_some_iff.1 h1).1
      rw [zero_base hU, hb, Univ.zero, hU.zero_struct, getPath] at h
      rw [List.getElem?_map, h1] at h
      obtain ⟨y, hy⟩ := ih hp (hh i f _ h1 (List.getElem?_eq_getElem hlt)) h
      exact ⟨y, by rw [getPath, List.getElem?_eq_getElem hlt]; exact hy⟩
    · rw [zero_base hU, hb] at h
      cases h

/-- An assignment to a field makes no field reachable that is not reachable in a value in which the first is. -/
theorem reach_mk {U : Univ} (hU : U.Ok) : ∀ {p q : List Nat} {t tt tq : Ty} {v w x : GV} {mk : GV → GV}, pathTy U t p = some tt → pathTy U t q = some tq →
    HasTy U t v → HasTy U t w → focus U t w p = some (x, mk) → (∃ z, getPath v p = some z) → Apart p q →
    ((∃ z, getPath w q = some z) → ∃ z, getPath v q = some z) → ∀ y z, getPath (mk y) q = some z → ∃ z, getPath v q = some z := by
  intro p
  induction p with
  | nil => intro q t tt tq v w x mk _ _ _ _ _ _ ha; exact absurd ha apart_nil_left
  | cons i is ih =>
    intro q t tt tq v w x mk hp hq hv hw hfo hvp ha hr y z hz
    cases q with
    | nil => exact absurd ha apart_nil_right
    | cons k ks =>
      rw [pathTy] at hp hq
      obtain ⟨t', hf, hp⟩ := Option.bind_eq_some_iff.1 hp
      obtain ⟨tk, hfk, hq⟩ := Option.bind_eq_some_iff.1 hq
      obtain ⟨j, f, pb, fs, xi, h1, rfl, h3, h4, h5, h6, h7, h8⟩ := open_struct hU hf hw
      obtain ⟨jk, fk, pk, fsk, xk, k1, rfl, k3, k4, k5, k6, k7, k8⟩ := open_struct hU hfk hw
      rw [h5] at k5
      simp only [Option.some.injEq, Prod.mk.injEq] at k5
      obtain ⟨rfl, rfl, hpk⟩ := k5
      rw [focus_step h5 h1 h3] at hfo
      obtain ⟨⟨x', mk'⟩, hfo', hmk⟩ := Option.map_eq_some_iff.1 hfo
      cases hmk
      rw [getPath_wrap] at hz
      -- the struct in v
      obtain ⟨zp, hvp⟩ := hvp
      obtain ⟨pv, fv, xv, rfl, hv1, hv2⟩ := getPath_inv hvp
      have hfv : ∀ {i : Nat} {f : Field}, (U.fields j)[i]? = some f → ∃ y, fv[i]? = some y ∧ HasTy U f.typ y := by
        intro i f hf
        have key : ∀ {s : Ty}, U.base s = .struct j → HasTy U s (.struct fv) → ∃ y, fv[i]? = some y ∧ HasTy U f.typ y := by
          intro s hs hh
          obtain ⟨fs', e, hl, hh⟩ := hh.inv_struct hs
          cases e
          have hlt : i < fv.length := by rw [hl]; exact (List.getElem?_eq_some_iff.1 hf).1
          exact ⟨fv[i], List.getElem?_eq_getElem hlt, hh i f _ hf (List.getElem?_eq_getElem hlt)⟩
        have hj := open_base h5
        rcases hj with hj | ⟨e, hb, hj⟩
        · cases pv with
          | false => exact key hj hv
          | true => obtain ⟨fs', e, -⟩ := hv.inv_struct hj; cases e
        · cases pv with
          | false => rcases hv.inv_ptr hb with h | ⟨w, h, -⟩ <;> cases h
          | true =>
            rcases hv.inv_ptr hb with h | ⟨w, h, hw⟩
            · cases h
            · cases h; exact key hj hw
      have hlt := (List.getElem?_eq_some_iff.1 h3).1
      rcases apart_cons.1 ha with hne | ⟨rfl, ha'⟩
      · rw [List.getElem?_set_ne hne, k3] at hz
        rcases h8 with rfl | ⟨e, hb, rfl, he⟩
        · exact hr ⟨z, by rw [getPath_wrap, k3]; exact hz⟩
        · obtain ⟨yk, hy1, hy2⟩ := hfv k1
          have : xk = U.zero fk.typ := by
            cases pb with
            | false => cases he
            | true =>
              have he : GV.struct fs = U.zero e := by simpa [wrapS] using he
              have hb' : U.base e = .struct j := by
                rcases open_base h5 with h | ⟨e', h, h'⟩ <;> rw [hb] at h <;> cases h
                exact h'
              rw [zero_base hU, hb', Univ.zero, hU.zero_struct] at he
              cases he
              rw [List.getElem?_map, k1] at k3
              cases k3; rfl
          subst this
          obtain ⟨r, hr⟩ := reach_zero hU hq hy2 hz
          exact ⟨r, by rw [getPath_wrap, hy1]; exact hr⟩
      · rw [List.getElem?_set_self hlt] at hz
        obtain ⟨yk, hy1, hy2⟩ := hfv h1
        rw [hv1] at hy1; cases hy1
        rw [h1] at k1; cases k1
        rw [h3] at k3; cases k3
        obtain ⟨r, hr⟩ := ih hp hq hy2 h4 hfo' ⟨zp, hv2⟩ ha' (by
          rintro ⟨z', hz'⟩
          rcases h8 with rfl | ⟨e, hb, rfl, he⟩
          · obtain ⟨r, hr⟩ := hr ⟨z', by rw [getPath_wrap, h3]; exact hz'⟩
            rw [getPath_wrap, hv1] at hr
            exact ⟨r, hr⟩
          · have : xi = U.zero f.typ := by
              cases pb with
              | false => cases he
              | true =>
                have he : GV.struct fs = U.zero e := by simpa [wrapS] using he
                have hb' : U.base e = .struct j := by
                  rcases open_base h5 with h | ⟨e', h, h'⟩ <;> rw [hb] at h <;> cases h
                  exact h'
                rw [zero_base hU, hb', Univ.zero, hU.zero_struct] at he
                cases he
                rw [List.getElem?_map, h1] at h3
                cases h3; rfl
            subst this
            exact reach_zero hU hq hy2 hz') y z hz
        exact ⟨r, by rw [getPath_wrap, hv1]; exact hr⟩

end Verif.Gen
