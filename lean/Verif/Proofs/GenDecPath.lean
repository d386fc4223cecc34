import Verif.Proofs.GenDecCompile
import Verif.Proofs.UnTyped

/-! # Selectors on the left of an assignment -/

namespace Verif.Gen
open Verif Verif.Float Verif.Spec Verif.Njson Verif.Unjson

/-- A struct, or a pointer to one. -/
def wrapS (p : Bool) (fs : List GV) : GV := if p then .ptr (.struct fs) else .struct fs

theorem getPath_wrap (p : Bool) (fs : List GV) (i : Nat) (is : List Nat) : getPath (wrapS p fs) (i :: is) = (fs[i]?).bind fun x => getPath x is := by
  cases p <;> simp only [wrapS, Bool.false_eq_true, if_false, if_true, getPath] <;> cases fs[i]? <;> rfl

theorem setPath_wrap {p : Bool} {fs : List GV} {i : Nat} {x : GV} (hx : fs[i]? = some x) (y : GV) (is : List Nat) :
    setPath y (wrapS p fs) (i :: is) = wrapS p (fs.set i (setPath y x is)) := by
  cases p <;> simp only [wrapS, Bool.false_eq_true, if_false, if_true, setPath, hx]

theorem getPath_inv {v : GV} {i : Nat} {is : List Nat} {y : GV} (h : getPath v (i :: is) = some y) :
    ∃ p fs x, v = wrapS p fs ∧ fs[i]? = some x ∧ getPath x is = some y := by
  have key : ∀ p fs, v = wrapS p fs → ∃ p fs x, v = wrapS p fs ∧ fs[i]? = some x ∧ getPath x is = some y := by
    intro p fs hv
    rw [hv, getPath_wrap] at h
    cases hx : fs[i]? with
    | none => rw [hx] at h; cases h
    | some x => rw [hx] at h; exact ⟨p, fs, x, hv, hx, h⟩
  cases v with
  | struct fs => exact key false fs rfl
  | ptr v =>
    cases v with
    | struct fs => exact key true fs rfl
    | _ => simp [getPath] at h
  | _ => simp [getPath] at h

theorem getPath_append : ∀ {p q : List Nat} {v : GV}, getPath v (p ++ q) = (getPath v p).bind fun w => getPath w q := by
  intro p
  induction p with
  | nil => intros; rfl
  | cons i p ih =>
    intro q v
    have key : ∀ b fs, getPath (wrapS b fs) (i :: p ++ q) = (getPath (wrapS b fs) (i :: p)).bind fun w => getPath w q := by
      intro b fs
      rw [List.cons_append, getPath_wrap, getPath_wrap]
      cases fs[i]? with
      | none => rfl
      | some x => exact ih
    cases v with
    | struct fs => exact key false fs
    | ptr v =>
      cases v with
      | struct fs => exact key true fs
      | _ => simp [getPath]
    | _ => simp [getPath]

theorem get_set : ∀ {p : List Nat} {v w : GV} (y : GV), getPath v p = some w → getPath (setPath y v p) p = some y := by
  intro p
  induction p with
  | nil => intros; rfl
  | cons i p ih =>
    intro v w y h
    obtain ⟨b, fs, x, rfl, hx, h⟩ := getPath_inv h
    rw [setPath_wrap hx, getPath_wrap]
    rw [List.getElem?_set_self (List.getElem?_eq_some_iff.1 hx).1]
    exact ih y h

theorem set_get : ∀ {p : List Nat} {v w : GV}, getPath v p = some w → setPath w v p = v := by
  intro p
  induction p with
  | nil => intro v w h; cases h; rfl
  | cons i p ih =>
    intro v w h
    obtain ⟨b, fs, x, rfl, hx, h⟩ := getPath_inv h
    rw [setPath_wrap hx, ih h]
    congr 1
    obtain ⟨hl, rfl⟩ := List.getElem?_eq_some_iff.1 hx
    simp

theorem set_set : ∀ {p : List Nat} {v w : GV} (y z : GV), getPath v p = some w → setPath z (setPath y v p) p = setPath z v p := by
  intro p
  induction p with
  | nil => intros; rfl
  | cons i p ih =>
    intro v w y z h
    obtain ⟨b, fs, x, rfl, hx, h⟩ := getPath_inv h
    rw [setPath_wrap hx, setPath_wrap hx, setPath_wrap (x := setPath y x p) (by rw [List.getElem?_set_self (List.getElem?_eq_some_iff.1 hx).1]), ih y z h,
      List.set_set]

theorem setPath_append : ∀ {p q : List Nat} {v w : GV} (y : GV), getPath v p = some w → setPath y v (p ++ q) = setPath (setPath y w q) v p := by
  intro p
  induction p with
  | nil => intro q v w y h; cases h; rfl
  | cons i p ih =>
    intro q v w y h
    obtain ⟨b, fs, x, rfl, hx, h⟩ := getPath_inv h
    rw [List.cons_append, setPath_wrap hx, setPath_wrap hx, ih y h]

/-- Statements about the content of one place. -/
theorem ensureAll_prefix {U : Univ} {pre : List Nat} : ∀ {L : List (List Nat × Ty)} {v w : GV}, getPath v pre = some w →
    ensureAll U (L.map fun g => (pre ++ g.1, g.2)) v = (ensureAll U L w).map fun w' => setPath w' v pre := by
  intro L
  induction L with
  | nil =>
    intro v w h
    simp only [List.map_nil, ensureAll, Option.map_some]
    rw [set_get h]
  | cons g L ih =>
    intro v w h
    obtain ⟨p, e⟩ := g
    simp only [List.map_cons]
    rw [ensureAll, ensureAll, getPath_append, h]
    simp only [Option.bind_some]
    have hset : ensureAll U (L.map fun g => (pre ++ g.1, g.2)) (setPath (.ptr (U.zero e)) v (pre ++ p)) =
        (ensureAll U L (setPath (.ptr (U.zero e)) w p)).map fun w' => setPath w' v pre := by
      rw [setPath_append _ h, ih (get_set _ h)]
      congr 1
      funext w'
      exact set_set _ _ h
    cases getPath w p with
    | none => rfl
    | some x =>
      cases x with
      | nilPtr => exact hset
      | _ => exact ih h

theorem ensureOf_prefix {U : Univ} : ∀ {is pre : List Nat} {t : Ty}, ensureOf U t pre is = (ensureOf U t [] is).map fun g => (pre ++ g.1, g.2) := by
  intro is
  induction is with
  | nil => intros; rfl
  | cons i is ih =>
    intro pre t
    cases is with
    | nil => rfl
    | cons i2 is =>
      rw [ensureOf, ensureOf]
      cases fieldTy U t i with
      | none => rfl
      | some t' =>
        simp only [List.nil_append]
        rw [ih, ih (pre := [i]), List.map_append, List.map_map]
        congr 1
        · cases t' <;> simp
        · congr 1
          funext g
          simp

/-- What a selector leads through: a struct or a pointer to one. -/
theorem fieldTy_some {U : Univ} {t t' : Ty} {i : Nat} (h : fieldTy U t i = some t') :
    ∃ j f, (U.base t = .struct j ∨ ∃ e, U.base t = .ptr e ∧ U.base e = .struct j) ∧ (U.fields j)[i]? = some f ∧ f.typ = t' := by
  unfold fieldTy at h
  cases hb : U.base t with
  | struct j =>
    rw [hb] at h
    obtain ⟨f, hf, rfl⟩ := Option.map_eq_some_iff.1 h
    exact ⟨j, f, .inl rfl, hf, rfl⟩
  | ptr e =>
    rw [hb] at h
    dsimp only at h
    cases hb' : U.base e with
    | struct j =>
      rw [hb'] at h
      obtain ⟨f, hf, rfl⟩ := Option.map_eq_some_iff.1 h
      exact ⟨j, f, .inr ⟨e, rfl, hb'⟩, hf, rfl⟩
    | _ => rw [hb'] at h; cases h
  | _ => rw [hb] at h; cases h

theorem struct_set {U : Univ} {t : Ty} {j : Nat} {fs : List GV} (hb : U.base t = .struct j) (h : HasTy U t (.struct fs)) {i : Nat} {f : Field} {y : GV}
    (hf : (U.fields j)[i]? = some f) (hy : HasTy U f.typ y) : HasTy U t (.struct (fs.set i y)) := by
  obtain ⟨fs', h0, hl, hh⟩ := h.inv_struct hb
  cases h0
  refine .struct hb (by rw [List.length_set]; exact hl) fun i' f' v' hf' hv' => ?_
  by_cases hi : i = i'
  · subst hi
    have hlt : i < fs.length := by rw [hl]; exact (List.getElem?_eq_some_iff.1 hf).1
    rw [List.getElem?_set_self hlt] at hv'
    cases hv'
    rw [hf] at hf'; cases hf'
    exact hy
  · rw [List.getElem?_set_ne hi] at hv'
    exact hh i' f' v' hf' hv'

/-- The struct that a selector leads through, after a nil pointer has been replaced. -/
theorem open_struct {U : Univ} (hU : U.Ok) {t t' : Ty} {i : Nat} (h : fieldTy U t i = some t') {v : GV} (hv : HasTy U t v) :
    ∃ j f p fs x, (U.fields j)[i]? = some f ∧ f.typ = t' ∧ fs[i]? = some x ∧ HasTy U t' x ∧ openStruct U t v = some (j, fs, wrapS p) ∧
      HasTy U t (wrapS p fs) ∧ (∀ y, HasTy U t' y → HasTy U t (wrapS p (fs.set i y))) ∧
      ((v = wrapS p fs) ∨ ∃ e, U.base t = .ptr e ∧ v = .nilPtr ∧ wrapS p fs = .ptr (U.zero e)) := by
  obtain ⟨j, f, hb, hf, rfl⟩ := fieldTy_some h
  have key : ∀ {s : Ty} {w : GV}, U.base s = .struct j → HasTy U s w → ∃ fs x, w = .struct fs ∧ fs[i]? = some x ∧ HasTy U f.typ x := by
    intro s w hs hw
    obtain ⟨fs, rfl, hl, hh⟩ := hw.inv_struct hs
    have hlt : i < fs.length := by rw [hl]; exact (List.getElem?_eq_some_iff.1 hf).1
    exact ⟨fs, fs[i], rfl, List.getElem?_eq_getElem hlt, hh i f _ hf (List.getElem?_eq_getElem hlt)⟩
  rcases hb with hb | ⟨e, hb, hb'⟩
  · obtain ⟨fs, x, rfl, hx, hxt⟩ := key hb hv
    refine ⟨j, f, false, fs, x, hf, rfl, hx, hxt, ?_, hv, fun y hy => struct_set hb hv hf hy, .inl rfl⟩
    unfold openStruct; rw [hb]; rfl
  · rcases hv.inv_ptr hb with rfl | ⟨w, rfl, hw⟩
    · have hz := hasTy_zero hU e
      obtain ⟨fs, x, hzs, hx, hxt⟩ := key hb' hz
      rw [hzs] at hz
      refine ⟨j, f, true, fs, x, hf, rfl, hx, hxt, ?_, .ptr hb hz, fun y hy => .ptr hb (struct_set hb' hz hf hy), .inr ⟨e, hb, rfl, by rw [hzs]; rfl⟩⟩
      unfold openStruct; rw [hb]; simp only [hb', hzs]; rfl
    · obtain ⟨fs, x, rfl, hx, hxt⟩ := key hb' hw
      refine ⟨j, f, true, fs, x, hf, rfl, hx, hxt, ?_, hv, fun y hy => .ptr hb (struct_set hb' hw hf hy), .inl rfl⟩
      unfold openStruct; rw [hb]; simp only [hb']; rfl

/-- The generated code gets at the field of a pick, whatever pointers are nil. -/
theorem ensure_focus {U : Univ} (hU : U.Ok) : ∀ {is : List Nat} {i : Nat} {t tt : Ty} {v : GV}, pathTy U t (i :: is) = some tt →
    (∀ pre post t0 e, i :: is = pre ++ post → pre ≠ [] → post ≠ [] → pathTy U t pre = some t0 → U.base t0 = .ptr e → t0 = .ptr e) →
    HasTy U t v → (∀ e, U.base t = .ptr e → v ≠ .nilPtr) →
    ∃ x mk w, focus U t v (i :: is) = some (x, mk) ∧ HasTy U tt x ∧ ensureAll U (ensureOf U t [] (i :: is)) v = some w ∧
      getPath w (i :: is) = some x ∧ (∀ y, setPath y w (i :: is) = mk y) ∧ ∀ y, HasTy U tt y → HasTy U t (mk y) := by
  intro is
  induction is with
  | nil =>
    intro i t tt v hp _ hv hn
    rw [pathTy] at hp
    obtain ⟨t', hf, hp⟩ := Option.bind_eq_some_iff.1 hp
    cases hp
    obtain ⟨j, f, p, fs, x, h1, h2, h3, h4, h5, h6, h7, h8⟩ := open_struct hU hf hv
    rcases h8 with rfl | ⟨e, hb, h, -⟩
    · refine ⟨x, _, _, ?_, h4, rfl, ?_, ?_, h7⟩
      · rw [focus, h5]; simp only [h1, h3, focus, Option.map_some]; rfl
      · rw [getPath_wrap, h3]; rfl
      · intro y; rw [setPath_wrap h3]; rfl
    · exact absurd h (hn e hb)
  | cons i2 is ih =>
    intro i t tt v hp hemb hv hn
    rw [pathTy] at hp
    obtain ⟨t', hf, hp⟩ := Option.bind_eq_some_iff.1 hp
    obtain ⟨j, f, p, fs, x, h1, h2, h3, h4, h5, h6, h7, h8⟩ := open_struct hU hf hv
    rcases h8 with rfl | ⟨e, hb, h, -⟩
    swap; · exact absurd h (hn e hb)
    -- the next struct
    obtain ⟨t'', hf', -⟩ := Option.bind_eq_some_iff.1 (by rw [pathTy] at hp; exact hp)
    obtain ⟨j', f', p', fs', x', k1, k2, k3, k4, k5, k6, k7, k8⟩ := open_struct hU hf' h4
    have hlt := (List.getElem?_eq_some_iff.1 h3).1
    have hnext : ∀ e, U.base t' = .ptr e → wrapS p' fs' ≠ .nilPtr := by
      intro e _; cases p' <;> simp [wrapS]
    have hemb' : ∀ pre post t0 e, i2 :: is = pre ++ post → pre ≠ [] → post ≠ [] → pathTy U t' pre = some t0 → U.base t0 = .ptr e → t0 = .ptr e := by
      intro pre post t0 e hs _ hpost ht0 hb
      refine hemb (i :: pre) post t0 e (by rw [hs]; rfl) (by simp) hpost ?_ hb
      rw [pathTy, hf]; exact ht0
    obtain ⟨z, mk, w, g1, g2, g3, g4, g5, g6⟩ := ih hp hemb' k6 hnext
    have hfoc : focus U t' x (i2 :: is) = some (z, mk) := by
      rw [focus] at g1 ⊢
      rw [k5]
      have : openStruct U t' (wrapS p' fs') = some (j', fs', wrapS p') := by
        rcases k8 with k8 | ⟨e, hb, rfl, hz⟩
        · rw [← k8]; exact k5
        · rw [hz]
          unfold openStruct at k5 ⊢
          rw [hb] at k5 ⊢
          exact k5
      rw [this] at g1
      exact g1
    -- the first statement
    have hens : ensureAll U (ensureOf U t [] (i :: i2 :: is)) (wrapS p fs) = some (wrapS p (fs.set i w)) := by
      rw [ensureOf, hf]
      simp only [List.nil_append]
      rw [ensureOf_prefix]
      have hpath : pathTy U t [i] = some t' := by rw [pathTy, hf]; rfl
      rcases k8 with rfl | ⟨e, hb, rfl, hz⟩
      · have hrest := ensureAll_prefix (U := U) (L := ensureOf U t' [] (i2 :: is)) (v := wrapS p fs) (pre := [i]) (w := wrapS p' fs')
          (by rw [getPath_wrap, h3]; rfl)
        rw [g3, Option.map_some, setPath_wrap h3] at hrest
        generalize (ensureOf U t' [] (i2 :: is)).map (fun g => ([i] ++ g.1, g.2)) = L at hrest ⊢
        cases t' with
        | ptr e =>
          show ensureAll U (([i], e) :: L) _ = _
          rw [ensureAll, getPath_wrap, h3]
          cases p' <;> exact hrest
        | _ => exact hrest
      · obtain rfl := hemb [i] (i2 :: is) t' e rfl (by simp) (by simp) hpath hb
        have hrest := ensureAll_prefix (U := U) (L := ensureOf U (.ptr e) [] (i2 :: is)) (v := wrapS p (fs.set i (.ptr (U.zero e)))) (pre := [i])
          (w := wrapS p' fs') (by rw [getPath_wrap, List.getElem?_set_self hlt, hz]; rfl)
        rw [g3, Option.map_some, setPath_wrap (List.getElem?_set_self hlt), List.set_set] at hrest
        show ensureAll U (([i], e) :: _) _ = _
        rw [ensureAll, getPath_wrap, h3]
        simp only [Option.bind_some, getPath]
        rw [setPath_wrap h3]
        exact hrest
    refine ⟨z, fun y => wrapS p (fs.set i (mk y)), wrapS p (fs.set i w), ?_, g2, hens, ?_, ?_, fun y hy => h7 _ (g6 y hy)⟩
    · rw [focus, h5]; simp only [h1, h3]; rw [h2, hfoc]; rfl
    · rw [getPath_wrap, List.getElem?_set_self hlt]; exact g4
    · intro y
      rw [setPath_wrap (List.getElem?_set_self hlt), List.set_set, g5]

end Verif.Gen
