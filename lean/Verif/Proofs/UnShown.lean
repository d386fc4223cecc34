import Verif.Spec.UnShown
import Verif.Proofs.UnDecM
import Verif.Proofs.UnResolve

namespace Verif.Unjson
open Verif Verif.Float Verif.Spec Verif.Njson

theorem SameShown.quiet {U : Univ} {o : Options} {t : Ty} {v v' : GV} (h : SameShown U o t v v') :
    v' = v ∨ (marshalMeth U t = none ∧ NoOmit U o.omitMethod t) := by
  cases h with
  | same => exact .inl rfl
  | ptr _ h1 h2 | slice _ h1 h2 | array _ h1 h2 | map _ h1 h2 | iface _ h1 h2 | ifacePtr _ h1 h2 | struct _ h1 h2 => exact .inr ⟨h1, h2⟩

theorem omitCustom_has {U : Univ} {name : Bytes} {a : Bool} {t : Ty} {v : GV} {b : Option Bool} (h : OmitCustom U name a t v b) : ¬ NoOmit U name t := by
  rintro ⟨h1, h2, h3⟩
  cases h with
  | own _ h => rw [h1] at h; cases h
  | nilPtr _ hb h => rw [h2 _ hb] at h; cases h
  | pointee _ hb h => rw [h2 _ hb] at h; cases h
  | pointer _ hb h => rw [h3 hb] at h; cases h

theorem omitCustom_shown {U : Univ} {o : Options} {a : Bool} {t : Ty} {v v' : GV} {b : Option Bool} (h : OmitCustom U o.omitMethod a t v b)
    (hs : SameShown U o t v v') : OmitCustom U o.omitMethod a t v' b := by
  rcases hs.quiet with rfl | ⟨_, hn⟩
  · exact h
  · exact (omitCustom_has h hn).elim

theorem omitVal_shown {U : Univ} {o : Options} {a : Bool} {t : Ty} {v : GV} {b : Option Bool} (h : OmitVal U o.omitMethod a t v b) :
    ∀ {v'}, SameShown U o t v v' → OmitVal U o.omitMethod a t v' b := by
  refine OmitVal.rec (motive_1 := fun t v b _ => ∀ {v'}, SameShown U o t v v' → OmitVal U o.omitMethod a t v' b)
    (motive_2 := fun t xs b _ => ∀ {ys : List GV}, xs.length = ys.length → (∀ (i : Nat) x y, xs[i]? = some x → ys[i]? = some y → SameShown U o t x y) →
      OmitVals U o.omitMethod a t ys b) ?_ ?_ ?_ ?_ ?_ ?_ ?_ ?_ h
  case refine_1 => intro t v b h v' hs; exact .custom (omitCustom_shown h hs)
  case refine_2 =>
    intro t v h1 h2 h3 v' hs
    have he : v.empty = v'.empty := by
      cases hs with
      | same => rfl
      | ptr => simp [GV.empty]
      | slice => simp [GV.empty]
      | array hb => exact (h2 _ _ hb).elim
      | @map _ _ _ _ es fs _ _ _ hk =>
        cases es <;> cases fs <;> simp [GV.empty] at hk ⊢
      | iface => simp [GV.empty]
      | ifacePtr => simp [GV.empty]
      | struct => simp [GV.empty]
    rw [he]; exact .plain h1 h2 h3
  case refine_3 =>
    intro t n e xs b h1 h2 h3 ih v' hs
    cases hs with
    | same => exact .array h1 h2 h3
    | array hb _ _ hl hs => rw [h2] at hb; cases hb; exact .array h1 h2 (ih hl hs)
  case refine_4 => intro t n i v h1 h2 h3 v' _; exact .iface h1 h2 h3
  case refine_5 => intro t ys hl _; cases ys with
    | nil => exact .nil
    | cons => cases hl
  case refine_6 => intro t x xs _ ih ys hl hs; cases ys with
    | nil => cases hl
    | cons y ys => exact .no (ih (hs 0 x y rfl rfl))
  case refine_7 => intro t x xs _ ih ys hl hs; cases ys with
    | nil => cases hl
    | cons y ys => exact .panic (ih (hs 0 x y rfl rfl))
  case refine_8 => intro t x xs b _ _ ih ih' ys hl hs; cases ys with
    | nil => cases hl
    | cons y ys => exact .yes (ih (hs 0 x y rfl rfl)) (ih' (by simpa using hl) fun i x y hx hy => hs (i + 1) x y (by simpa using hx) (by simpa using hy))

/-- The fields `cs` of two structs are shown alike. -/
def FieldsShown (U : Univ) (o : Options) (cs : List Cand) (v v' : GV) : Prop :=
  (∀ c ∈ cs, sub v c.index = none ↔ sub v' c.index = none) ∧
  (∀ c ∈ cs, ∀ x y, sub v c.index = some x → sub v' c.index = some y → SameShown U o c.typ x y)

theorem FieldsShown.refl {U : Univ} {o : Options} {cs : List Cand} {v : GV} : FieldsShown U o cs v v :=
  ⟨fun _ _ => Iff.rfl, fun _ _ _ _ hx hy => by rw [hx] at hy; cases hy; exact .same⟩

theorem FieldsShown.tail {U : Univ} {o : Options} {c : Cand} {cs : List Cand} {v v' : GV} (h : FieldsShown U o (c :: cs) v v') : FieldsShown U o cs v v' :=
  ⟨fun c hc => h.1 c (List.mem_cons_of_mem _ hc), fun c hc => h.2 c (List.mem_cons_of_mem _ hc)⟩

theorem FieldsShown.none_ {U : Univ} {o : Options} {c : Cand} {cs : List Cand} {v v' : GV} (h : FieldsShown U o (c :: cs) v v') (hx : sub v c.index = none) :
    sub v' c.index = none := (h.1 c List.mem_cons_self).1 hx

theorem FieldsShown.some_ {U : Univ} {o : Options} {c : Cand} {cs : List Cand} {v v' : GV} (h : FieldsShown U o (c :: cs) v v') {x : GV}
    (hx : sub v c.index = some x) : ∃ y, sub v' c.index = some y ∧ SameShown U o c.typ x y := by
  cases hy : sub v' c.index with
  | none => rw [(h.1 c List.mem_cons_self).2 hy] at hx; cases hx
  | some y => exact ⟨y, rfl, h.2 c List.mem_cons_self x y hx hy⟩

/-- The fields of two values of a struct type. -/
theorem SameShown.fields {U : Univ} {o : Options} {t : Ty} {v v' : GV} {j : Nat} {cs : List Cand} (hs : SameShown U o t v v') (hb : U.base t = .struct j)
    (hc : Cands U o (U.fields j) 0 [] cs) : FieldsShown U o (resolve [] cs) v v' := by
  cases hs with
  | same => exact .refl
  | ptr h | slice h | array h | map h | iface h | ifacePtr h => rw [hb] at h; cases h
  | struct h _ _ hc' h1 h2 =>
    rw [hb] at h; cases h
    cases cands_unique hc hc'
    exact ⟨h1, h2⟩

theorem omitsM_shown {U : Univ} {o : Options} {a : Bool} {c : Cand} {x : GV} {b : Option Bool} (h : OmitsM U o a c x b) :
    ∀ {x'}, SameShown U o c.typ x x' → OmitsM U o a c x' b := by
  refine OmitsM.rec (motive_1 := fun a c x b _ => ∀ {x'}, SameShown U o c.typ x x' → OmitsM U o a c x' b)
    (motive_2 := fun a cs v b _ => ∀ {v'}, FieldsShown U o cs v v' → OmitsAllM U o a cs v' b) ?_ ?_ ?_ ?_ ?_ ?_ ?_ ?_ ?_ h
  case refine_1 => intro a c x h x' _; exact .keep h
  case refine_2 => intro a c x b h1 h2 h3 x' hs; exact .value h1 h2 (omitVal_shown h3 hs)
  case refine_3 => intro a c x j b h1 h2 h3 h4 x' hs; exact .custom h1 h2 h3 (omitCustom_shown h4 hs)
  case refine_4 => intro a c x j cs b h1 h2 h3 h4 h5 _ ih x' hs; exact .struct h1 h2 h3 h4 h5 (ih (hs.fields h2 h5))
  case refine_5 => intro a v v' _; exact .nil
  case refine_6 => intro a c cs v b h1 _ ih v' hs; exact .absent (hs.none_ h1) (ih hs.tail)
  case refine_7 =>
    intro a c cs v x h1 _ ih v' hs
    obtain ⟨y, hy, hs'⟩ := hs.some_ h1
    exact .no hy (ih hs')
  case refine_8 =>
    intro a c cs v x h1 _ ih v' hs
    obtain ⟨y, hy, hs'⟩ := hs.some_ h1
    exact .panic hy (ih hs')
  case refine_9 =>
    intro a c cs v x b h1 _ _ ih ih' v' hs
    obtain ⟨y, hy, hs'⟩ := hs.some_ h1
    exact .yes hy (ih hs') (ih' hs.tail)

theorem elems_shown {U : Univ} {o : Options} {t : Ty} (xs : List GV) : ∀ (i : Nat) x y, xs[i]? = some x → xs[i]? = some y → SameShown U o t x y :=
  fun _ _ _ hx hy => by rw [hx] at hy; cases hy; exact .same

theorem via_has {U : Univ} {c : Bool} {h : Hint} {t : Ty} {m : Meth} (hv : via U c h t = some m) : marshalMeth U t ≠ none := by
  intro hm
  unfold via at hv
  split at hv
  · cases hv
  · rw [hm] at hv; cases hv

/-- What is not shown makes no difference. -/
theorem wArg_shown {U : Univ} {o : Options} {t : Ty} {v : GV} {w : Except Fail Bytes} (hw : WArg U o t v w) :
    ∀ v', SameArg U o t v v' → WArg U o t v' w := by
  refine WArg.rec
    (motive_1 := fun c a o h t v w _ => ∀ v', SameShown U o t v v' → Writes U c a o h t v' w)
    (motive_2 := fun c a o h t xs w _ => ∀ ys : List GV, xs.length = ys.length → (∀ (i : Nat) x y, xs[i]? = some x → ys[i]? = some y → SameShown U o t x y) →
      WElems U c a o h t ys w)
    (motive_3 := fun c o k t es w _ => ∀ fs : List (GV × GV), es.map Prod.fst = fs.map Prod.fst →
      (∀ (i : Nat) p q, es[i]? = some p → fs[i]? = some q → SameShown U o t p.2 q.2) → WEntries U c o k t fs w)
    (motive_4 := fun a o v cs w _ => ∀ v', FieldsShown U o cs v v' → WFields U a o v' cs w)
    (motive_5 := fun o t v w _ => ∀ v', SameArg U o t v v' → WArg U o t v' w)
    ?_ ?_ ?_ ?_ ?_ ?_ ?_ ?_ ?_ ?_ ?_ ?_ ?_ ?_ ?_ ?_ ?_ ?_ ?_ ?_ ?_ ?_ ?_ ?_ ?_ ?_ ?_ ?_ ?_ ?_ ?_ ?_ ?_ ?_ ?_ ?_ hw
  case refine_1 =>
    intro c a o h t v m hv v' hs
    rcases hs.quiet with rfl | ⟨hn, _⟩
    · exact .meth hv
    · exact (via_has hv hn).elim
  case refine_2 => intro c a o h t b hv hb v' hs; cases hs; exact .bool hv hb
  case refine_3 => intro c a o h t k i hv hb v' hs; cases hs; exact .int hv hb
  case refine_4 => intro c a o h t k i hv hb v' hs; cases hs; exact .uint hv hb
  case refine_5 => intro c a o h t k i hv hb v' hs; cases hs; exact .float hv hb
  case refine_6 => intro c a o h t k hv hb v' hs; cases hs; exact .str hv hb
  case refine_7 => intro c a o h t e hv hb v' hs; cases hs; exact .nilPtr hv hb
  case refine_8 =>
    intro c a o h t e v w hv hb h1 ih v' hs
    cases hs with
    | same => exact .ptr hv hb h1
    | ptr hb' _ _ hs => rw [hb] at hb'; cases hb'; exact .ptr hv hb (ih _ hs)
  case refine_9 => intro c a o h t e hv hb v' hs; cases hs; exact .nilSlice hv hb
  case refine_10 =>
    intro c a o h t e arr len w hv hb h1 ih v' hs
    cases hs with
    | same => exact .slice hv hb h1
    | slice hb' _ _ hl hs => rw [hb] at hb'; cases hb'; exact .slice hv hb (ih _ hl hs)
  case refine_11 =>
    intro c a o h t n e xs w hv hb h1 ih v' hs
    cases hs with
    | same => exact .array hv hb h1
    | array hb' _ _ hl hs => rw [hb] at hb'; cases hb'; exact .array hv hb (ih _ hl hs)
  case refine_12 => intro c a o h t k e hv hb v' hs; cases hs; exact .nilMap hv hb
  case refine_13 =>
    intro c a o h t k e es w hv hb h1 ih v' hs
    cases hs with
    | same => exact .map hv hb h1
    | map hb' _ _ hl hs => rw [hb] at hb'; cases hb'; exact .map hv hb (ih _ hl hs)
  case refine_14 => intro c a o h t i hv hb v' hs; cases hs; exact .nilIface hv hb
  case refine_15 =>
    intro c a o h t i t' v w hv hb h1 ih v' hs
    cases hs with
    | same => exact .iface hv hb h1
    | iface _ _ _ hp hm hs => exact .iface hv hb (ih _ (.value hp hm hs))
    | ifacePtr _ _ _ hp hm hs => exact .iface hv hb (ih _ (.ptr hp hm hs))
  case refine_16 =>
    intro c a o h t j cs fs w hv hb hc h1 ih v' hs
    have hf := hs.fields hb hc
    cases hs with
    | same => exact .struct hv hb hc h1
    | struct => exact .struct hv hb hc (ih _ hf)
  case refine_17 =>
    intro c a o h t ys hl _
    cases ys with
    | nil => exact .nil
    | cons => cases hl
  case refine_18 =>
    intro c a o h t x xs f _ ih ys hl hs
    cases ys with
    | nil => cases hl
    | cons y ys => exact .stop (ih _ (hs 0 x y rfl rfl))
  case refine_19 =>
    intro c a o h t x xs s w _ _ ih ih' ys hl hs
    cases ys with
    | nil => cases hl
    | cons y ys =>
      exact .cons (ih _ (hs 0 x y rfl rfl)) (ih' _ (by simpa using hl) fun i x y hx hy => hs (i + 1) x y (by simpa using hx) (by simpa using hy))
  case refine_20 =>
    intro c o k t fs hl _
    cases fs with
    | nil => exact .nil
    | cons => cases hl
  case refine_21 =>
    intro c o k t x y es f hk fs hl _
    cases fs with
    | nil => cases hl
    | cons q fs =>
      rw [List.map_cons, List.map_cons, List.cons.injEq] at hl
      obtain ⟨z, u⟩ := q
      have hz : x = z := hl.1
      subst hz; exact .key hk
  case refine_22 =>
    intro c o k t x y es s f hk _ ih fs hl hs
    cases fs with
    | nil => cases hl
    | cons q fs =>
      rw [List.map_cons, List.map_cons, List.cons.injEq] at hl
      obtain ⟨z, u⟩ := q
      have hz : x = z := hl.1
      subst hz; exact .stop hk (ih _ (hs 0 _ _ rfl rfl))
  case refine_23 =>
    intro c o k t x y es s s' w hk _ _ ih ih' fs hl hs
    cases fs with
    | nil => cases hl
    | cons q fs =>
      rw [List.map_cons, List.map_cons, List.cons.injEq] at hl
      obtain ⟨z, u⟩ := q
      have hz : x = z := hl.1
      subst hz
      exact .cons hk (ih _ (hs 0 _ _ rfl rfl)) (ih' _ hl.2 fun i x y hx hy => hs (i + 1) x y (by simpa using hx) (by simpa using hy))
  case refine_24 => intro a o v v' _; exact .nil
  case refine_25 => intro a o v c cs w h1 _ ih v' hs; exact .absent (hs.none_ h1) (ih _ hs.tail)
  case refine_26 =>
    intro a o v c cs x h1 ho v' hs
    obtain ⟨y, hy, hs'⟩ := hs.some_ h1
    exact .omitPanic hy (omitsM_shown ho hs')
  case refine_27 =>
    intro a o v c cs w x h1 ho _ ih v' hs
    obtain ⟨y, hy, hs'⟩ := hs.some_ h1
    exact .omitted hy (omitsM_shown ho hs') (ih _ hs.tail)
  case refine_28 =>
    intro a o v c cs x f h1 ho _ ih v' hs
    obtain ⟨y, hy, hs'⟩ := hs.some_ h1
    exact .stop hy (omitsM_shown ho hs') (ih _ hs')
  case refine_29 =>
    intro a o v c cs x s w h1 ho _ _ ih ih' v' hs
    obtain ⟨y, hy, hs'⟩ := hs.some_ h1
    exact .present hy (omitsM_shown ho hs') (ih _ hs') (ih' _ hs.tail)
  case refine_30 => intro o t v h1 h2 h3 v' _; exact .invalid h1 h2 h3
  case refine_31 => intro o t e v h1 h2 h3 v' _; exact .ptrInvalid h1 h2 h3
  case refine_32 =>
    intro o t e hb hn v' hs
    cases hs with
    | same => exact .nilPtr hb hn
    | value h => exact (h _ hb).elim
  case refine_33 =>
    intro o t e v m hb hm v' hs
    cases hs with
    | same => exact .ptrMeth hb hm
    | value h => exact (h _ hb).elim
    | ptr _ h => rw [hm] at h; cases h
  case refine_34 =>
    intro o t e v w hb hm hn h1 ih v' hs
    cases hs with
    | same => exact .ptr hb hm hn h1
    | value h => exact (h _ hb).elim
    | ptr hb' _ hs => rw [hb] at hb'; cases hb'; exact .ptr hb hm hn (ih _ hs)
  case refine_35 =>
    intro o t v m hb hm v' hs
    cases hs with
    | same => exact .meth hb hm
    | value _ h => rw [hm] at h; cases h
    | ptr h => exact (hb _ h).elim
  case refine_36 =>
    intro o t v w hb hm hn h1 ih v' hs
    cases hs with
    | same => exact .value hb hm hn h1
    | value _ _ hs => exact .value hb hm hn (ih _ hs)
    | ptr h => exact (hb _ h).elim

/-! ## Fields that are not written -/

/-- No candidate is at or below a field that is skipped. -/
theorem cands_skipped {U : Univ} {o : Options} {fs : List Field} {i : Nat} {idx : List Int} {cs : List Cand} (h : Cands U o fs i idx cs) :
    ∀ c ∈ cs, ∃ (k : Nat) (r : List Int), c.index = idx ++ (k : Int) :: r ∧ i ≤ k ∧ ∃ f, fs[k - i]? = some f ∧ f.exported = true ∧ (o.parseField f).1 ≠ b!"-" := by
  induction h with
  | nil => simp
  | @skip f fs i idx cs _ _ ih =>
    intro c hc
    obtain ⟨k, r, h1, h2, g, hg, h3⟩ := ih c hc
    refine ⟨k, r, h1, by omega, g, ?_, h3⟩
    rw [show k - i = (k - (i + 1)) + 1 by omega]; simpa using hg
  | @embed f fs i idx cs ds idx' j hx hn h3 hin _ _ ih2 =>
    intro c hc
    rcases List.mem_append.1 hc with hc | hc
    · obtain ⟨k, r, h1, h2⟩ := cands_index hin c hc
      obtain ⟨r', hr⟩ := embedding_index h3
      exact ⟨i, r' ++ (k : Int) :: r, by rw [h1, hr]; simp, Nat.le_refl _, f, by simp, hx, hn⟩
    · obtain ⟨k, r, h1, h2, g, hg, h3⟩ := ih2 c hc
      refine ⟨k, r, h1, by omega, g, ?_, h3⟩
      rw [show k - i = (k - (i + 1)) + 1 by omega]; simpa using hg
  | @field f fs i idx cs idx' hx hn h3 _ ih =>
    intro c hc
    rcases List.mem_cons.1 hc with rfl | hc
    · obtain ⟨r', hr⟩ := embedding_index h3
      exact ⟨i, r', by rw [hr]; simp, Nat.le_refl _, f, by simp, hx, hn⟩
    · obtain ⟨k, r, h1, h2, g, hg, h3⟩ := ih c hc
      refine ⟨k, r, h1, by omega, g, ?_, h3⟩
      rw [show k - i = (k - (i + 1)) + 1 by omega]; simpa using hg

end Verif.Unjson
