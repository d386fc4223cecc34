import Verif.Spec.UnMapOrder
import Verif.Proofs.UnOrder
import Verif.Proofs.UnMethDet

namespace Verif.Unjson
open Verif Verif.Float Verif.Spec Verif.Njson

/-! ## Values -/

theorem sameVal_empty {v w : GV} (h : SameVal v w) : v.empty = w.empty := by
  have key : ∀ {xs ys : List GV}, xs.length = ys.length → (∀ (i : Nat) x y, xs[i]? = some x → ys[i]? = some y → x.empty = y.empty) → allEmpty xs = allEmpty ys := by
    intro xs
    induction xs with
    | nil => intro ys hl _; cases ys with
      | nil => rfl
      | cons => cases hl
    | cons x xs ih => intro ys hl h; cases ys with
      | nil => cases hl
      | cons y ys =>
        rw [allEmpty, allEmpty, h 0 x y rfl rfl, ih (by simpa using hl) fun i x y hx hy => h (i + 1) x y (by simpa using hx) (by simpa using hy)]
  induction h with
  | refl => rfl
  | ptr => simp [GV.empty]
  | slice => simp [GV.empty]
  | array hl _ ih => rw [GV.empty, GV.empty, key hl ih]
  | @map es fs hk _ _ =>
    rw [GV.empty, GV.empty]
    cases es with
    | nil => cases fs with
      | nil => rfl
      | cons p fs => obtain ⟨_, h⟩ := (hk p.1).2 ⟨p.2, .head⟩; cases h
    | cons p es => cases fs with
      | nil => obtain ⟨_, h⟩ := (hk p.1).1 ⟨p.2, .head⟩; cases h
      | cons => rfl
  | iface => simp [GV.empty]
  | struct => simp [GV.empty]

theorem entryAt_mem {es : List (GV × GV)} {k x : GV} (h : EntryAt es k x) : (k, x) ∈ es := by
  induction h with
  | head => exact List.mem_cons_self
  | tail _ _ ih => exact List.mem_cons_of_mem _ ih

theorem mem_entryAt {k x : GV} : ∀ {es : List (GV × GV)}, (es.map Prod.fst).Nodup → (k, x) ∈ es → EntryAt es k x
  | [], _, h => by cases h
  | (k', y) :: es, hn, h => by
    rw [List.map_cons, List.nodup_cons] at hn
    rcases List.mem_cons.1 h with h | h
    · cases h; exact .head
    · refine .tail ?_ (mem_entryAt hn.2 h)
      rintro rfl
      exact hn.1 (List.mem_map.2 ⟨_, h, rfl⟩)

/-- The entries of one map in the order of the other. -/
theorem align : ∀ {es fs : List (GV × GV)}, (es.map Prod.fst).Nodup → (fs.map Prod.fst).Nodup → SameEntries es fs →
    ∃ gs, gs.Perm fs ∧ List.Forall₂ (fun p q => p.1 = q.1 ∧ SameVal p.2 q.2) es gs
  | [], fs, _, _, h => by
    cases fs with
    | nil => exact ⟨[], .refl _, .nil⟩
    | cons p fs => obtain ⟨_, h⟩ := (h.1 p.1).2 ⟨p.2, .head⟩; cases h
  | (k, x) :: es, fs, hn, hm, h => by
    rw [List.map_cons, List.nodup_cons] at hn
    obtain ⟨y, hy⟩ := (h.1 k).1 ⟨x, .head⟩
    have hmem := entryAt_mem hy
    obtain ⟨A, B, rfl⟩ := List.append_of_mem hmem
    have hp : (A ++ (k, y) :: B).Perm ((k, y) :: (A ++ B)) := List.perm_middle
    have hm' : ((A ++ B).map Prod.fst).Nodup ∧ k ∉ (A ++ B).map Prod.fst := by
      have := ((hp.map Prod.fst).nodup_iff).1 hm
      rw [List.map_cons, List.nodup_cons] at this
      exact ⟨this.2, this.1⟩
    have hAB : ∀ k' z, EntryAt (A ++ B) k' z ↔ k' ≠ k ∧ EntryAt (A ++ (k, y) :: B) k' z := by
      intro k' z
      constructor
      · intro hz
        refine ⟨?_, mem_entryAt hm (hp.mem_iff.2 (List.mem_cons_of_mem _ (entryAt_mem hz)))⟩
        rintro rfl
        exact hm'.2 (List.mem_map.2 ⟨_, entryAt_mem hz, rfl⟩)
      · rintro ⟨hne, hz⟩
        rcases List.mem_cons.1 (hp.mem_iff.1 (entryAt_mem hz)) with hz | hz
        · cases hz; exact absurd rfl hne
        · exact mem_entryAt hm'.1 hz
    have hes : ∀ k' z, EntryAt es k' z ↔ k' ≠ k ∧ EntryAt ((k, x) :: es) k' z := by
      intro k' z
      constructor
      · intro hz
        have hne : k' ≠ k := by rintro rfl; exact hn.1 (List.mem_map.2 ⟨_, entryAt_mem hz, rfl⟩)
        exact ⟨hne, .tail (Ne.symm hne) hz⟩
      · rintro ⟨hne, hz⟩
        cases hz with
        | head => exact absurd rfl hne
        | tail _ hz => exact hz
    have hrest : SameEntries es (A ++ B) := by
      constructor
      · intro k'
        constructor
        · rintro ⟨z, hz⟩
          obtain ⟨hne, hz⟩ := (hes k' z).1 hz
          obtain ⟨u, hu⟩ := (h.1 k').1 ⟨z, hz⟩
          exact ⟨u, (hAB k' u).2 ⟨hne, hu⟩⟩
        · rintro ⟨z, hz⟩
          obtain ⟨hne, hz⟩ := (hAB k' z).1 hz
          obtain ⟨u, hu⟩ := (h.1 k').2 ⟨z, hz⟩
          exact ⟨u, (hes k' u).2 ⟨hne, hu⟩⟩
      · intro k' z u hz hu
        exact h.2 k' z u ((hes k' z).1 hz).2 ((hAB k' u).1 hu).2
    obtain ⟨gs, h1, h2⟩ := align hn.2 hm'.1 hrest
    exact ⟨(k, y) :: gs, (h1.cons _).trans hp.symm, .cons ⟨rfl, h.2 k x y .head hy⟩ h2⟩

theorem GoMaps.sub_ {p : List Int} : ∀ {v x : GV}, GoMaps v → sub v p = some x → GoMaps x := by
  induction p with
  | nil => intro v x h hx; rw [sub] at hx; cases hx; exact h
  | cons i p ih =>
    intro v x h hx
    rw [sub_cons] at hx
    by_cases hi : i = -1
    · rw [if_pos hi] at hx
      cases h with
      | ptr h => exact ih h hx
      | _ => cases hx
    · rw [if_neg hi] at hx
      cases h with
      | @struct fs h =>
        simp only at hx
        cases hy : fs[i.toNat]? with
        | none => rw [hy] at hx; cases hx
        | some y => rw [hy] at hx; exact ih (h y (List.mem_of_getElem? hy)) hx
      | _ => cases hx

/-! ## Omission -/

section
variable {U : Univ} (hB : U.OrderBlind)
include hB

theorem omitCustom_same {name : Bytes} {a : Bool} {t : Ty} {v v' : GV} {b : Option Bool} (h : OmitCustom U name a t v b) (hs : SameVal v v') :
    OmitCustom U name a t v' b := by
  have call : ∀ {t m v v'}, U.omitMethod name t = some m → SameVal v v' → omitCall U name t m v = omitCall U name t m v' := by
    intro t m v v' hm hs
    unfold omitCall
    rw [hB.omitPanics name t v v' hs, hB.omits name t m v v' hm hs]
  cases h with
  | own h1 h2 => rw [call h2 hs]; exact .own h1 h2
  | nilPtr h1 h2 h3 => cases hs; exact .nilPtr h1 h2 h3
  | pointee h1 h2 h3 =>
    obtain ⟨y, rfl, hs'⟩ := hs.ptr_inv
    rw [call h3 hs']; exact .pointee h1 h2 h3
  | pointer h1 h2 h3 => rw [call h3 (.ptr hs)]; exact .pointer h1 h2 h3

theorem omitVal_same {name : Bytes} {a : Bool} {t : Ty} {v : GV} {b : Option Bool} (h : OmitVal U name a t v b) : ∀ {v'}, SameVal v v' → OmitVal U name a t v' b := by
  refine OmitVal.rec (motive_1 := fun t v b _ => ∀ {v'}, SameVal v v' → OmitVal U name a t v' b)
    (motive_2 := fun t xs b _ => ∀ {ys : List GV}, xs.length = ys.length → (∀ (i : Nat) x y, xs[i]? = some x → ys[i]? = some y → SameVal x y) →
      OmitVals U name a t ys b) ?_ ?_ ?_ ?_ ?_ ?_ ?_ ?_ h
  case refine_1 => intro t v b h v' hs; exact .custom (omitCustom_same hB h hs)
  case refine_2 => intro t v h1 h2 h3 v' hs; rw [sameVal_empty hs]; exact .plain h1 h2 h3
  case refine_3 =>
    intro t n e xs b h1 h2 _ ih v' hs
    obtain ⟨ys, rfl, hl, hs⟩ := hs.array_inv
    exact .array h1 h2 (ih hl hs)
  case refine_4 => intro t n i v h1 h2 h3 v' _; exact .iface h1 h2 h3
  case refine_5 => intro t ys hl _; cases ys with
    | nil => exact .nil
    | cons => cases hl
  case refine_6 => intro t x xs _ ih ys hl hs; cases ys with
    | nil => cases hl
    | cons y ys => exact .no (ih (hs 0 x y rfl rfl))
  case refine_7 => intro t x xs _ ih ys hl hs; cases ys with
    | nil => cases hl
    | cons y ys => exact .panic (ih (hs 0 x y rfl rfl))
  case refine_8 => intro t x xs b _ _ ih ih' ys hl hs; cases ys with
    | nil => cases hl
    | cons y ys => exact .yes (ih (hs 0 x y rfl rfl)) (ih' (by simpa using hl) fun i x y hx hy => hs (i + 1) x y (by simpa using hx) (by simpa using hy))

theorem omitsM_same {o : Options} {a : Bool} {c : Cand} {x : GV} {b : Option Bool} (h : OmitsM U o a c x b) : ∀ {x'}, SameVal x x' → OmitsM U o a c x' b := by
  refine OmitsM.rec (motive_1 := fun a c x b _ => ∀ {x'}, SameVal x x' → OmitsM U o a c x' b)
    (motive_2 := fun a cs v b _ => ∀ {v'}, SameVal v v' → OmitsAllM U o a cs v' b) ?_ ?_ ?_ ?_ ?_ ?_ ?_ ?_ ?_ h
  case refine_1 => intro a c x h x' _; exact .keep h
  case refine_2 => intro a c x b h1 h2 h3 x' hs; exact .value h1 h2 (omitVal_same hB h3 hs)
  case refine_3 => intro a c x j b h1 h2 h3 h4 x' hs; exact .custom h1 h2 h3 (omitCustom_same hB h4 hs)
  case refine_4 => intro a c x j cs b h1 h2 h3 h4 h5 _ ih x' hs; exact .struct h1 h2 h3 h4 h5 (ih hs)
  case refine_5 => intro a v v' _; exact .nil
  case refine_6 => intro a c cs v b h1 _ ih v' hs; exact .absent ((sameVal_sub _ hs).1 h1) (ih hs)
  case refine_7 =>
    intro a c cs v x h1 _ ih v' hs
    obtain ⟨y, hy, hs'⟩ := (sameVal_sub _ hs).2 x h1
    exact .no hy (ih hs')
  case refine_8 =>
    intro a c cs v x h1 _ ih v' hs
    obtain ⟨y, hy, hs'⟩ := (sameVal_sub _ hs).2 x h1
    exact .panic hy (ih hs')
  case refine_9 =>
    intro a c cs v x b h1 _ _ ih ih' v' hs
    obtain ⟨y, hy, hs'⟩ := (sameVal_sub _ hs).2 x h1
    exact .yes hy (ih hs') (ih' hs)

theorem callMeth_same {m : Meth} {t : Ty} {v v' : GV} {s : Bytes} (hs : SameVal v v') (h : callMeth U m t v = .ok s) :
    ∃ s', callMeth U m t v' = .ok s' ∧ TextSame s s' := by
  have key : ∀ {t v v'}, SameVal v v' → (if U.impl t m then methText U m t v else .error .panic) = .ok s →
      ∃ s', (if U.impl t m then methText U m t v' else .error .panic) = .ok s' ∧ TextSame s s' := by
    intro t v v' hs h
    split at h
    · rename_i hi; simp only [hi, if_true]; exact hB.text m t v v' s hs h
    · cases h
  unfold callMeth at h ⊢
  cases hb : U.base t <;> simp only [hb] at h ⊢ <;> first
    | exact key hs h
    | (cases hs with
       | refl => exact ⟨s, h, .same⟩
       | iface hs => exact key hs h
       | _ => cases h)

end

/-! ## Text -/

/-- What the entries are written as. -/
theorem wEntriesAll_ok {U : Univ} {c : Bool} {o : Options} {k t : Ty} : ∀ {es : List (GV × GV)} {ms : List (Bytes × Bytes)},
    List.Forall₂ (fun p m => keyText U k p.1 = .ok m.1 ∧ Writes U c false o Hint.none t p.2 (.ok m.2)) es ms →
    WEntries U c o k t es (.ok (ms.map fun m => m.1 ++ [58] ++ m.2))
  | _, _, .nil => .nil
  | _, _, .cons h hs => WEntries.cons h.1 h.2 (wEntriesAll_ok hs)

theorem wEntries_inv {U : Univ} {c : Bool} {o : Options} {k t : Ty} {es : List (GV × GV)} {w : Except Fail (List Bytes)} (h : WEntries U c o k t es w) :
    ∀ {ss}, w = .ok ss → ∃ ms : List (Bytes × Bytes), ss = ms.map (fun m => m.1 ++ [58] ++ m.2) ∧
      List.Forall₂ (fun p m => keyText U k p.1 = .ok m.1 ∧ Writes U c false o Hint.none t p.2 (.ok m.2)) es ms := by
  induction es generalizing w with
  | nil => intro ss hw; cases h; cases hw; exact ⟨[], rfl, .nil⟩
  | cons p es ih =>
    intro ss hw
    cases h with
    | key => cases hw
    | stop => cases hw
    | @cons _ _ _ _ _ _ _ s s' w h1 h2 h3 =>
      cases w with
      | error => cases hw
      | ok ss' =>
        cases hw
        obtain ⟨ms, rfl, hms⟩ := ih h3 rfl
        exact ⟨(s, s') :: ms, rfl, .cons ⟨h1, h2⟩ hms⟩

theorem forall2_perm {α β : Type} {R : α → β → Prop} {xs ys : List α} (hp : xs.Perm ys) : ∀ {bs : List β}, List.Forall₂ R xs bs →
    ∃ cs, bs.Perm cs ∧ List.Forall₂ R ys cs := by
  induction hp with
  | nil => intro bs h; exact ⟨bs, .refl _, h⟩
  | cons x _ ih =>
    intro bs h
    cases h with
    | cons h hs => obtain ⟨cs, h1, h2⟩ := ih hs; exact ⟨_ :: cs, h1.cons _, .cons h h2⟩
  | swap x y l =>
    intro bs h
    cases h with
    | cons h hs => cases hs with
      | cons h' hs => exact ⟨_, .swap _ _ _, .cons h' (.cons h hs)⟩
  | trans _ _ ih1 ih2 =>
    intro bs h
    obtain ⟨cs, h1, h2⟩ := ih1 h
    obtain ⟨ds, h3, h4⟩ := ih2 h2
    exact ⟨ds, h1.trans h3, h4⟩

theorem forall2_get {α β : Type} {R : α → β → Prop} {xs : List α} {ys : List β} (h : List.Forall₂ R xs ys) : ∀ (i : Nat) x y, xs[i]? = some x → ys[i]? = some y → R x y := by
  induction h with
  | nil => intro i x y hx; simp at hx
  | cons h _ ih =>
    intro i x y hx hy
    cases i with
    | zero => cases hx; cases hy; exact h
    | succ i => exact ih i x y (by simpa using hx) (by simpa using hy)

theorem mapAll_ok {α β : Type} {w : Except Fail α} {f : α → β} {b : β} (h : w.map f = .ok b) : ∃ a, w = .ok a ∧ b = f a := by
  cases w with
  | error => cases h
  | ok a => cases h; exact ⟨a, rfl, rfl⟩

/-- Two members with the same name. -/
def MemSame (p q : Bytes × Bytes) : Prop := p.1 = q.1 ∧ TextSame p.2 q.2

theorem objText_same {ms ns ns' : List (Bytes × Bytes)} (h : List.Forall₂ MemSame ms ns) (hp : ns.Perm ns') : TextSame (objText ms) (objText ns') := by
  refine .obj ?_ (fun i p q hp hq => (forall2_get h i p q hp hq).2) hp
  clear hp
  induction h with
  | nil => rfl
  | cons h _ ih => rw [List.map_cons, List.map_cons, h.1, ih]

theorem arrText_same {ss ss' : List Bytes} (h : List.Forall₂ TextSame ss ss') : TextSame (arrText ss) (arrText ss') :=
  .arr h.length_eq (forall2_get h)

theorem objText_eq (ms : List (Bytes × Bytes)) : [123] ++ commas (ms.map fun m => m.1 ++ [58] ++ m.2) ++ [125] = objText ms := rfl

theorem list_tail {xs ys : List GV} {x y : GV} (h : (∀ (i : Nat) a b, (x :: xs)[i]? = some a → (y :: ys)[i]? = some b → SameVal a b)) :
    ∀ (i : Nat) a b, xs[i]? = some a → ys[i]? = some b → SameVal a b :=
  fun i a b ha hb => h (i + 1) a b (by simpa using ha) (by simpa using hb)

/-- A value that is the same but for the order of maps is written as a text that is the same but for the order of members. -/
theorem writes_same {U : Univ} (hB : U.OrderBlind) {c a : Bool} {o : Options} {h : Hint} {t : Ty} {v : GV} {w : Except Fail Bytes} (hw : Writes U c a o h t v w) :
    ∀ s, w = .ok s → ∀ v', SameVal v v' → GoMaps v → GoMaps v' → ∃ s', Writes U c a o h t v' (.ok s') ∧ TextSame s s' := by
  refine Writes.rec
    (motive_1 := fun c a o h t v w _ => ∀ s, w = .ok s → ∀ v', SameVal v v' → GoMaps v → GoMaps v' → ∃ s', Writes U c a o h t v' (.ok s') ∧ TextSame s s')
    (motive_2 := fun c a o h t xs w _ => ∀ ss, w = .ok ss → ∀ ys : List GV, xs.length = ys.length → (∀ (i : Nat) x y, xs[i]? = some x → ys[i]? = some y → SameVal x y) →
      (∀ x ∈ xs, GoMaps x) → (∀ y ∈ ys, GoMaps y) → ∃ ss', WElems U c a o h t ys (.ok ss') ∧ List.Forall₂ TextSame ss ss')
    (motive_3 := fun c o k t es w _ => ∀ ss, w = .ok ss → ∀ fs : List (GV × GV), List.Forall₂ (fun p q => p.1 = q.1 ∧ SameVal p.2 q.2) es fs →
      (∀ p ∈ es, GoMaps p.2) → (∀ p ∈ fs, GoMaps p.2) → ∃ ms ns : List (Bytes × Bytes), ss = ms.map (fun m => m.1 ++ [58] ++ m.2) ∧ List.Forall₂ MemSame ms ns ∧
        List.Forall₂ (fun p m => keyText U k p.1 = .ok m.1 ∧ Writes U c false o Hint.none t p.2 (.ok m.2)) fs ns)
    (motive_4 := fun a o v cs w _ => ∀ ss, w = .ok ss → ∀ v', SameVal v v' → GoMaps v → GoMaps v' → ∃ ms ns : List (Bytes × Bytes),
      ss = ms.map (fun m => m.1 ++ [58] ++ m.2) ∧ List.Forall₂ MemSame ms ns ∧ WFields U a o v' cs (.ok (ns.map fun m => m.1 ++ [58] ++ m.2)))
    (motive_5 := fun o t v w _ => ∀ s, w = .ok s → ∀ v', SameVal v v' → GoMaps v → GoMaps v' → ∃ s', WArg U o t v' (.ok s') ∧ TextSame s s')
    ?_ ?_ ?_ ?_ ?_ ?_ ?_ ?_ ?_ ?_ ?_ ?_ ?_ ?_ ?_ ?_ ?_ ?_ ?_ ?_ ?_ ?_ ?_ ?_ ?_ ?_ ?_ ?_ ?_ ?_ ?_ ?_ ?_ ?_ ?_ ?_ hw
  case refine_1 =>
    intro c a o h t v m hv s hw v' hs _ _
    obtain ⟨s', h1, h2⟩ := callMeth_same hB hs hw
    exact ⟨s', h1 ▸ .meth hv, h2⟩
  case refine_2 => intro c a o h t b hv hb s hw v' hs _ _; cases hs; cases hw; exact ⟨_, .bool hv hb, .same⟩
  case refine_3 => intro c a o h t k i hv hb s hw v' hs _ _; cases hs; cases hw; exact ⟨_, .int hv hb, .same⟩
  case refine_4 => intro c a o h t k i hv hb s hw v' hs _ _; cases hs; cases hw; exact ⟨_, .uint hv hb, .same⟩
  case refine_5 => intro c a o h t k i hv hb s hw v' hs _ _; cases hs; exact ⟨s, hw ▸ .float hv hb, .same⟩
  case refine_6 => intro c a o h t k hv hb s hw v' hs _ _; cases hs; cases hw; exact ⟨_, .str hv hb, .same⟩
  case refine_7 => intro c a o h t e hv hb s hw v' hs _ _; cases hs; cases hw; exact ⟨_, .nilPtr hv hb, .same⟩
  case refine_8 =>
    intro c a o h t e v w hv hb _ ih s hw v' hs hg hg'
    obtain ⟨y, rfl, hsy⟩ := hs.ptr_inv; replace hs := hsy
    cases hg with | ptr hg => cases hg' with | ptr hg' =>
    obtain ⟨s', h1, h2⟩ := ih s hw y hs hg hg'
    exact ⟨s', .ptr hv hb h1, h2⟩
  case refine_9 => intro c a o h t e hv hb s hw v' hs _ _; cases hs; cases hw; exact ⟨_, .nilSlice hv hb, .same⟩
  case refine_10 =>
    intro c a o h t e arr len w hv hb _ ih s hw v' hs hg hg'
    obtain ⟨ys, rfl, hl, hs⟩ := hs.slice_inv
    cases hg with | slice hg => cases hg' with | slice hg' =>
    obtain ⟨ss, rfl, rfl⟩ := mapAll_ok hw
    have hl' : (arr.take len).length = (ys.take len).length := by simp [hl]
    have hs' : ∀ (i : Nat) x y, (arr.take len)[i]? = some x → (ys.take len)[i]? = some y → SameVal x y := by
      intro i x y hx hy
      by_cases hi : i < len
      · rw [List.getElem?_take_of_lt hi] at hx hy; exact hs i x y hx hy
      · rw [List.getElem?_take_eq_none (by omega)] at hx; cases hx
    obtain ⟨ss', h1, h2⟩ := ih ss rfl _ hl' hs' (fun x hx => hg x (List.mem_of_mem_take hx)) fun x hx => hg' x (List.mem_of_mem_take hx)
    exact ⟨_, .slice hv hb h1, arrText_same h2⟩
  case refine_11 =>
    intro c a o h t n e xs w hv hb _ ih s hw v' hs hg hg'
    obtain ⟨ys, rfl, hl, hs⟩ := hs.array_inv
    cases hg with | array hg => cases hg' with | array hg' =>
    obtain ⟨ss, rfl, rfl⟩ := mapAll_ok hw
    obtain ⟨ss', h1, h2⟩ := ih ss rfl _ hl hs hg hg'
    exact ⟨_, .array hv hb h1, arrText_same h2⟩
  case refine_12 => intro c a o h t k e hv hb s hw v' hs _ _; cases hs; cases hw; exact ⟨_, .nilMap hv hb, .same⟩
  case refine_13 =>
    intro c a o h t k e es w hv hb _ ih s hw v' hs hg hg'
    obtain ⟨fs, rfl, h1, h2⟩ := hs.map_inv
    cases hg with | map hn hg => cases hg' with | map hn' hg' =>
    obtain ⟨ss, rfl, rfl⟩ := mapAll_ok hw
    obtain ⟨gs, hp, hal⟩ := align hn hn' ⟨h1, h2⟩
    obtain ⟨ms, ns, rfl, hmn, hgs⟩ := ih ss rfl gs hal hg fun p hpm => hg' p (hp.mem_iff.1 hpm)
    obtain ⟨ns', hpn, hfs⟩ := forall2_perm hp hgs
    exact ⟨_, .map hv hb (wEntriesAll_ok hfs), objText_same hmn hpn⟩
  case refine_14 => intro c a o h t i hv hb s hw v' hs _ _; cases hs; cases hw; exact ⟨_, .nilIface hv hb, .same⟩
  case refine_15 =>
    intro c a o h t i t' v w hv hb _ ih s hw v' hs hg hg'
    cases hg with | iface hg =>
    cases hs with
    | refl =>
      cases hg' with | iface hg' =>
      obtain ⟨s', h1, h2⟩ := ih s hw v .refl hg hg'
      exact ⟨s', .iface hv hb h1, h2⟩
    | iface hs =>
      cases hg' with | iface hg' =>
      obtain ⟨s', h1, h2⟩ := ih s hw _ hs hg hg'
      exact ⟨s', .iface hv hb h1, h2⟩
  case refine_16 =>
    intro c a o h t j cs fs w hv hb hc _ ih s hw v' hs hg hg'
    obtain ⟨ss, rfl, rfl⟩ := mapAll_ok hw
    obtain ⟨ms, ns, rfl, hmn, hf⟩ := ih ss rfl v' hs hg hg'
    obtain ⟨gs, rfl, _, _⟩ := hs.struct_inv
    exact ⟨_, .struct hv hb hc hf, objText_same hmn (.refl _)⟩
  case refine_17 =>
    intro c a o h t ss hw ys hl _ _ _
    cases hw
    cases ys with
    | nil => exact ⟨[], .nil, .nil⟩
    | cons => cases hl
  case refine_18 => intro c a o h t x xs f _ _ ss hw; cases hw
  case refine_19 =>
    intro c a o h t x xs s w _ _ ih ih' ss hw ys hl hs hg hg'
    obtain ⟨ss1, rfl, rfl⟩ := mapAll_ok hw
    cases ys with
    | nil => cases hl
    | cons y ys =>
      obtain ⟨s', h1, h2⟩ := ih s rfl y (hs 0 x y rfl rfl) (hg x List.mem_cons_self) (hg' y List.mem_cons_self)
      obtain ⟨ss', h3, h4⟩ := ih' ss1 rfl ys (by simpa using hl) (list_tail hs) (fun x hx => hg x (List.mem_cons_of_mem _ hx)) fun x hx => hg' x (List.mem_cons_of_mem _ hx)
      exact ⟨_, .cons h1 h3, .cons h2 h4⟩
  case refine_20 => intro c o k t ss hw fs hal _ _; cases hw; cases hal; exact ⟨[], [], rfl, .nil, .nil⟩
  case refine_21 => intro c o k t x y es f _ ss hw; cases hw
  case refine_22 => intro c o k t x y es s f _ _ _ ss hw; cases hw
  case refine_23 =>
    intro c o k t x y es s s' w hk _ _ ih ih' ss hw fs hal hg hg'
    obtain ⟨ss1, rfl, rfl⟩ := mapAll_ok hw
    cases hal with
    | @cons _ q _ fs hq hal =>
      obtain ⟨z, h1, h2⟩ := ih s' rfl q.2 hq.2 (hg _ List.mem_cons_self) (hg' _ List.mem_cons_self)
      obtain ⟨ms, ns, rfl, h3, h4⟩ := ih' ss1 rfl fs hal (fun p hp => hg p (List.mem_cons_of_mem _ hp)) fun p hp => hg' p (List.mem_cons_of_mem _ hp)
      exact ⟨(s, s') :: ms, (s, z) :: ns, rfl, .cons ⟨rfl, h2⟩ h3, .cons ⟨hq.1 ▸ hk, h1⟩ h4⟩
  case refine_24 => intro a o v ss hw v' _ _ _; cases hw; exact ⟨[], [], rfl, .nil, .nil⟩
  case refine_25 =>
    intro a o v c cs w h1 _ ih ss hw v' hs hg hg'
    obtain ⟨ms, ns, h2, h3, h4⟩ := ih ss hw v' hs hg hg'
    exact ⟨ms, ns, h2, h3, .absent ((sameVal_sub _ hs).1 h1) h4⟩
  case refine_26 => intro a o v c cs x _ _ ss hw; cases hw
  case refine_27 =>
    intro a o v c cs w x h1 ho _ ih ss hw v' hs hg hg'
    obtain ⟨ms, ns, h2, h3, h4⟩ := ih ss hw v' hs hg hg'
    obtain ⟨y, hy, hs'⟩ := (sameVal_sub _ hs).2 x h1
    exact ⟨ms, ns, h2, h3, .omitted hy (omitsM_same hB ho hs') h4⟩
  case refine_28 => intro a o v c cs x f _ _ _ _ ss hw; cases hw
  case refine_29 =>
    intro a o v c cs x s w h1 ho _ _ ih ih' ss hw v' hs hg hg'
    obtain ⟨ss1, rfl, rfl⟩ := mapAll_ok hw
    obtain ⟨ms, ns, rfl, h3, h4⟩ := ih' ss1 rfl v' hs hg hg'
    obtain ⟨y, hy, hs'⟩ := (sameVal_sub _ hs).2 x h1
    obtain ⟨s', h5, h6⟩ := ih s rfl y hs' (hg.sub_ h1) (hg'.sub_ hy)
    refine ⟨([34] ++ c.key ++ [34], s) :: ms, ([34] ++ c.key ++ [34], s') :: ns, ?_, .cons ⟨rfl, h6⟩ h3, ?_⟩
    · simp
    · have := WFields.present hy (omitsM_same hB ho hs') h5 h4
      simpa [Except.map] using this
  case refine_30 => intro o t v _ _ _ s hw; cases hw
  case refine_31 => intro o t e v _ _ _ s hw; cases hw
  case refine_32 => intro o t e _ _ s hw; cases hw
  case refine_33 =>
    intro o t e v m hb hm s hw v' hs _ _
    obtain ⟨y, rfl, hsy⟩ := hs.ptr_inv; replace hs := hsy
    obtain ⟨s', h1, h2⟩ := callMeth_same hB hs hw
    exact ⟨s', h1 ▸ .ptrMeth hb hm, h2⟩
  case refine_34 =>
    intro o t e v w hb hm hn _ ih s hw v' hs hg hg'
    obtain ⟨y, rfl, hsy⟩ := hs.ptr_inv; replace hs := hsy
    cases hg with | ptr hg => cases hg' with | ptr hg' =>
    obtain ⟨s', h1, h2⟩ := ih s hw y hs hg hg'
    exact ⟨s', .ptr hb hm hn h1, h2⟩
  case refine_35 =>
    intro o t v m hb hm s hw v' hs _ _
    obtain ⟨s', h1, h2⟩ := callMeth_same hB hs hw
    exact ⟨s', h1 ▸ .meth hb hm, h2⟩
  case refine_36 =>
    intro o t v w hb hm hn _ ih s hw v' hs hg hg'
    obtain ⟨s', h1, h2⟩ := ih s hw v' hs hg hg'
    exact ⟨s', .value hb hm hn h1, h2⟩

theorem wArg_same {U : Univ} (hB : U.OrderBlind) {o : Options} {t : Ty} {v v' : GV} {s : Bytes} (hw : WArg U o t v (.ok s)) (hs : SameVal v v') (hg : GoMaps v)
    (hg' : GoMaps v') : ∃ s', WArg U o t v' (.ok s') ∧ TextSame s s' := by
  generalize hr : Except.ok s = w at hw
  cases hw with
  | invalid => cases hr
  | ptrInvalid => cases hr
  | nilPtr => cases hr
  | ptrMeth hb hm =>
    obtain ⟨y, rfl, hsy⟩ := hs.ptr_inv; replace hs := hsy
    obtain ⟨s', h1, h2⟩ := callMeth_same hB hs hr.symm
    exact ⟨s', h1 ▸ .ptrMeth hb hm, h2⟩
  | ptr hb hm hn hw =>
    obtain ⟨y, rfl, hsy⟩ := hs.ptr_inv; replace hs := hsy
    cases hg with | ptr hg => cases hg' with | ptr hg' =>
    obtain ⟨s', h1, h2⟩ := writes_same hB hw s hr.symm y hs hg hg'
    exact ⟨s', .ptr hb hm hn h1, h2⟩
  | meth hb hm =>
    obtain ⟨s', h1, h2⟩ := callMeth_same hB hs hr.symm
    exact ⟨s', h1 ▸ .meth hb hm, h2⟩
  | value hb hm hn hw =>
    obtain ⟨s', h1, h2⟩ := writes_same hB hw s hr.symm v' hs hg hg'
    exact ⟨s', .value hb hm hn h1, h2⟩

/-! ## Trees -/

theorem omits_same {U : Univ} {o : Options} {c : Cand} {x : GV} {b : Bool} (h : Omits U o c x b) : ∀ {x'}, SameVal x x' → Omits U o c x' b := by
  refine Omits.rec (motive_1 := fun c x b _ => ∀ {x'}, SameVal x x' → Omits U o c x' b)
    (motive_2 := fun cs v b _ => ∀ {v'}, SameVal v v' → OmitsAll U o cs v' b) ?_ ?_ ?_ ?_ ?_ ?_ ?_ h
  case refine_1 => intro c x h x' _; exact .keep h
  case refine_2 => intro c x h1 h2 x' hs; rw [sameVal_empty hs]; exact .value h1 h2
  case refine_3 => intro c x j cs b h1 h2 h3 _ ih x' hs; exact .struct h1 h2 h3 (ih hs)
  case refine_4 => intro v v' _; exact .nil
  case refine_5 => intro c cs v b h1 _ ih v' hs; exact .absent ((sameVal_sub _ hs).1 h1) (ih hs)
  case refine_6 =>
    intro c cs v x h1 _ ih v' hs
    obtain ⟨y, hy, hs'⟩ := (sameVal_sub _ hs).2 x h1
    exact .no hy (ih hs')
  case refine_7 =>
    intro c cs v x b h1 _ _ ih ih' v' hs
    obtain ⟨y, hy, hs'⟩ := (sameVal_sub _ hs).2 x h1
    exact .yes hy (ih hs') (ih' hs)

/-- An entry of a map and its member. -/
def EntryAs (U : Univ) (o : Options) (t : Ty) (p : GV × GV) (m : Bytes × JVal) : Prop :=
  ∃ k, p.1 = .str k ∧ m.1 = StrJson.escaped k false false ∧ Encodes U o Hint.none t p.2 m.2

theorem encEntries_ok {U : Univ} {o : Options} {t : Ty} : ∀ {es : List (GV × GV)} {ms : List (Bytes × JVal)}, List.Forall₂ (EntryAs U o t) es ms → EncEntries U o t es ms
  | _, _, .nil => .nil
  | (_, _) :: _, (_, _) :: _, .cons ⟨_, h1, h2, h3⟩ hs => by
    cases h1; cases h2
    exact .cons h3 (encEntries_ok hs)

/-- Two members with the same name. -/
def MemberSame (p q : Bytes × JVal) : Prop := p.1 = q.1 ∧ Reordered p.2 q.2

theorem obj_same {ms ns ns' : List (Bytes × JVal)} (h : List.Forall₂ MemberSame ms ns) (hp : ns.Perm ns') : Reordered (.obj ms) (.obj ns') := by
  refine .obj ?_ (fun i p q hp hq => (forall2_get h i p q hp hq).2) hp
  clear hp
  induction h with
  | nil => rfl
  | cons h _ ih => rw [List.map_cons, List.map_cons, h.1, ih]

theorem arr_same {js js' : List JVal} (h : List.Forall₂ Reordered js js') : Reordered (.arr js) (.arr js') :=
  .arr h.length_eq (forall2_get h)

/-- A value that is the same but for the order of maps is encoded as a tree that is the same but for the order of members. -/
theorem encodes_same {U : Univ} {o : Options} {h : Hint} {t : Ty} {v : GV} {j : JVal} (hw : Encodes U o h t v j) :
    ∀ v', SameVal v v' → GoMaps v → GoMaps v' → ∃ j', Encodes U o h t v' j' ∧ Reordered j j' := by
  refine Encodes.rec
    (motive_1 := fun o h t v j _ => ∀ v', SameVal v v' → GoMaps v → GoMaps v' → ∃ j', Encodes U o h t v' j' ∧ Reordered j j')
    (motive_2 := fun o h t xs js _ => ∀ ys : List GV, xs.length = ys.length → (∀ (i : Nat) x y, xs[i]? = some x → ys[i]? = some y → SameVal x y) →
      (∀ x ∈ xs, GoMaps x) → (∀ y ∈ ys, GoMaps y) → ∃ js', EncElems U o h t ys js' ∧ List.Forall₂ Reordered js js')
    (motive_3 := fun o t es ms _ => ∀ fs : List (GV × GV), List.Forall₂ (fun p q => p.1 = q.1 ∧ SameVal p.2 q.2) es fs →
      (∀ p ∈ es, GoMaps p.2) → (∀ p ∈ fs, GoMaps p.2) → ∃ ns, List.Forall₂ MemberSame ms ns ∧ List.Forall₂ (EntryAs U o t) fs ns)
    (motive_4 := fun o v cs ms _ => ∀ v', SameVal v v' → GoMaps v → GoMaps v' → ∃ ns, List.Forall₂ MemberSame ms ns ∧ EncFields U o v' cs ns)
    ?_ ?_ ?_ ?_ ?_ ?_ ?_ ?_ ?_ ?_ ?_ ?_ ?_ ?_ ?_ ?_ ?_ ?_ ?_ ?_ ?_ ?_ ?_ ?_ ?_ ?_ hw
  case refine_1 => intro o h t b hb v' hs _ _; cases hs; exact ⟨_, .bool hb, .same⟩
  case refine_2 => intro o h t k i hb v' hs _ _; cases hs; exact ⟨_, .int hb, .same⟩
  case refine_3 => intro o h t k i hb v' hs _ _; cases hs; exact ⟨_, .uint hb, .same⟩
  case refine_4 => intro o h t k neg m e hb v' hs _ _; cases hs; exact ⟨_, .float hb, .same⟩
  case refine_5 => intro o h t k neg hb ho v' hs _ _; cases hs; exact ⟨_, .inf hb ho, .same⟩
  case refine_6 => intro o h t k hb ho v' hs _ _; cases hs; exact ⟨_, .nan hb ho, .same⟩
  case refine_7 => intro o h t s hb v' hs _ _; cases hs; exact ⟨_, .str hb, .same⟩
  case refine_8 => intro o h t e hb v' hs _ _; cases hs; exact ⟨_, .nilPtr hb, .same⟩
  case refine_9 =>
    intro o h t e v j hb _ ih v' hs hg hg'
    obtain ⟨y, rfl, hsy⟩ := hs.ptr_inv
    cases hg with | ptr hg => cases hg' with | ptr hg' =>
    obtain ⟨j', h1, h2⟩ := ih y hsy hg hg'
    exact ⟨j', .ptr hb h1, h2⟩
  case refine_10 => intro o h t e hb v' hs _ _; cases hs; exact ⟨_, .nilSlice hb, .same⟩
  case refine_11 =>
    intro o h t e arr len js hb _ ih v' hs hg hg'
    obtain ⟨ys, rfl, hl, hs⟩ := hs.slice_inv
    cases hg with | slice hg => cases hg' with | slice hg' =>
    have hl' : (arr.take len).length = (ys.take len).length := by simp [hl]
    have hs' : ∀ (i : Nat) x y, (arr.take len)[i]? = some x → (ys.take len)[i]? = some y → SameVal x y := by
      intro i x y hx hy
      by_cases hi : i < len
      · rw [List.getElem?_take_of_lt hi] at hx hy; exact hs i x y hx hy
      · rw [List.getElem?_take_eq_none (by omega)] at hx; cases hx
    obtain ⟨js', h1, h2⟩ := ih _ hl' hs' (fun x hx => hg x (List.mem_of_mem_take hx)) fun x hx => hg' x (List.mem_of_mem_take hx)
    exact ⟨_, .slice hb h1, arr_same h2⟩
  case refine_12 =>
    intro o h t n e xs js hb _ ih v' hs hg hg'
    obtain ⟨ys, rfl, hl, hs⟩ := hs.array_inv
    cases hg with | array hg => cases hg' with | array hg' =>
    obtain ⟨js', h1, h2⟩ := ih _ hl hs hg hg'
    exact ⟨_, .array hb h1, arr_same h2⟩
  case refine_13 => intro o h t k e hb v' hs _ _; cases hs; exact ⟨_, .nilMap hb, .same⟩
  case refine_14 =>
    intro o h t k e es ms hb _ ih v' hs hg hg'
    obtain ⟨fs, rfl, h1, h2⟩ := hs.map_inv
    cases hg with | map hn hg => cases hg' with | map hn' hg' =>
    obtain ⟨gs, hp, hal⟩ := align hn hn' ⟨h1, h2⟩
    obtain ⟨ns, hmn, hgs⟩ := ih gs hal hg fun p hpm => hg' p (hp.mem_iff.1 hpm)
    obtain ⟨ns', hpn, hfs⟩ := forall2_perm hp hgs
    exact ⟨_, .map hb (encEntries_ok hfs), obj_same hmn hpn⟩
  case refine_15 => intro o h t i hb v' hs _ _; cases hs; exact ⟨_, .nilIface hb, .same⟩
  case refine_16 =>
    intro o h t i t' v j hb hp he ih v' hs hg hg'
    cases hg with | iface hg =>
    cases hs with
    | refl => exact ⟨j, .iface hb hp he, .same⟩
    | iface hs =>
      cases hg' with | iface hg' =>
      obtain ⟨j', h1, h2⟩ := ih _ hs hg hg'
      exact ⟨j', .iface hb hp h1, h2⟩
  case refine_17 =>
    intro o h t i t' e v j hb hp he ih v' hs hg hg'
    cases hg with | iface hg =>
    cases hs with
    | refl => exact ⟨j, .ifacePtr hb hp he, .same⟩
    | iface hs =>
      obtain ⟨y, rfl, hsy⟩ := hs.ptr_inv
      cases hg with | ptr hg => cases hg' with | iface hg' => cases hg' with | ptr hg' =>
      obtain ⟨j', h1, h2⟩ := ih _ hsy hg hg'
      exact ⟨j', .ifacePtr hb hp h1, h2⟩
  case refine_18 =>
    intro o h t j cs fs ms hb hc _ ih v' hs hg hg'
    obtain ⟨ns, hmn, hf⟩ := ih v' hs hg hg'
    obtain ⟨gs, rfl, _, _⟩ := hs.struct_inv
    exact ⟨_, .struct hb hc hf, obj_same hmn (.refl _)⟩
  case refine_19 =>
    intro o h t ys hl _ _ _
    cases ys with
    | nil => exact ⟨[], .nil, .nil⟩
    | cons => cases hl
  case refine_20 =>
    intro o h t x xs j js _ _ ih ih' ys hl hs hg hg'
    cases ys with
    | nil => cases hl
    | cons y ys =>
      obtain ⟨j', h1, h2⟩ := ih y (hs 0 x y rfl rfl) (hg x List.mem_cons_self) (hg' y List.mem_cons_self)
      obtain ⟨js', h3, h4⟩ := ih' ys (by simpa using hl) (list_tail hs) (fun x hx => hg x (List.mem_cons_of_mem _ hx)) fun x hx => hg' x (List.mem_cons_of_mem _ hx)
      exact ⟨_, .cons h1 h3, .cons h2 h4⟩
  case refine_21 => intro o t fs hal _ _; cases hal; exact ⟨[], .nil, .nil⟩
  case refine_22 =>
    intro o t k x es j ms _ _ ih ih' fs hal hg hg'
    cases hal with
    | @cons _ q _ fs hq hal =>
      obtain ⟨j', h1, h2⟩ := ih q.2 hq.2 (hg _ List.mem_cons_self) (hg' _ List.mem_cons_self)
      obtain ⟨ns, h3, h4⟩ := ih' fs hal (fun p hp => hg p (List.mem_cons_of_mem _ hp)) fun p hp => hg' p (List.mem_cons_of_mem _ hp)
      exact ⟨(StrJson.escaped k false false, j') :: ns, .cons ⟨rfl, h2⟩ h3, .cons ⟨k, hq.1.symm, rfl, h1⟩ h4⟩
  case refine_23 => intro o v v' _ _ _; exact ⟨[], .nil, .nil⟩
  case refine_24 =>
    intro o v c cs ms h1 _ ih v' hs hg hg'
    obtain ⟨ns, h3, h4⟩ := ih v' hs hg hg'
    exact ⟨ns, h3, .absent ((sameVal_sub _ hs).1 h1) h4⟩
  case refine_25 =>
    intro o v c cs ms x h1 ho _ ih v' hs hg hg'
    obtain ⟨ns, h3, h4⟩ := ih v' hs hg hg'
    obtain ⟨y, hy, hs'⟩ := (sameVal_sub _ hs).2 x h1
    exact ⟨ns, h3, .omitted hy (omits_same ho hs') h4⟩
  case refine_26 =>
    intro o v c cs ms x j h1 ho _ _ ih ih' v' hs hg hg'
    obtain ⟨ns, h3, h4⟩ := ih' v' hs hg hg'
    obtain ⟨y, hy, hs'⟩ := (sameVal_sub _ hs).2 x h1
    obtain ⟨j', h5, h6⟩ := ih y hs' (hg.sub_ h1) (hg'.sub_ hy)
    exact ⟨(c.key, j') :: ns, .cons ⟨rfl, h6⟩ h3, .present hy (omits_same ho hs') h5 h4⟩

/-- Trees without a name twice in an object. -/
theorem reordered_shuffled {j j' : JVal} (h : Reordered j j') : NamesOnce j → Shuffled j j' := by
  induction h with
  | same => intro _; exact .same
  | @arr xs ys hl _ ih =>
    intro hn
    cases hn with | arr hn =>
    refine .arr ?_
    clear * - hl ih hn
    induction xs generalizing ys with
    | nil => cases ys with
      | nil => exact .nil
      | cons => cases hl
    | cons x xs ih' => cases ys with
      | nil => cases hl
      | cons y ys =>
        exact .cons (ih 0 x y rfl rfl (hn x List.mem_cons_self))
          (ih' (by simpa using hl) (fun i x y hx hy => ih (i + 1) x y (by simpa using hx) (by simpa using hy)) fun x hx => hn x (List.mem_cons_of_mem _ hx))
  | @obj ms ns ns' hk _ hp ih =>
    intro hn
    cases hn with | obj hd hn =>
    refine .obj ?_
    have key : ∀ {ms ns : List (Bytes × JVal)}, ms.map Prod.fst = ns.map Prod.fst →
        (∀ (i : Nat) p q, ms[i]? = some p → ns[i]? = some q → Shuffled p.2 q.2) → (ms.map Prod.fst).Nodup → ∀ {ns'}, ns.Perm ns' → ShuffledM ms ns' := by
      intro ms
      induction ms with
      | nil => intro ns hk _ _ ns' hp; cases ns with
        | nil => rw [← hp.nil_eq]; exact .nil
        | cons => cases hk
      | cons m ms ih =>
        intro ns hk hs hd ns' hp
        cases ns with
        | nil => cases hk
        | cons n ns =>
          obtain ⟨k, x⟩ := m
          obtain ⟨k', y⟩ := n
          simp only [List.map_cons, List.cons.injEq, List.nodup_cons] at hk hd
          obtain ⟨rfl, hk⟩ := hk
          obtain ⟨A, B, rfl⟩ := List.append_of_mem (hp.mem_iff.1 List.mem_cons_self)
          have hp' : ns.Perm (A ++ B) := (List.perm_cons _).1 (hp.trans List.perm_middle)
          refine .insert (hs 0 (k, x) (k, y) rfl rfl) ?_ (ih hk (fun i p q hp hq => hs (i + 1) p q (by simpa using hp) (by simpa using hq)) hd.2 hp')
          intro hA
          refine hd.1 ?_
          rw [hk]
          exact ((hp'.map Prod.fst).mem_iff).2 (by rw [List.map_append]; exact List.mem_append_left _ hA)
    refine key hk (fun i p q hp hq => ih i p q hp hq (hn p (List.mem_of_getElem? hp))) hd hp

end Verif.Unjson
