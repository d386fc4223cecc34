import Verif.Spec.GenMapOrder
import Verif.Proofs.UnMapOrder
import Verif.Proofs.GenOne

namespace Verif.Gen
open Verif Verif.Float Verif.Spec Verif.Njson Verif.Unjson

theorem look_same : ∀ (p : List Nat) {v w : GV}, SameVal v w →
    (look v p = none → look w p = none) ∧ ∀ x, look v p = some x → ∃ y, look w p = some y ∧ SameVal x y
  | [], v, w, h => by
    cases h with
    | refl => exact ⟨id, fun x hx => ⟨x, hx, .refl⟩⟩
    | ptr h => exact ⟨fun h => by simp [look] at h, fun x hx => by simp only [look] at hx ⊢; cases hx; exact ⟨_, rfl, .ptr h⟩⟩
    | slice hl h => exact ⟨fun h => by simp [look] at h, fun x hx => by simp only [look] at hx ⊢; cases hx; exact ⟨_, rfl, .slice hl h⟩⟩
    | array hl h => exact ⟨fun h => by simp [look] at h, fun x hx => by simp only [look] at hx ⊢; cases hx; exact ⟨_, rfl, .array hl h⟩⟩
    | map hl h => exact ⟨fun h => by simp [look] at h, fun x hx => by simp only [look] at hx ⊢; cases hx; exact ⟨_, rfl, .map hl h⟩⟩
    | iface h => exact ⟨fun h => by simp [look] at h, fun x hx => by simp only [look] at hx ⊢; cases hx; exact ⟨_, rfl, .iface h⟩⟩
    | struct hl h => exact ⟨fun h => by simp [look] at h, fun x hx => by simp only [look] at hx ⊢; cases hx; exact ⟨_, rfl, .struct hl h⟩⟩
  | i :: p, v, w, h => by
    have key : ∀ {fs gs : List GV}, fs.length = gs.length → (∀ (i : Nat) x y, fs[i]? = some x → gs[i]? = some y → SameVal x y) →
        (look (.struct fs) (i :: p) = none → look (.struct gs) (i :: p) = none) ∧
        ∀ x, look (.struct fs) (i :: p) = some x → ∃ y, look (.struct gs) (i :: p) = some y ∧ SameVal x y := by
      intro fs gs hl h
      simp only [look]
      cases hx : fs[i]? with
      | none =>
        have : gs[i]? = none := by rw [List.getElem?_eq_none_iff] at hx ⊢; omega
        simp [this]
      | some x =>
        obtain ⟨y, hy⟩ := list_mid hl hx
        simp only [hy]
        exact look_same p (h _ x y hx hy)
    have hp : ∀ {fs : List GV}, look (.ptr (.struct fs)) (i :: p) = look (.struct fs) (i :: p) := by intro fs; simp only [look]
    cases h with
    | refl => exact ⟨id, fun x hx => ⟨x, hx, .refl⟩⟩
    | ptr h =>
      cases h with
      | refl => exact ⟨id, fun x hx => ⟨x, hx, .refl⟩⟩
      | struct hl h => rw [hp, hp]; exact key hl h
      | _ => exact ⟨fun _ => by simp only [look], fun x hx => by simp only [look] at hx; cases hx⟩
    | struct hl h => exact key hl h
    | _ => exact ⟨fun _ => by simp only [look], fun x hx => by simp only [look] at hx; cases hx⟩

theorem look_maps : ∀ (p : List Nat) {v x : GV}, GoMaps v → look v p = some x → GoMaps x
  | [], v, x, h, hx => by
    cases v <;> simp only [look] at hx <;> first | (cases hx; exact h) | cases hx
  | i :: p, v, x, h, hx => by
    have key : ∀ {fs : List GV}, (∀ x ∈ fs, GoMaps x) → (match fs[i]? with | some x => look x p | none => none) = some x → GoMaps x := by
      intro fs h hx
      cases hy : fs[i]? with
      | none => rw [hy] at hx; cases hx
      | some y => rw [hy] at hx; exact look_maps p (h y (List.mem_of_getElem? hy)) hx
    cases h with
    | ptr h =>
      cases h with
      | struct h => simp only [look] at hx; exact key h hx
      | _ => simp only [look] at hx; cases hx
    | struct h => simp only [look] at hx; exact key h hx
    | _ => simp only [look] at hx; cases hx

theorem numKeys_same {E : Env} {o : GenOptions} {t : Ty} {v : GV} (h : NumKeys E o t v) : ∀ {v'}, SameVal v v' → GoMaps v → GoMaps v' → NumKeys E o t v' := by
  induction h with
  | method h => intro v' _ _ _; exact .method h
  | leaf h1 h2 h3 h4 => intro v' _ _ _; exact .leaf h1 h2 h3 h4
  | nilPtr => intro v' hs _ _; cases hs; exact .nilPtr
  | ptr hb _ ih =>
    intro v' hs hg hg'
    obtain ⟨y, rfl, hsy⟩ := hs.ptr_inv
    cases hg with | ptr hg => cases hg' with | ptr hg' =>
    exact .ptr hb (ih hsy hg hg')
  | nilSlice => intro v' hs _ _; cases hs; exact .nilSlice
  | @slice t e arr len hb _ ih =>
    intro v' hs hg hg'
    obtain ⟨ys, rfl, hl, hs⟩ := hs.slice_inv
    cases hg with | slice hg => cases hg' with | slice hg' =>
    refine .slice hb fun y hy => ?_
    obtain ⟨i, hi⟩ := List.mem_iff_getElem?.1 hy
    have hlt : i < len := by
      by_contra hc
      rw [List.getElem?_take_eq_none (by omega)] at hi; cases hi
    rw [List.getElem?_take_of_lt hlt] at hi
    obtain ⟨x, hx⟩ := list_mid hl.symm hi
    have hx' : (arr.take len)[i]? = some x := by rw [List.getElem?_take_of_lt hlt]; exact hx
    exact ih x (List.mem_of_getElem? hx') (hs i x y hx hi) (hg _ (List.mem_of_getElem? hx)) (hg' _ (List.mem_of_getElem? hi))
  | nilMap => intro v' hs _ _; cases hs; exact .nilMap
  | @map t k e es hb hk hks _ ih =>
    intro v' hs hg hg'
    obtain ⟨fs, rfl, h3, h4⟩ := hs.map_inv
    cases hg with | map hd hg => cases hg' with | map hd' hg' =>
    have key : ∀ q ∈ fs, ∃ p ∈ es, p.1 = q.1 ∧ SameVal p.2 q.2 := by
      intro q hq
      have hy : EntryAt fs q.1 q.2 := mem_entryAt hd' hq
      obtain ⟨x, hx⟩ := (h3 q.1).2 ⟨_, hy⟩
      exact ⟨(q.1, x), entryAt_mem hx, rfl, h4 _ _ _ hx hy⟩
    refine .map hb ?_ (fun q hq => ?_) fun q hq => ?_
    · rcases hk with hk | rfl
      · exact .inl hk
      · right
        cases fs with
        | nil => rfl
        | cons q _ => obtain ⟨p, hp, _⟩ := key q List.mem_cons_self; cases hp
    · obtain ⟨p, hp, he, _⟩ := key q hq
      exact he ▸ hks p hp
    · obtain ⟨p, hp, he, hsx⟩ := key q hq
      exact ih p hp hsx (hg p hp) (hg' q hq)
  | struct _ ih =>
    intro v' hs hg hg'
    obtain ⟨gs, hgs, _, _⟩ := hs.struct_inv
    subst hgs
    refine .struct fun p hp y hy => ?_
    obtain ⟨x, hx, hs'⟩ := (look_same _ hs.symm).2 y hy
    exact ih p hp x hx hs'.symm (look_maps _ hg hx) (look_maps _ hg' hy)

section
variable {E : Env} {o : GenOptions} (hB : MethodsBlind E.U)
include hB

theorem omitted_same {t : Ty} {v v' : GV} (hs : SameVal v v') : omitted E o t v = omitted E o t v' := by
  unfold omitted
  cases h : E.U.omitMethod o.omitMethod t with
  | some f => exact hB.omits _ _ _ _ _ h hs
  | none => rw [sameVal_empty hs]

/-- An entry of a map and its member. -/
def GEntryAs (E : Env) (o : GenOptions) (ps : List Bytes) (t : Ty) (p : GV × GV) (m : Bytes × JVal) : Prop := keyText E.U p.1 = some m.1 ∧ GEnc E o ps t p.2 m.2

omit hB in
theorem gEntries_ok {ps : List Bytes} {t : Ty} : ∀ {es : List (GV × GV)} {ms : List (Bytes × JVal)}, List.Forall₂ (GEntryAs E o ps t) es ms → GEncEntries E o ps t es ms
  | _, _, .nil => .nil
  | (_, _) :: _, (_, _) :: _, .cons ⟨h1, h2⟩ hs => .cons h1 h2 (gEntries_ok hs)

theorem genc_same {ps : List Bytes} {t : Ty} {v : GV} {j : JVal} (hw : GEnc E o ps t v j) :
    ∀ v', SameVal v v' → GoMaps v → GoMaps v' → ∃ j', GEnc E o ps t v' j' ∧ Reordered j j' := by
  refine GEnc.rec
    (motive_1 := fun ps t v j _ => ∀ v', SameVal v v' → GoMaps v → GoMaps v' → ∃ j', GEnc E o ps t v' j' ∧ Reordered j j')
    (motive_2 := fun ps t xs js _ => ∀ ys : List GV, xs.length = ys.length → (∀ (i : Nat) x y, xs[i]? = some x → ys[i]? = some y → SameVal x y) →
      (∀ x ∈ xs, GoMaps x) → (∀ y ∈ ys, GoMaps y) → ∃ js', GEncElems E o ps t ys js' ∧ List.Forall₂ Reordered js js')
    (motive_3 := fun ps t es ms _ => ∀ fs : List (GV × GV), List.Forall₂ (fun p q => p.1 = q.1 ∧ SameVal p.2 q.2) es fs →
      (∀ p ∈ es, GoMaps p.2) → (∀ p ∈ fs, GoMaps p.2) → ∃ ns, List.Forall₂ MemberSame ms ns ∧ List.Forall₂ (GEntryAs E o ps t) fs ns)
    (motive_4 := fun v cs ms _ => ∀ v', SameVal v v' → GoMaps v → GoMaps v' → ∃ ns, List.Forall₂ MemberSame ms ns ∧ GEncFields E o v' cs ns)
    ?_ ?_ ?_ ?_ ?_ ?_ ?_ ?_ ?_ ?_ ?_ ?_ ?_ ?_ ?_ ?_ ?_ ?_ ?_ ?_ ?_ ?_ ?_ ?_ ?_ hw
  case refine_1 =>
    intro ps t v j hi hr ha v' hs _ _
    obtain ⟨j', h1, h2, h3⟩ := hB.append t v v' j hs hr ha
    exact ⟨j', .appender hi h1 h2, h3⟩
  case refine_2 =>
    intro ps t v j hi hi' hr ha v' hs _ _
    obtain ⟨j', h1, h2, h3⟩ := hB.json t v v' j hs hr ha
    exact ⟨j', .json hi hi' h1 h2, h3⟩
  case refine_3 =>
    intro ps t v s h1 h2 h3 h4 v' hs _ _
    rw [hB.text t v v' hs] at h4
    exact ⟨_, .text h1 h2 h3 h4, .same⟩
  case refine_4 => intro ps t b hn hb v' hs _ _; cases hs; exact ⟨_, .bool hn hb, .same⟩
  case refine_5 => intro ps t k i hn hb v' hs _ _; cases hs; exact ⟨_, .int hn hb, .same⟩
  case refine_6 => intro ps t k i hn hb v' hs _ _; cases hs; exact ⟨_, .uint hn hb, .same⟩
  case refine_7 => intro ps t k f hn hb v' hs _ _; cases hs; exact ⟨_, .float hn hb, .same⟩
  case refine_8 => intro ps t s hn hb hp v' hs _ _; cases hs; exact ⟨_, .str hn hb hp, .same⟩
  case refine_9 => intro ps t s hn hb hp v' hs _ _; cases hs; exact ⟨_, .raw hn hb hp, .same⟩
  case refine_10 => intro ps t e hn hb v' hs _ _; cases hs; exact ⟨_, .nilPtr hn hb, .same⟩
  case refine_11 =>
    intro ps t e v j hn hb hp _ ih v' hs hg hg'
    obtain ⟨y, rfl, hsy⟩ := hs.ptr_inv
    cases hg with | ptr hg => cases hg' with | ptr hg' =>
    obtain ⟨j', h1, h2⟩ := ih y hsy hg hg'
    exact ⟨j', .ptr hn hb hp h1, h2⟩
  case refine_12 =>
    intro ps t e v hn hb hv v' hs _ _
    obtain ⟨y, rfl, _⟩ := hs.ptr_inv
    exact ⟨_, .ptrVoid hn hb hv, .same⟩
  case refine_13 => intro ps t e hn hb v' hs _ _; cases hs; exact ⟨_, .nilSlice hn hb, .same⟩
  case refine_14 =>
    intro ps t e arr len js hn hb _ ih v' hs hg hg'
    obtain ⟨ys, rfl, hl, hs⟩ := hs.slice_inv
    cases hg with | slice hg => cases hg' with | slice hg' =>
    have hl' : (arr.take len).length = (ys.take len).length := by simp [hl]
    have hs' : ∀ (i : Nat) x y, (arr.take len)[i]? = some x → (ys.take len)[i]? = some y → SameVal x y := by
      intro i x y hx hy
      by_cases hi : i < len
      · rw [List.getElem?_take_of_lt hi] at hx hy; exact hs i x y hx hy
      · rw [List.getElem?_take_eq_none (by omega)] at hx; cases hx
    obtain ⟨js', h1, h2⟩ := ih _ hl' hs' (fun x hx => hg x (List.mem_of_mem_take hx)) fun x hx => hg' x (List.mem_of_mem_take hx)
    exact ⟨_, .slice hn hb h1, Unjson.arr_same h2⟩
  case refine_15 => intro ps t k e hn hb v' hs _ _; cases hs; exact ⟨_, .nilMap hn hb, .same⟩
  case refine_16 =>
    intro ps t k e es ms hn hb hk _ ih v' hs hg hg'
    obtain ⟨fs, rfl, h1, h2⟩ := hs.map_inv
    cases hg with | map hd hg => cases hg' with | map hd' hg' =>
    obtain ⟨gs, hp, hal⟩ := align hd hd' ⟨h1, h2⟩
    obtain ⟨ns, hmn, hgs⟩ := ih gs hal hg fun p hpm => hg' p (hp.mem_iff.1 hpm)
    obtain ⟨ns', hpn, hfs⟩ := forall2_perm hp hgs
    refine ⟨_, .map hn hb ?_ (gEntries_ok hfs), Unjson.obj_same hmn hpn⟩
    rcases hk with hk | rfl
    · exact .inl hk
    · cases hal; exact .inr hp.nil_eq.symm
  case refine_17 =>
    intro ps j fs ms hn _ ih v' hs hg hg'
    obtain ⟨ns, hmn, hf⟩ := ih v' hs hg hg'
    obtain ⟨gs, rfl, _, _⟩ := hs.struct_inv
    exact ⟨_, .struct hn hf, Unjson.obj_same hmn (.refl _)⟩
  case refine_18 =>
    intro ps t ys hl _ _ _
    cases ys with
    | nil => exact ⟨[], .nil, .nil⟩
    | cons => cases hl
  case refine_19 =>
    intro ps t x xs j js _ _ ih ih' ys hl hs hg hg'
    cases ys with
    | nil => cases hl
    | cons y ys =>
      obtain ⟨j', h1, h2⟩ := ih y (hs 0 x y rfl rfl) (hg x List.mem_cons_self) (hg' y List.mem_cons_self)
      obtain ⟨js', h3, h4⟩ := ih' ys (by simpa using hl) (list_tail hs) (fun x hx => hg x (List.mem_cons_of_mem _ hx)) fun x hx => hg' x (List.mem_cons_of_mem _ hx)
      exact ⟨_, .cons h1 h3, .cons h2 h4⟩
  case refine_20 => intro ps t fs hal _ _; cases hal; exact ⟨[], .nil, .nil⟩
  case refine_21 =>
    intro ps t k s x es j ms hk _ _ ih ih' fs hal hg hg'
    cases hal with
    | @cons _ q _ fs hq hal =>
      obtain ⟨j', h1, h2⟩ := ih q.2 hq.2 (hg _ List.mem_cons_self) (hg' _ List.mem_cons_self)
      obtain ⟨ns, h3, h4⟩ := ih' fs hal (fun p hp => hg p (List.mem_cons_of_mem _ hp)) fun p hp => hg' p (List.mem_cons_of_mem _ hp)
      exact ⟨(s, j') :: ns, .cons ⟨rfl, h2⟩ h3, .cons ⟨hq.1 ▸ hk, h1⟩ h4⟩
  case refine_22 => intro v v' _ _ _; exact ⟨[], .nil, .nil⟩
  case refine_23 =>
    intro v p ps ms h1 _ ih v' hs hg hg'
    obtain ⟨ns, h3, h4⟩ := ih v' hs hg hg'
    exact ⟨ns, h3, .absent ((look_same _ hs).1 h1) h4⟩
  case refine_24 =>
    intro v p ps ms x h1 hp ho _ ih v' hs hg hg'
    obtain ⟨ns, h3, h4⟩ := ih v' hs hg hg'
    obtain ⟨y, hy, hs'⟩ := (look_same _ hs).2 x h1
    exact ⟨ns, h3, .omitted hy hp (omitted_same hB hs' ▸ ho) h4⟩
  case refine_25 =>
    intro v p ps ms x j h1 ho _ _ ih ih' v' hs hg hg'
    obtain ⟨ns, h3, h4⟩ := ih' v' hs hg hg'
    obtain ⟨y, hy, hs'⟩ := (look_same _ hs).2 x h1
    obtain ⟨j', h5, h6⟩ := ih y hs' (look_maps _ hg h1) (look_maps _ hg' hy)
    exact ⟨(p.name, j') :: ns, .cons ⟨rfl, h6⟩ h3, .present hy (fun h => omitted_same hB hs' ▸ ho h) h5 h4⟩

theorem gstops_same {s : Stop} {t : Ty} {v : GV} (h : GStops E o s t v) : ∀ {v'}, SameVal v v' → GoMaps v → GoMaps v' → GStops E o s t v' := by
  induction h with
  | appender h1 h2 => intro v' hs _ _; exact .appender h1 (hB.stops _ _ _ _ _ hs h2)
  | json h1 h2 h3 => intro v' hs _ _; exact .json h1 h2 (hB.stops _ _ _ _ _ hs h3)
  | text h1 h2 h3 h4 => intro v' hs _ _; exact .text h1 h2 h3 (hB.stops _ _ _ _ _ hs h4)
  | ptr h1 h2 h3 _ ih =>
    intro v' hs hg hg'
    obtain ⟨y, rfl, hsy⟩ := hs.ptr_inv
    cases hg with | ptr hg => cases hg' with | ptr hg' =>
    exact .ptr h1 h2 h3 (ih hsy hg hg')
  | @slice s t e arr len x h1 h2 hx _ ih =>
    intro v' hs hg hg'
    obtain ⟨ys, rfl, hl, hs⟩ := hs.slice_inv
    cases hg with | slice hg => cases hg' with | slice hg' =>
    obtain ⟨i, hi⟩ := List.mem_iff_getElem?.1 hx
    have hlt : i < len := by
      by_contra hc
      rw [List.getElem?_take_eq_none (by omega)] at hi; cases hi
    have hi' := hi
    rw [List.getElem?_take_of_lt hlt] at hi'
    obtain ⟨y, hy⟩ := list_mid hl hi'
    have hy' : (ys.take len)[i]? = some y := by rw [List.getElem?_take_of_lt hlt]; exact hy
    exact .slice h1 h2 (List.mem_of_getElem? hy') (ih (hs i _ _ hi' hy) (hg _ (List.mem_of_getElem? hi')) (hg' _ (List.mem_of_getElem? hy)))
  | @map s t k e es p h1 h2 hp _ ih =>
    intro v' hs hg hg'
    obtain ⟨fs, rfl, h3, h4⟩ := hs.map_inv
    cases hg with | map hd hg => cases hg' with | map hd' hg' =>
    have hx : EntryAt es p.1 p.2 := mem_entryAt hd hp
    obtain ⟨y, hy⟩ := (h3 p.1).1 ⟨_, hx⟩
    have hm := entryAt_mem hy
    exact .map (p := (p.1, y)) h1 h2 hm (ih (h4 _ _ _ hx hy) (hg _ hp) (hg' _ hm))
  | struct h1 h2 h3 h4 _ ih =>
    intro v' hs hg hg'
    obtain ⟨y, hy, hs'⟩ := (look_same _ hs).2 _ h3
    have h5 := look_maps _ hg h3
    have h6 := look_maps _ hg' hy
    obtain ⟨gs, rfl, _, _⟩ := hs.struct_inv
    exact .struct h1 h2 hy (fun h => omitted_same hB hs' ▸ h4 h) (ih hs' h5 h6)
  | omits h1 h2 h3 h4 h5 h6 =>
    intro v' hs _ _
    obtain ⟨y, hy, hs'⟩ := (look_same _ hs).2 _ h3
    obtain ⟨gs, rfl, _, _⟩ := hs.struct_inv
    exact .omits h1 h2 hy h4 h5 (hB.omitPanics _ _ _ _ hs' ▸ h6)

end

end Verif.Gen
