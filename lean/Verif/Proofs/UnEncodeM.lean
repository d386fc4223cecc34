import Verif.Proofs.UnBuildM
import Verif.Proofs.UnTyped

/-! # Encoding follows the specification, for types with methods -/

namespace Verif.Unjson
open Verif Verif.Float Verif.Spec Verif.Njson

theorem HasTy.inv_iface {U : Univ} {t : Ty} {v : GV} {n i : Nat} (h : HasTy U t v) (hb : U.base t = .iface n i) :
    v = .nilIface ∨ ∃ t' x, v = .iface t' x ∧ HasTy U t' x := by
  cases h with
  | nilIface => exact .inl rfl
  | iface _ h2 => exact .inr ⟨_, _, rfl, h2⟩
  | _ => simp_all

/-! ## Paths -/

theorem addrAt_field {a : Bool} {i : Nat} {is : List Int} : addrAt a ((i : Int) :: is) = addrAt a is := by
  unfold addrAt
  have : ((-1 : Int) == (i : Int)) = false := by simp
  rw [List.contains_cons, this, Bool.false_or]
theorem addrAt_deref {a : Bool} {is : List Int} : addrAt a (-1 :: is) = addrAt true is := by
  unfold addrAt; simp

theorem fieldByIndex_typed {U : Univ} {t : Ty} {idx : List Int} {t' : Ty} (hp : PathTy U t idx t') :
    ∀ {v : GV} {a : Bool}, HasTy U t v →
    (fieldByIndex U idx ⟨t, v, a⟩ = some none ∧ sub v idx = none) ∨
    ∃ x, fieldByIndex U idx ⟨t, v, a⟩ = some (some ⟨t', x, addrAt a idx⟩) ∧ sub v idx = some x ∧ HasTy U t' x := by
  induction hp with
  | nil => intro v a h; right; exact ⟨v, by simp [fieldByIndex, addrAt], by unfold sub; rfl, h⟩
  | @field t j i f is t' hb hf he _ ih =>
    intro v a h
    obtain ⟨fs, rfl, h1, h2⟩ := h.inv_struct hb
    have hi : i < fs.length := by rw [h1]; exact (List.getElem?_eq_some_iff.1 hf).1
    obtain ⟨x, hx⟩ : ∃ x, fs[i]? = some x := ⟨fs[i], List.getElem?_eq_getElem hi⟩
    have hne : ¬ ((i : Int) = -1) := by omega
    have e1 : fieldByIndex U ((i : Int) :: is) ⟨t, .struct fs, a⟩ = fieldByIndex U is ⟨f.typ, x, a⟩ := by
      rw [fieldByIndex, if_neg hne]
      unfold RV.field
      simp [hb, hf, hx]
    rw [e1, sub_field hx, addrAt_field]
    exact ih (h2 i f x hf hx)
  | @deref t e is t' hb _ ih =>
    intro v a h
    rcases h.inv_ptr hb with rfl | ⟨x, rfl, hx⟩
    · left
      constructor
      · rw [fieldByIndex, if_pos rfl]; simp [hb]
      · simp [sub]
    · have e1 : fieldByIndex U (-1 :: is) ⟨t, .ptr x, a⟩ = fieldByIndex U is ⟨e, x, true⟩ := by
        rw [fieldByIndex, if_pos rfl]; simp [hb]
      have e2 : sub (.ptr x) (-1 :: is) = sub x is := by rw [sub, if_pos rfl]
      rw [e1, e2, addrAt_deref]
      exact ih hx

/-! ## Methods -/

theorem encMethod_agrees {U : Univ} (hA : U.Appends) (m : Meth) (b : Bytes) (t : Ty) (v : GV) (a : Bool) :
    Agrees b (callMeth U m t v) (encMethod U m b ⟨t, v, a⟩) := by
  have key : ∀ t v, Agrees b (if U.impl t m then methText U m t v else .error .panic)
      (if U.impl t m then
        match m with
        | .appender => if U.panics m t v b then .panic else let r := U.appendJSON t v b; .done r.1 (if r.2 then some .hook else none)
        | .textMarshaler =>
          if U.panics m t v [] then .panic else
          match U.marshal m t v with
          | some s => .done (b ++ [34] ++ s ++ [34]) none
          | none => .done b (some .hook)
        | _ =>
          if U.panics m t v [] then .panic else
          match U.marshal m t v with
          | some s => .done (b ++ s) none
          | none => .done b (some .hook)
      else .panic) := by
    intro t v
    by_cases hi : U.impl t m = true
    · rw [if_pos hi, if_pos hi]
      unfold methText
      cases m with
      | appender =>
        obtain ⟨h0, h1, h2⟩ := hA t v b
        dsimp only
        rw [h0, h1]
        by_cases hp : U.panics .appender t v [] = true
        · rw [if_pos hp, if_pos hp]; rfl
        rw [if_neg hp, if_neg hp]
        by_cases he : (U.appendJSON t v []).2 = true
        · rw [if_pos he, if_pos he]; exact ⟨_, rfl⟩
        · rw [if_neg he, if_neg he, h2 (by simpa using he)]; rfl
      | textMarshaler =>
        dsimp only
        by_cases hp : U.panics .textMarshaler t v [] = true
        · rw [if_pos hp, if_pos hp]; rfl
        rw [if_neg hp, if_neg hp]
        cases U.marshal .textMarshaler t v with
        | some s => simp [Agrees]
        | none => exact ⟨_, rfl⟩
      | jsonMarshaler =>
        dsimp only
        by_cases hp : U.panics .jsonMarshaler t v [] = true
        · rw [if_pos hp, if_pos hp]; rfl
        rw [if_neg hp, if_neg hp]
        cases U.marshal .jsonMarshaler t v with
        | some s => simp [Agrees]
        | none => exact ⟨_, rfl⟩
      | unmarshaler =>
        dsimp only
        by_cases hp : U.panics .unmarshaler t v [] = true
        · rw [if_pos hp, if_pos hp]; rfl
        rw [if_neg hp, if_neg hp]
        cases U.marshal .unmarshaler t v with
        | some s => simp [Agrees]
        | none => exact ⟨_, rfl⟩
      | jsonUnmarshaler =>
        dsimp only
        by_cases hp : U.panics .jsonUnmarshaler t v [] = true
        · rw [if_pos hp, if_pos hp]; rfl
        rw [if_neg hp, if_neg hp]
        cases U.marshal .jsonUnmarshaler t v with
        | some s => simp [Agrees]
        | none => exact ⟨_, rfl⟩
      | textUnmarshaler =>
        dsimp only
        by_cases hp : U.panics .textUnmarshaler t v [] = true
        · rw [if_pos hp, if_pos hp]; rfl
        rw [if_neg hp, if_neg hp]
        cases U.marshal .textUnmarshaler t v with
        | some s => simp [Agrees]
        | none => exact ⟨_, rfl⟩
    · rw [if_neg hi, if_neg hi]; rfl
  unfold encMethod callMeth RV.dyn
  dsimp only
  by_cases hb : ∃ n i, U.base t = .iface n i
  · obtain ⟨n, i, hb⟩ := hb
    rw [hb]
    cases v with
    | iface t' v' => exact key t' v'
    | _ => rfl
  · cases hq : U.base t with
    | iface n i => exact absurd ⟨n, i, hq⟩ hb
    | _ => exact key t v

/-! ## Omission -/

/-- What an omiter does -/
def omitOut : Option Bool → Out Bool
  | some b => .done b none
  | none => .panic

theorem omitOut_call {U : Univ} {name : Bytes} {t : Ty} {m : GV → Bool} {v : GV} :
    (if U.omitPanics name t v then some Out.panic else some (.done (m v) none)) = some (omitOut (omitCall U name t m v)) := by
  unfold omitCall
  split <;> rfl

theorem customOmiter_none {U : Univ} {name : Bytes} (hn : name ≠ []) {t : Ty} : newCustomOmiter U t name = none ↔ NoOmit U name t := by
  unfold newCustomOmiter NoOmit
  rw [if_neg hn]
  dsimp only
  cases h1 : U.omitMethod name t with
  | some m => simp
  | none =>
    rw [if_neg (by simp)]
    by_cases hp : ∃ e, U.base t = .ptr e
    · obtain ⟨e, hb⟩ := hp
      rw [hb]
      simp
    · have hp' : ∀ e, U.base t ≠ .ptr e := fun e h => hp ⟨e, h⟩
      have this : ∀ {α : Type} (f : Ty → α) (x : α), (match U.base t with | .ptr e => f e | _ => x) = x := by
        intro α f x
        split
        · rename_i e hb; exact absurd hb (hp' e)
        · rfl
      have h2 := this (fun e => if (U.omitMethod name e).isSome then some (Omiter.ptrMethod name e) else none)
        (if (U.omitMethod name (.ptr t)).isSome then some (.elemMethod name (.ptr t)) else none)
      refine Iff.trans (Eq.to_iff (congrArg (· = none) h2)) ?_
      constructor
      · intro h
        refine ⟨rfl, fun e hb => absurd hb (hp' e), fun _ => ?_⟩
        cases h2 : U.omitMethod name (.ptr t) with
        | none => rfl
        | some m => rw [h2] at h; simp at h
      · intro h; rw [h.2.2 hp']; simp

theorem customOmiter_run {U : Univ} (hI : U.PlainIfaces) {name : Bytes} (hn : name ≠ []) {t : Ty} {om : Omiter}
    (h : newCustomOmiter U t name = some om) {objs : List Obj} {fuel : Nat} {v : GV} {a : Bool} {r} (hv : HasTy U t v)
    (hr : omitRun U objs fuel om ⟨t, v, a⟩ = some r) : ∃ b, r = omitOut b ∧ OmitCustom U name a t v b := by
  cases fuel with
  | zero => simp [omitRun] at hr
  | succ fuel =>
    unfold newCustomOmiter at h
    rw [if_neg hn] at h
    dsimp only at h
    cases h1 : U.omitMethod name t with
    | some m =>
      rw [h1, if_pos (by simp)] at h
      cases h
      simp only [omitRun, h1, omitOut_call, Option.some.injEq] at hr
      exact ⟨_, hr.symm, .own (fun n i hb => by rw [hI name t n i hb] at h1; cases h1) h1⟩
    | none =>
      rw [h1, if_neg (by simp)] at h
      by_cases hp : ∃ e, U.base t = .ptr e
      · obtain ⟨e, hb⟩ := hp
        simp only [hb] at h
        cases h2 : U.omitMethod name e with
        | none => rw [h2] at h; simp at h
        | some m =>
          rw [h2, if_pos (by simp)] at h
          cases h
          rcases hv.inv_ptr hb with rfl | ⟨x, rfl, _⟩
          · simp only [omitRun, Option.some.injEq] at hr
            exact ⟨some true, hr.symm, .nilPtr h1 hb h2⟩
          · simp only [omitRun, h2, omitOut_call, Option.some.injEq] at hr
            exact ⟨_, hr.symm, .pointee h1 hb h2⟩
      · have hp' : ∀ e, U.base t ≠ .ptr e := fun e h => hp ⟨e, h⟩
        split at h
        · rename_i e hb; exact absurd hb (hp' e)
        · cases h2 : U.omitMethod name (.ptr t) with
          | none => rw [h2] at h; simp at h
          | some m =>
            rw [h2, if_pos (by simp)] at h
            cases h
            simp only [omitRun, h2] at hr
            refine ⟨_, ?_, .pointer h1 hp' h2⟩
            cases a with
            | true =>
              simp only [Bool.true_and] at hr
              rw [omitOut_call] at hr
              exact (Option.some.inj hr).symm
            | false =>
              simp only [Bool.false_and, Bool.false_eq_true, if_false] at hr
              exact (Option.some.inj hr).symm

theorem omitAll_typed {U : Univ} {name : Bytes} {rec : RV → Option (Out Bool)} : ∀ (xs : List GV) (t : Ty) (a : Bool),
    (∀ x ∈ xs, ∀ r, rec ⟨t, x, a⟩ = some r → ∃ b, r = omitOut b ∧ OmitVal U name a t x b) → ∀ r, omitAll rec (xs.map fun x => ⟨t, x, a⟩) = some r →
    ∃ b, r = omitOut b ∧ OmitVals U name a t xs b
  | [], _, _, _, r, h => by simp [omitAll] at h; subst h; exact ⟨some true, rfl, .nil⟩
  | x :: xs, t, a, hx, r, h => by
    simp only [List.map_cons, omitAll] at h
    cases hr : rec ⟨t, x, a⟩ with
    | none => rw [hr] at h; exact absurd h (by simp [andThen])
    | some q =>
      obtain ⟨b, rfl, hb⟩ := hx x (by simp) q hr
      cases b with
      | none =>
        rw [hr] at h
        cases h
        exact ⟨none, rfl, .panic hb⟩
      | some b =>
        rw [hr, omitOut, andThen_done] at h
        cases b with
        | true =>
          rw [if_pos rfl] at h
          obtain ⟨b', h1, h2⟩ := omitAll_typed xs t a (fun y hy => hx y (by simp [hy])) r h
          exact ⟨b', h1, .yes hb h2⟩
        | false => simp at h; subst h; exact ⟨some false, rfl, .no hb⟩

/-- The omiter of a type. -/
theorem omitRun_typed {U : Univ} (hU : U.Ok) (hI : U.PlainIfaces) {name : Bytes} (hn : name ≠ []) {objs : List Obj} :
    ∀ {fuel : Nat} {t : Ty} {om : Omiter}, OmFor U name t om → ∀ {v : GV} {a : Bool} {r}, HasTy U t v →
    omitRun U objs fuel om ⟨t, v, a⟩ = some r → ∃ b, r = omitOut b ∧ OmitVal U name a t v b := by
  intro fuel
  induction fuel with
  | zero => intro t om _ v a r _ h; simp [omitRun] at h
  | succ fuel ih =>
    intro t om ho v a r hp h
    have plain : newCustomOmiter U t name = none → (∀ n e, U.base t ≠ .array n e) → (∀ n i, U.base t = .iface n i → n = 0) →
        r = .done v.empty none → ∃ b, r = omitOut b ∧ OmitVal U name a t v b :=
      fun h1 h2 h3 h4 => ⟨some v.empty, h4, .plain ((customOmiter_none hn).1 h1) h2 h3⟩
    cases ho with
    | custom hc =>
      obtain ⟨b, h1, h2⟩ := customOmiter_run hI hn hc hp h
      exact ⟨b, h1, .custom h2⟩
    | ptr hc hb =>
      refine plain hc (by simp [hb]) (by simp [hb]) ?_
      rcases hp.inv_ptr hb with rfl | ⟨x, rfl, _⟩ <;> simp [omitRun] at h <;> subst h <;> simp [GV.empty]
    | struct hc hb =>
      refine plain hc (by simp [hb]) (by simp [hb]) ?_
      obtain ⟨fs, rfl, _⟩ := hp.inv_struct hb; simp [omitRun] at h; subst h; simp [GV.empty]
    | slice hc hb =>
      refine plain hc (by simp [hb]) (by simp [hb]) ?_
      rcases hp.inv_slice hb with rfl | ⟨arr, len, rfl, _⟩ <;> simp [omitRun] at h <;> subst h <;> simp [GV.empty]
    | map hc hb =>
      refine plain hc (by simp [hb]) (by simp [hb]) ?_
      rcases hp.inv_map hb with rfl | ⟨es, rfl, _⟩ <;> simp [omitRun] at h <;> subst h <;> simp [GV.empty]
    | string hc hb =>
      refine plain hc (by simp [hb]) (by simp [hb]) ?_
      obtain ⟨s, rfl⟩ := hp.inv_str hb; simp [omitRun] at h; subst h; simp [GV.empty]
    | any hc hb =>
      refine plain hc (by simp [hb]) (by intro n i h'; rw [hb] at h'; cases h'; rfl) ?_
      rcases hp.inv_iface hb with rfl | ⟨t', x, rfl, _⟩ <;> simp [omitRun] at h <;> subst h <;> simp [GV.empty]
    | iface hc hb hm =>
      simp [omitRun] at h
      exact ⟨some true, h.symm, .iface ((customOmiter_none hn).1 hc) hb hm⟩
    | int hc hb =>
      refine plain hc (by simp [hb]) (by simp [hb]) ?_
      obtain ⟨s, rfl⟩ := hp.inv_int hb; simp [omitRun] at h; subst h; simp [GV.empty]
    | uint hc hb =>
      refine plain hc (by simp [hb]) (by simp [hb]) ?_
      obtain ⟨s, rfl⟩ := hp.inv_uint hb; simp [omitRun] at h; subst h; simp [GV.empty]
    | float hc hb =>
      refine plain hc (by simp [hb]) (by simp [hb]) ?_
      obtain ⟨f, rfl⟩ := hp.inv_float hb
      rcases f with _ | ⟨neg, _ | ⟨m, e⟩⟩ <;> simp [omitRun] at h <;> subst h <;> simp [GV.empty]
    | bool hc hb =>
      refine plain hc (by simp [hb]) (by simp [hb]) ?_
      obtain ⟨s, rfl⟩ := hp.inv_bool hb; simp [omitRun] at h; subst h; simp [GV.empty]
    | other hc hb =>
      refine plain hc (by simp [hb]) (by simp [hb]) ?_
      have : v = .opaque := by cases hp <;> simp_all
      subst this
      simp [omitRun] at h; subst h; simp [GV.empty]
    | named hc hb => exact absurd hb (base_not_named hU _ _)
    | @array t n e om hc hb ho' =>
      obtain ⟨xs, rfl, hl, hx⟩ := hp.inv_array hb
      simp only [omitRun] at h
      rw [if_pos (by omega), List.take_of_length_le (by omega)] at h
      have he : U.elem t = e := by unfold Univ.elem; rw [hb]
      rw [he] at h
      obtain ⟨b, h1, h2⟩ := omitAll_typed xs e a (fun x hm r hr => ih ho' (hx x hm) hr) r h
      exact ⟨b, h1, .array ((customOmiter_none hn).1 hc) hb h2⟩

/-! ## Stores -/

section
variable {U : Univ} {o : Options} {f : Bool} {objs : List Obj}

theorem storeM_struct (hs : StoreM U o f objs) {r : Nat} {t : Ty} {j : Nat}
    (hb : U.base t = .struct j) (h : sh objs r = some (.struct t [])) :
    f = true ∧ ∃ fs cs, objs[r]? = some (.struct t fs) ∧ Cands U o (U.fields j) 0 [] cs ∧ All2 (FieldOkM U o objs) fs (resolve [] cs) := by
  obtain ⟨fs, hx⟩ := sh_struct h
  obtain ⟨h0, j', cs, h1, h2, h3⟩ := hs r _ hx
  rw [hb] at h1; cases h1
  exact ⟨h0, fs, cs, hx, h2, h3⟩

theorem storeM_ptr (hs : StoreM U o f objs) {r : Nat} {t el : Ty} {h : Hint}
    (hb : U.base t = .ptr el) (hx : sh objs r = some (.ptrE t h none)) :
    ∃ e, objs[r]? = some (.ptrE t h (some e)) ∧ EncIsM U o f objs e el h := by
  obtain ⟨x, h1, h2⟩ := sh_some hx
  cases x <;> simp [Obj.shape] at h2
  obtain ⟨rfl, rfl⟩ := h2
  obtain ⟨el', e', q1, rfl, q3⟩ := hs r _ h1
  rw [hb] at q1; cases q1
  exact ⟨e', h1, q3⟩

theorem storeM_slice (hs : StoreM U o f objs) {r : Nat} {t el : Ty} {h : Hint}
    (hb : U.base t = .slice el) (hx : sh objs r = some (.sliceE t h none)) :
    ∃ e, objs[r]? = some (.sliceE t h (some e)) ∧ EncIsM U o f objs e el h := by
  obtain ⟨x, h1, h2⟩ := sh_some hx
  cases x <;> simp [Obj.shape] at h2
  obtain ⟨rfl, rfl⟩ := h2
  obtain ⟨el', e', q1, rfl, q3⟩ := hs r _ h1
  rw [hb] at q1; cases q1
  exact ⟨e', h1, q3⟩

theorem storeM_array (hs : StoreM U o f objs) {r n : Nat} {t el : Ty} {h : Hint}
    (hb : U.base t = .array n el) (hx : sh objs r = some (.arrayE t h n none)) :
    ∃ e, objs[r]? = some (.arrayE t h n (some e)) ∧ EncIsM U o f objs e el h := by
  obtain ⟨x, h1, h2⟩ := sh_some hx
  cases x <;> simp [Obj.shape] at h2
  obtain ⟨rfl, rfl, rfl⟩ := h2
  obtain ⟨el', e', q1, rfl, q3⟩ := hs r _ h1
  rw [hb] at q1; cases q1
  exact ⟨e', h1, q3⟩

theorem storeM_map (hs : StoreM U o f objs) {r : Nat} {t k el : Ty} {ke : Enc}
    (hb : U.base t = .map k el) (hx : sh objs r = some (.mapE t ke none)) :
    ∃ e, objs[r]? = some (.mapE t ke (some e)) ∧ EncIsM U o f objs e el Hint.none := by
  obtain ⟨x, h1, h2⟩ := sh_some hx
  cases x <;> simp [Obj.shape] at h2
  obtain ⟨rfl, rfl⟩ := h2
  obtain ⟨k', el', e', q1, q2, rfl, q3⟩ := hs r _ h1
  rw [hb] at q1; cases q1
  exact ⟨e', h1, q3⟩
end

/-- With hints the methods of a type are used. -/
theorem via_hint {U : Univ} {f : Bool} {h : Hint} {t : Ty} (ho : h.omitempty = true) : via U f h t = marshalMeth U t := by
  unfold via
  rw [if_neg]
  rintro ⟨_, rfl, _⟩
  simp [Hint.none] at ho

/-- Omission of fields and structs. -/
theorem omitM_spec {U : Univ} {o : Options} (hU : U.Ok) (hE : U.EmbedsStructs) (hI : U.PlainIfaces) (hn : o.omitMethod ≠ []) {objs : List Obj}
    (hs : StoreM U o true objs) : ∀ (fuel : Nat),
    (∀ {c k v a r}, FieldOkM U o objs c k → HasTy U k.typ v → omitRun U objs fuel c.om ⟨k.typ, v, a⟩ = some r →
      ∃ b, r = omitOut b ∧ OmitsM U o a k v b) ∧
    (∀ {fs ks t v a r}, All2 (FieldOkM U o objs) fs ks → (∀ k ∈ ks, PathTy U t k.index k.typ) → HasTy U t v →
      omitFields U (omitRun U objs fuel) ⟨t, v, a⟩ fs = some r → ∃ b, r = omitOut b ∧ OmitsAllM U o a ks v b) := by
  intro fuel
  have fields : ∀ fuel, (∀ {c k v a r}, FieldOkM U o objs c k → HasTy U k.typ v → omitRun U objs fuel c.om ⟨k.typ, v, a⟩ = some r →
      ∃ b, r = omitOut b ∧ OmitsM U o a k v b) →
      ∀ {fs ks t v a r}, All2 (FieldOkM U o objs) fs ks → (∀ k ∈ ks, PathTy U t k.index k.typ) → HasTy U t v →
      omitFields U (omitRun U objs fuel) ⟨t, v, a⟩ fs = some r → ∃ b, r = omitOut b ∧ OmitsAllM U o a ks v b := by
    intro fuel field fs ks t v a r hall hpath hp h
    induction hall generalizing r with
    | nil => simp [omitFields] at h; subst h; exact ⟨some true, rfl, .nil⟩
    | @cons c k fs ks hf _ ih' =>
      simp only [omitFields] at h
      have hpk := hpath k (by simp)
      rw [hf.index] at h
      rcases fieldByIndex_typed hpk (a := a) hp with ⟨e1, e2⟩ | ⟨x, e1, e2, e3⟩
      · rw [e1] at h
        obtain ⟨b, h1, h2⟩ := ih' (fun k' hk' => hpath k' (by simp [hk'])) h
        exact ⟨b, h1, .absent e2 h2⟩
      · rw [e1] at h
        cases hr : omitRun U objs fuel c.om ⟨k.typ, x, addrAt a k.index⟩ with
        | none => simp only [hr] at h; exact absurd h (by simp [andThen])
        | some q =>
          obtain ⟨b, rfl, hb⟩ := field hf e3 hr
          rcases b with _ | _ | _
          · simp only [hr, omitOut, andThen] at h
            cases h
            exact ⟨none, rfl, .panic e2 hb⟩
          · simp only [hr, omitOut, andThen_done] at h
            simp at h; subst h; exact ⟨some false, rfl, .no e2 hb⟩
          · simp only [hr, omitOut, andThen_done] at h
            rw [if_pos trivial] at h
            obtain ⟨b', h1, h2⟩ := ih' (fun k' hk' => hpath k' (by simp [hk'])) h
            exact ⟨b', h1, .yes e2 hb h2⟩
  induction fuel with
  | zero => exact ⟨fun _ _ h => by simp [omitRun] at h, fields 0 (fun _ _ h => by simp [omitRun] at h)⟩
  | succ fuel ih =>
    have field : ∀ {c k v a r}, FieldOkM U o objs c k → HasTy U k.typ v → omitRun U objs (fuel + 1) c.om ⟨k.typ, v, a⟩ = some r →
      ∃ b, r = omitOut b ∧ OmitsM U o a k v b := by
      intro c k v a r hf hp h
      have hom := hf.om
      have hvia := hf.enc.1
      unfold OmIs at hom
      by_cases ho : k.hint.omitempty = true
      · rw [if_pos ho] at hom
        rw [via_hint ho] at hvia
        by_cases hst : ∃ r, c.enc = .struct r
        · obtain ⟨r0, hr0⟩ := hst
          have henc := hf.enc.2
          rw [hr0] at hom henc hvia
          obtain ⟨j, hb, hsh⟩ := henc
          obtain ⟨_, fs, cs, hx, hc, ha⟩ := storeM_struct hs hb hsh
          cases hcu : newCustomOmiter U k.typ o.omitMethod with
          | some om =>
            simp only [hcu, Option.getD_some] at hom
            rw [hom] at h
            obtain ⟨b, h1, h2⟩ := customOmiter_run hI hn hcu hp h
            exact ⟨b, h1, .custom ho hb hvia h2⟩
          | none =>
            simp only [hcu, Option.getD_none] at hom
            rw [hom] at h
            simp only [omitRun, hx] at h
            obtain ⟨b, h1, h2⟩ := ih.2 ha (cands_path0 hE hb hc) hp h
            exact ⟨b, h1, .struct ho hb hvia ((customOmiter_none hn).1 hcu) hc h2⟩
        · have hom' : OmFor U o.omitMethod k.typ c.om := by
            cases hce : c.enc <;> rw [hce] at hom <;> first | exact hom | exact absurd ⟨_, hce⟩ hst
          obtain ⟨b, h1, h2⟩ := omitRun_typed hU hI hn hom' hp h
          refine ⟨b, h1, .value ho ?_ h2⟩
          by_cases hb : ∃ j, U.base k.typ = .struct j
          · obtain ⟨j, hb⟩ := hb
            right
            intro hm
            rw [hm] at hvia
            have henc := hf.enc.2
            cases hce : c.enc <;> rw [hce] at hvia henc <;> simp [encName] at hvia <;> simp [EncIs, hb] at henc
            exact hst ⟨_, hce⟩
          · exact .inl (fun j h => hb ⟨j, h⟩)
      · rw [if_neg ho] at hom
        rw [hom] at h
        simp only [omitRun, Option.some.injEq] at h
        exact ⟨false, h.symm, .keep (by simpa using ho)⟩
    exact ⟨field, fields (fuel + 1) field⟩

/-! ## Sequencing -/

/-- A result that belongs to a failure -/
def Fails : Fail → Out Bytes → Prop
  | .err e, r => ∃ b, r = .done b (some e)
  | .panic, r => r = .panic

theorem agrees_error {b : Bytes} {f : Fail} {r : Out Bytes} : Agrees b (.error f) r ↔ Fails f r := by cases f <;> rfl

theorem andThen_agrees {x : Option (Out Bytes)} {f : Bytes → Option (Out Bytes)} {r : Out Bytes} {b : Bytes}
    {W : Except Fail Bytes → Prop} (h : andThen x id f = some r) (hx : ∀ q, x = some q → ∃ w, W w ∧ Agrees b w q) :
    (∃ s, W (.ok s) ∧ f (b ++ s) = some r) ∨ ∃ e, W (.error e) ∧ Fails e r := by
  unfold andThen at h
  cases x with
  | none => cases h
  | some q =>
    obtain ⟨w, hw, ha⟩ := hx q rfl
    rcases w with (e | _) | s
    · obtain ⟨b', rfl⟩ := ha
      dsimp only at h
      exact .inr ⟨_, hw, b', (Option.some.inj h).symm⟩
    · cases ha
      exact .inr ⟨_, hw, (Option.some.inj h).symm⟩
    · cases ha
      exact .inl ⟨s, hw, h⟩

/-- What follows elements that were written before (`first = false`) -/
def sepC (first : Bool) (ss : List Bytes) : Bytes := if first then commas ss else if ss.isEmpty then [] else [44] ++ commas ss

theorem sepC_cons (first : Bool) (s : Bytes) (ss : List Bytes) : sepC first (s :: ss) = (if first then [] else [44]) ++ s ++ sepC false ss := by
  cases first <;> cases ss <;> simp [sepC, commas]
theorem sepC_nil (first : Bool) : sepC first [] = [] := by cases first <;> rfl

theorem encElems_specM {U : Univ} {c a : Bool} {o : Options} {h : Hint} {t : Ty} {rec : Bytes → RV → Option (Out Bytes)} :
    ∀ (xs : List GV) (first : Bool) (b : Bytes) (r : Out Bytes),
    (∀ x ∈ xs, ∀ b r, rec b ⟨t, x, a⟩ = some r → ∃ w, Writes U c a o h t x w ∧ Agrees b w r) →
    encElems rec (xs.map fun x => ⟨t, x, a⟩) first b = some r →
    ∃ w, WElems U c a o h t xs w ∧ Agrees b (w.map (sepC first)) r
  | [], first, b, r, _, hr => by
    simp [encElems] at hr; subst hr
    exact ⟨_, .nil, by simp [Except.map, Agrees, sepC_nil]⟩
  | x :: xs, first, b, r, hx, hr => by
    simp only [List.map_cons, encElems] at hr
    rcases andThen_agrees hr (fun q hq => hx x (by simp) _ _ hq) with ⟨s, h1, h2⟩ | ⟨e, h1, h2⟩
    · obtain ⟨w, e1, e2⟩ := encElems_specM xs false _ r (fun y hy => hx y (by simp [hy])) h2
      refine ⟨_, .cons h1 e1, ?_⟩
      rcases w with f | ss
      · exact agrees_error.2 (agrees_error.1 e2)
      · simp only [Except.map, Agrees] at e2 ⊢
        rw [e2, sepC_cons]
        cases first <;> simp
    · exact ⟨_, .stop h1, agrees_error.2 h2⟩

theorem encEntries_specM {U : Univ} {c : Bool} {o : Options} {t kt : Ty} {key val : Bytes → RV → Option (Out Bytes)} :
    ∀ (es : List (GV × GV)) (first : Bool) (b : Bytes) (r : Out Bytes),
    (∀ p ∈ es, ∀ b r, key b ⟨kt, p.1, false⟩ = some r → Agrees b (keyText U kt p.1) r) →
    (∀ p ∈ es, ∀ b r, val b ⟨t, p.2, false⟩ = some r → ∃ w, Writes U c false o Hint.none t p.2 w ∧ Agrees b w r) →
    encEntries key val (es.map fun p => (⟨kt, p.1, false⟩, ⟨t, p.2, false⟩)) first b = some r →
    ∃ w, WEntries U c o kt t es w ∧ Agrees b (w.map (sepC first)) r
  | [], first, b, r, _, _, hr => by
    simp [encEntries] at hr; subst hr
    exact ⟨_, .nil, by simp [Except.map, Agrees, sepC_nil]⟩
  | (k, x) :: es, first, b, r, hk, hx, hr => by
    simp only [List.map_cons, encEntries] at hr
    rcases andThen_agrees (W := fun w => keyText U kt k = w) hr (fun q hq => ⟨_, rfl, hk (k, x) (by simp) _ _ hq⟩) with
      ⟨s, h1, h2⟩ | ⟨e, h1, h2⟩
    · rcases andThen_agrees h2 (fun q hq => hx (k, x) (by simp) _ _ hq) with ⟨s', h3, h4⟩ | ⟨e, h3, h4⟩
      · obtain ⟨w, e1, e2⟩ := encEntries_specM es false _ r (fun y hy => hk y (by simp [hy])) (fun y hy => hx y (by simp [hy])) h4
        refine ⟨_, .cons h1 h3 e1, ?_⟩
        rcases w with f | ss
        · exact agrees_error.2 (agrees_error.1 e2)
        · simp only [Except.map, Agrees] at e2 ⊢
          rw [e2, sepC_cons]
          cases first <;> simp
      · exact ⟨_, .stop h1 h3, agrees_error.2 h4⟩
    · exact ⟨_, .key h1, agrees_error.2 h2⟩

theorem encFields_specM {U : Univ} {o : Options} {objs : List Obj} {rec : Enc → Bytes → RV → Option (Out Bytes)}
    {om : Omiter → RV → Option (Out Bool)}
    (hrec : ∀ e h t v a b r, EncIsM U o true objs e t h → HasTy U t v → rec e b ⟨t, v, a⟩ = some r →
      ∃ w, Writes U true a o h t v w ∧ Agrees b w r)
    (hom : ∀ {c k v a r}, FieldOkM U o objs c k → HasTy U k.typ v → om c.om ⟨k.typ, v, a⟩ = some r → ∃ b, r = omitOut b ∧ OmitsM U o a k v b)
    {t : Ty} {v : GV} {a : Bool} (hp : HasTy U t v) {fs : List Codec} {ks : List Cand} (hall : All2 (FieldOkM U o objs) fs ks) :
    (∀ k ∈ ks, PathTy U t k.index k.typ) → ∀ (more : Bool) (b : Bytes) (r : Out Bytes),
    encFields U rec om ⟨t, v, a⟩ fs more b = some r →
    ∃ w, WFields U a o v ks w ∧ Agrees b (w.map fun ss => (if more then [] else [123]) ++ sepC (!more) ss ++ [125]) r := by
  induction hall with
  | nil =>
    intro _ more b r h
    simp only [encFields, Option.some.injEq] at h
    subst h
    refine ⟨_, .nil, ?_⟩
    cases more <;> simp [Except.map, Agrees, sepC_nil]
  | @cons c k fs ks hf _ ih =>
    intro hpath more b r h
    simp only [encFields] at h
    have hpk := hpath k (by simp)
    rw [hf.index] at h
    rcases fieldByIndex_typed hpk (a := a) hp with ⟨e1, e2⟩ | ⟨x, e1, e2, e3⟩
    · rw [e1] at h
      obtain ⟨w, h1, h2⟩ := ih (fun k' hk' => hpath k' (by simp [hk'])) _ _ _ h
      exact ⟨w, .absent e2 h1, h2⟩
    · rw [e1] at h
      cases hq : om c.om ⟨k.typ, x, addrAt a k.index⟩ with
      | none => simp only [hq] at h; exact absurd h (by simp [andThen])
      | some q =>
        obtain ⟨skip, rfl, hsk⟩ := hom hf e3 hq
        rcases skip with _ | _ | _
        · simp only [hq, omitOut, andThen] at h
          cases h
          exact ⟨_, .omitPanic e2 hsk, rfl⟩
        rotate_left
        · simp only [hq, omitOut, andThen_done] at h
          rw [if_pos trivial] at h
          obtain ⟨w, h1, h2⟩ := ih (fun k' hk' => hpath k' (by simp [hk'])) _ _ _ h
          exact ⟨w, .omitted e2 hsk h1, h2⟩
        · simp only [hq, omitOut, andThen_done] at h
          simp only [Bool.false_eq_true, if_false] at h
          rcases andThen_agrees h (fun q hq => hrec _ k.hint _ _ _ _ _ hf.enc e3 hq) with ⟨s, h1, h2⟩ | ⟨e, h1, h2⟩
          · obtain ⟨w, h3, h4⟩ := ih (fun k' hk' => hpath k' (by simp [hk'])) _ _ _ h2
            refine ⟨_, .present e2 hsk h1 h3, ?_⟩
            rcases w with f | ss
            · exact agrees_error.2 (agrees_error.1 h4)
            · simp only [Except.map, Agrees] at h4 ⊢
              rw [h4, hf.key, sepC_cons]
              cases more <;> simp
          · exact ⟨_, .stop e2 hsk h1, agrees_error.2 h2⟩

/-- The closing bracket -/
theorem andThen_close {x : Option (Out Bytes)} {b : Bytes} {c : UInt8} {r : Out Bytes} {α : Type} {W : Except Fail α → Prop} {g : α → Bytes}
    (h : andThen x id (fun b => some (.done (b ++ [c]) none)) = some r) (hx : ∀ q, x = some q → ∃ w, W w ∧ Agrees b (w.map g) q) :
    ∃ w, W w ∧ Agrees b (w.map fun a => g a ++ [c]) r := by
  unfold andThen at h
  cases x with
  | none => cases h
  | some q =>
    obtain ⟨w, hw, ha⟩ := hx q rfl
    refine ⟨w, hw, ?_⟩
    rcases w with (e | _) | s
    · obtain ⟨b', rfl⟩ := ha
      exact ⟨b', (Option.some.inj h).symm⟩
    · cases ha
      exact (Option.some.inj h).symm
    · cases ha
      have := (Option.some.inj h).symm
      simp only [List.append_assoc] at this
      exact this

/-- Move what was written before to the outcome. -/
theorem agrees_prefix {b p : Bytes} {α : Type} {w : Except Fail α} {g : α → Bytes} {r : Out Bytes} (h : Agrees (b ++ p) (w.map g) r) :
    Agrees b (w.map fun a => p ++ g a) r := by
  rcases w with f | s
  · exact agrees_error.2 (agrees_error.1 h)
  · simp only [Except.map, Agrees] at h ⊢; rw [h]; simp

/-! ## Not inside a struct -/

theorem writes_outside {U : Univ} {c a : Bool} {o : Options} {h : Hint} {t : Ty} {v : GV} {w : Except Fail Bytes} (hw : Writes U c a o h t v w) :
    (∀ s, ¬ Leads U h t s) → Writes U false a o h t v w := by
  have hv : ∀ {c h t}, (∀ s, ¬ Leads U h t s) → via U false h t = via U c h t := by
    intro c h t hn
    rw [via_false]
    unfold via
    split
    · rename_i hc
      cases hm : marshalMeth U t with
      | none => rfl
      | some m =>
        obtain ⟨_, rfl, hs, hu⟩ := hc
        exact absurd (.here ⟨hs, hu, by rw [hm]; simp⟩) (hn t)
    · rfl
  have hmm : ∀ {c h t}, (∀ s, ¬ Leads U h t s) → via U c h t = none → marshalMeth U t = none := by
    intro c h t hn hvn
    rw [← via_false (U := U) (h := h), hv hn (c := c)]; exact hvn
  refine Writes.rec
    (motive_1 := fun c a o h t v w _ => (∀ s, ¬ Leads U h t s) → Writes U false a o h t v w)
    (motive_2 := fun c a o h t xs w _ => (∀ s, ¬ Leads U h t s) → WElems U false a o h t xs w)
    (motive_3 := fun c o k t es w _ => (∀ s, ¬ Leads U Hint.none t s) → WEntries U false o k t es w)
    (motive_4 := fun _ _ _ _ _ _ => True) (motive_5 := fun _ _ _ _ _ => True)
    ?_ ?_ ?_ ?_ ?_ ?_ ?_ ?_ ?_ ?_ ?_ ?_ ?_ ?_ ?_ ?_ ?_ ?_ ?_ ?_ ?_ ?_ ?_ ?_ ?_ ?_ ?_ ?_ ?_ ?_ ?_ ?_ ?_ ?_ ?_ ?_ hw
  case refine_1 => intro c a o h t v m h1 hn; exact .meth ((hv hn).trans h1)
  case refine_2 => intro c a o h t v h1 h2 hn; exact .bool ((hv hn).trans h1) h2
  case refine_3 => intro c a o h t k v h1 h2 hn; exact .int ((hv hn).trans h1) h2
  case refine_4 => intro c a o h t k v h1 h2 hn; exact .uint ((hv hn).trans h1) h2
  case refine_5 => intro c a o h t k v h1 h2 hn; exact .float ((hv hn).trans h1) h2
  case refine_6 => intro c a o h t v h1 h2 hn; exact .str ((hv hn).trans h1) h2
  case refine_7 => intro c a o h t e h1 h2 hn; exact .nilPtr ((hv hn).trans h1) h2
  case refine_8 =>
    intro c a o h t e v w h1 h2 _ ih hn
    exact .ptr ((hv hn).trans h1) h2 (ih (fun s hs => hn s (.ptr (hmm hn h1) h2 hs)))
  case refine_9 => intro c a o h t e h1 h2 hn; exact .nilSlice ((hv hn).trans h1) h2
  case refine_10 =>
    intro c a o h t e arr len w h1 h2 _ ih hn
    exact .slice ((hv hn).trans h1) h2 (ih (fun s hs => hn s (.slice (hmm hn h1) h2 hs)))
  case refine_11 =>
    intro c a o h t n e xs w h1 h2 _ ih hn
    exact .array ((hv hn).trans h1) h2 (ih (fun s hs => hn s (.array (hmm hn h1) h2 hs)))
  case refine_12 => intro c a o h t k e h1 h2 hn; exact .nilMap ((hv hn).trans h1) h2
  case refine_13 =>
    intro c a o h t k e es w h1 h2 _ ih hn
    exact .map ((hv hn).trans h1) h2 (ih (fun s hs => hn s (.map (hmm hn h1) h2 hs)))
  case refine_14 => intro c a o h t i h1 h2 hn; exact .nilIface ((hv hn).trans h1) h2
  case refine_15 => intro c a o h t i t' v w h1 h2 h3 _ hn; exact .iface ((hv hn).trans h1) h2 h3
  case refine_16 => intro c a o h t j cs fs w h1 h2 h3 h4 _ hn; exact .struct ((hv hn).trans h1) h2 h3 h4
  case refine_17 => intro c a o h t _; exact .nil
  case refine_18 => intro c a o h t x xs f _ ih hn; exact .stop (ih hn)
  case refine_19 => intro c a o h t x xs s w _ _ ih1 ih2 hn; exact .cons (ih1 hn) (ih2 hn)
  case refine_20 => intro c o k t _; exact .nil
  case refine_21 => intro c o k t x y es f h1 _; exact .key h1
  case refine_22 => intro c o k t x y es s f h1 _ ih hn; exact .stop h1 (ih hn)
  case refine_23 => intro c o k t x y es s s' w h1 _ _ ih1 ih2 hn; exact .cons h1 (ih1 hn) (ih2 hn)
  all_goals (intros; trivial)

/-! ## Encoding -/

theorem normalize_omit (o : Options) : o.normalize.omitMethod ≠ [] := by
  unfold Options.normalize
  dsimp only
  split
  · decide
  · assumption

/-- An encoder for the dynamic type of an argument and the call, given that encoders do what they should. -/
theorem arg_specM {U : Univ} (hU : U.Program) {fuel : Nat}
    (ih : ∀ (o : Options) (objs : List Obj) (f : Bool), o.omitMethod ≠ [] → StoreM U o f objs → ∀ e h t v a b r, EncIsM U o f objs e t h →
      HasTy U t v → encode U objs fuel e b ⟨t, v, a⟩ = some r → ∃ w, Writes U f a o h t v w ∧ Agrees b w r)
    {o : Options} {nf : Nat} {t : Ty} {v : GV} (hv : HasTy U t v) {m : TypeEncoder} (hm : newTypeEncoder U o nf t = .ok m) {b : Bytes} {r : Out Bytes}
    (hr : m.encode U fuel b t v = some r) : ∃ w, WArg U o.normalize t v w ∧ Agrees b w r := by
  have hc := (newTypeEncoder_cases hU.ok (o := o) (fuel := nf) (t := t)).1 m hm
  -- the encoder of a type without methods
  have step : ∀ t' v a c e, newEncoder U o.normalize nf t' Hint.none Codecs.empty = .ok (e, c) → HasTy U t' v →
      encode U c.objs fuel e b ⟨t', v, a⟩ = some r → ∃ w, Writes U false a o.normalize Hint.none t' v w ∧ Agrees b w r := by
    intro t' v a c e hq hv' hr'
    rcases newEncoder_storeM hU.paired hq with ⟨h1, h2⟩ | ⟨h0, h1, h2⟩
    · exact ih _ _ _ (normalize_omit o) h1 _ _ _ _ _ _ _ h2 hv' hr'
    · obtain ⟨w, h3, h4⟩ := ih _ _ _ (normalize_omit o) h1 _ _ _ _ _ _ _ h2 hv' hr'
      exact ⟨w, writes_outside h3 h0, h4⟩
  have meth : ∀ t' v a e tm, encMeth U tm = some e → encode U [] fuel e b ⟨t', v, a⟩ = some r →
      ∃ m, marshalMeth U tm = some m ∧ Agrees b (callMeth U m t' v) r := by
    intro t' v a e tm he hr'
    have hn := encMeth_name he
    cases fuel with
    | zero => simp [encode] at hr'
    | succ fuel =>
      cases e <;> simp only [encName] at hn <;>
        first
        | (refine ⟨_, hn, ?_⟩
           simp only [encode, Option.some.injEq] at hr'
           rw [← hr']; exact encMethod_agrees hU.appends _ _ _ _ _)
        | (rw [encMeth_none.2 hn] at he; cases he)
  by_cases hp : ∃ e, U.base t = .ptr e
  · obtain ⟨el, hb⟩ := hp
    unfold TypeEncoder.encode at hr
    rcases hv.inv_ptr hb with rfl | ⟨x, rfl, hx⟩
    · simp only [hb, Option.some.injEq] at hr
      exact ⟨_, .nilPtr hb (hc.1 _ hb), hr.symm⟩
    · simp only [hb] at hr
      rw [newTypeEncoder_ptr hb] at hm
      cases he : encMeth U t with
      | some e =>
        rw [he] at hm; cases hm
        rw [if_pos rfl] at hr
        obtain ⟨m, h1, h2⟩ := meth _ _ _ _ _ he hr
        exact ⟨_, .ptrMeth hb h1, h2⟩
      | none =>
        rw [he] at hm
        dsimp only at hm
        cases hq : newEncoder U o.normalize nf el Hint.none Codecs.empty with
        | err _ => rw [hq] at hm; cases hm
        | diverge => rw [hq] at hm; cases hm
        | ok ec =>
          obtain ⟨e, c⟩ := ec
          rw [hq] at hm; cases hm
          rw [if_pos rfl] at hr
          obtain ⟨w, h1, h2⟩ := step _ _ _ _ _ hq hx hr
          have hn := encMeth_none.1 he
          exact ⟨w, .ptr hb hn (hc.1 _ hb hn) h1, h2⟩
  · have hne : ∀ e, U.base t ≠ .ptr e := fun e h => hp ⟨e, h⟩
    have hr' : (if t = m.typ then encode U m.objs fuel m.enc b ⟨t, v, false⟩ else some (.done b (some .invalidValueType))) = some r := by
      rw [← hr]; unfold TypeEncoder.encode
      cases hbt : U.base t <;> first | exact absurd hbt (hne _) | rfl
    rw [newTypeEncoder_val hne] at hm
    cases he : encMeth U (.ptr t) with
    | some e =>
      rw [he] at hm; cases hm
      rw [if_pos rfl] at hr'
      obtain ⟨m, h1, h2⟩ := meth _ _ _ _ _ he hr'
      exact ⟨_, .meth hne h1, h2⟩
    | none =>
      rw [he] at hm
      dsimp only at hm
      cases hq : newEncoder U o.normalize nf t Hint.none Codecs.empty with
      | err _ => rw [hq] at hm; cases hm
      | diverge => rw [hq] at hm; cases hm
      | ok ec =>
        obtain ⟨e, c⟩ := ec
        rw [hq] at hm; cases hm
        rw [if_pos rfl] at hr'
        obtain ⟨w, h1, h2⟩ := step _ _ _ _ _ hq hv hr'
        have hn := encMeth_none.1 he
        exact ⟨w, .value hne hn (hc.2 hne hn) h1, h2⟩

/-- The error of `newTypeEncoder` -/
theorem arg_errM {U : Univ} (hU : U.Program) {o : Options} {nf : Nat} {t : Ty} {v : GV} {e : UErr} (hm : newTypeEncoder U o nf t = .err e) (b b' : Bytes) :
    ∃ w, WArg U o.normalize t v w ∧ Agrees b w (.done b' (some e)) := by
  obtain ⟨rfl, h⟩ := (newTypeEncoder_cases hU.ok (o := o) (fuel := nf) (t := t)).2 e hm
  rcases h with ⟨el, h1, h2, h3⟩ | ⟨h1, h2, h3⟩
  · exact ⟨_, .ptrInvalid h1 h2 h3, b', rfl⟩
  · exact ⟨_, .invalid h1 h2 h3, b', rfl⟩

theorem encode_specM {U : Univ} (hU : U.Program) : ∀ (fuel : Nat) (o : Options) (objs : List Obj) (f : Bool), o.omitMethod ≠ [] →
    StoreM U o f objs → ∀ e h t v a b r, EncIsM U o f objs e t h → HasTy U t v → encode U objs fuel e b ⟨t, v, a⟩ = some r →
    ∃ w, Writes U f a o h t v w ∧ Agrees b w r := by
  intro fuel
  induction fuel with
  | zero => intro o objs f _ _ e h t v a b r _ _ hr; simp [encode] at hr
  | succ fuel ih =>
    intro o objs f hn hs e h t v a b r he hp hr
    obtain ⟨hv, he⟩ := he
    cases e with
    | njson =>
      simp only [encode, Option.some.injEq] at hr
      exact ⟨_, .meth hv, hr ▸ encMethod_agrees hU.appends _ _ _ _ _⟩
    | json =>
      simp only [encode, Option.some.injEq] at hr
      exact ⟨_, .meth hv, hr ▸ encMethod_agrees hU.appends _ _ _ _ _⟩
    | text =>
      simp only [encode, Option.some.injEq] at hr
      exact ⟨_, .meth hv, hr ▸ encMethod_agrees hU.appends _ _ _ _ _⟩
    | bool =>
      obtain ⟨x, rfl⟩ := hp.inv_bool he
      simp only [encode, Option.some.injEq] at hr
      exact ⟨_, .bool hv he, hr ▸ rfl⟩
    | int =>
      obtain ⟨k, hb⟩ := he
      obtain ⟨x, rfl⟩ := hp.inv_int hb
      simp only [encode, Option.some.injEq] at hr
      exact ⟨_, .int hv hb, hr ▸ rfl⟩
    | uint =>
      obtain ⟨k, hb⟩ := he
      obtain ⟨x, rfl⟩ := hp.inv_uint hb
      simp only [encode, Option.some.injEq] at hr
      exact ⟨_, .uint hv hb, hr ▸ rfl⟩
    | float bits inf nan =>
      obtain ⟨⟨k, hb⟩, rfl, rfl, rfl⟩ := he
      obtain ⟨f, rfl⟩ := hp.inv_float hb
      simp only [encode, Option.some.injEq] at hr
      refine ⟨_, .float hv hb, ?_⟩
      rcases f with _ | ⟨neg, ⟨m, e⟩ | _⟩
      · simp only [encFloat] at hr
        unfold floatOut
        by_cases ho : o.allowNaN = true
        · rw [if_pos ho] at hr ⊢; exact hr.symm
        · rw [if_neg ho] at hr ⊢; exact ⟨_, hr.symm⟩
      · simp only [encFloat] at hr
        rw [appendFloat_append hU.floats.floatText] at hr
        exact hr.symm
      · simp only [encFloat] at hr
        unfold floatOut
        dsimp only
        by_cases ho : o.allowInf = true
        · rw [if_pos ho] at hr ⊢; exact hr.symm
        · rw [if_neg ho] at hr ⊢; exact ⟨_, hr.symm⟩
    | str html =>
      obtain ⟨hb, hh⟩ := he
      obtain ⟨s, rfl⟩ := hp.inv_str hb
      simp only [encode, Option.some.injEq] at hr
      refine ⟨_, .str hv hb, ?_⟩
      have : strText h s = StrJson.escaped s html false := by
        obtain ⟨raw, ht, om⟩ := h
        unfold newStringEncoder at hh
        unfold strText
        cases ht <;> cases raw <;> simp at hh ⊢ <;> subst hh <;> rfl
      rw [← hr, this, (Props.C04_append_escaped _ _ _).1]; simp [Agrees]
    | rawStr =>
      obtain ⟨hb, hh⟩ := he
      obtain ⟨s, rfl⟩ := hp.inv_str hb
      simp only [encode, Option.some.injEq] at hr
      refine ⟨_, .str hv hb, ?_⟩
      have : strText h s = s := by
        obtain ⟨raw, ht, om⟩ := h
        unfold newStringEncoder at hh
        unfold strText
        cases ht <;> cases raw <;> simp at hh ⊢
      rw [← hr, this]; simp [Agrees]
    | ptr r0 =>
      obtain ⟨el, hb, hx⟩ := he
      obtain ⟨e', hobj, he'⟩ := storeM_ptr hs hb hx
      rcases hp.inv_ptr hb with rfl | ⟨x, rfl, hpx⟩
      · simp only [encode, Option.some.injEq] at hr
        exact ⟨_, .nilPtr hv hb, hr.symm⟩
      · simp only [encode, hobj] at hr
        rw [elem_of_base (.inl hb)] at hr
        obtain ⟨w, h1, h2⟩ := ih o objs f hn hs e' h el x true b r he' hpx hr
        exact ⟨w, .ptr hv hb h1, h2⟩
    | slice r0 =>
      obtain ⟨el, hb, hx⟩ := he
      obtain ⟨e', hobj, he'⟩ := storeM_slice hs hb hx
      rcases hp.inv_slice hb with rfl | ⟨arr, len, rfl, _, hpx⟩
      · simp only [encode, Option.some.injEq] at hr
        exact ⟨_, .nilSlice hv hb, hr.symm⟩
      · simp only [encode, hobj] at hr
        rw [elem_of_base (.inr (.inl hb))] at hr
        obtain ⟨w, h1, h2⟩ := andThen_close hr (fun q hq => encElems_specM (arr.take len) true (b ++ [91]) q
          (fun x hx b r hr => ih o objs f hn hs e' h el x true b r he' (hpx x (List.mem_of_mem_take hx)) hr) hq)
        refine ⟨_, .slice hv hb h1, ?_⟩
        have := agrees_prefix h2
        simpa [sepC] using this
    | array r0 =>
      obtain ⟨n, el, hb, hx⟩ := he
      obtain ⟨e', hobj, he'⟩ := storeM_array hs hb hx
      obtain ⟨xs, rfl, hl, hpx⟩ := hp.inv_array hb
      simp only [encode, hobj] at hr
      rw [elem_of_base (.inr (.inr (.inl ⟨n, hb⟩))), if_pos (by omega), List.take_of_length_le (by omega)] at hr
      obtain ⟨w, h1, h2⟩ := andThen_close hr (fun q hq => encElems_specM xs true (b ++ [91]) q
        (fun x hx b r hr => ih o objs f hn hs e' h el x a b r he' (hpx x hx) hr) hq)
      refine ⟨_, .array hv hb h1, ?_⟩
      have := agrees_prefix h2
      simpa [sepC] using this
    | map r0 =>
      obtain ⟨k, el, ke, hb, hke, hx⟩ := he
      obtain ⟨e', hobj, he'⟩ := storeM_map hs hb hx
      rcases hp.inv_map hb with rfl | ⟨es, rfl, hks, hpx⟩
      · simp only [encode, Option.some.injEq] at hr
        exact ⟨_, .nilMap hv hb, hr.symm⟩
      · simp only [encode, hobj] at hr
        rw [elem_of_base (.inr (.inr (.inr ⟨k, hb⟩)))] at hr
        simp only [hb] at hr
        have hkey : ∀ p ∈ es, ∀ b r, encode U objs fuel ke b ⟨k, p.1, false⟩ = some r → Agrees b (keyText U k p.1) r := by
          intro p hp b r hr
          cases fuel with
          | zero => simp [encode] at hr
          | succ fuel =>
            unfold keyEnc at hke
            unfold keyText
            by_cases hi : U.impl k .textMarshaler = true
            · rw [if_pos hi] at hke ⊢
              cases hke
              simp only [encode, Option.some.injEq] at hr
              rw [← hr]; exact encMethod_agrees hU.appends _ _ _ _ _
            · rw [if_neg hi] at hke ⊢
              by_cases hbk : U.base k = .string
              · rw [if_pos hbk] at hke
                cases hke
                obtain ⟨s, hs'⟩ := (hks p hp).inv_str hbk
                rw [hs'] at hr ⊢
                simp only [encode, Option.some.injEq] at hr
                rw [← hr, (Props.C04_append_escaped _ _ _).1]; simp [Agrees]
              · rw [if_neg hbk] at hke; cases hke
        obtain ⟨w, h1, h2⟩ := andThen_close hr (fun q hq => encEntries_specM es true (b ++ [123]) q hkey
          (fun p hp b r hr => ih o objs f hn hs e' Hint.none el p.2 false b r he' (hpx p hp) hr) hq)
        refine ⟨_, .map hv hb h1, ?_⟩
        have := agrees_prefix h2
        simpa [sepC] using this
    | struct r0 =>
      obtain ⟨j, hb, hx⟩ := he
      obtain ⟨rfl, fs, cs, hobj, hc, hall⟩ := storeM_struct hs hb hx
      obtain ⟨vs, rfl, hl, hpx⟩ := hp.inv_struct hb
      simp only [encode, hobj] at hr
      obtain ⟨w, h1, h2⟩ := encFields_specM (fun e h t v a b r he hp hr => ih o objs true hn hs e h t v a b r he hp hr)
        (fun hf hp hr => (omitM_spec hU.ok hU.embeds hU.ifaces hn hs fuel).1 hf hp hr) hp hall (cands_path0 hU.embeds hb hc) false b r hr
      refine ⟨_, .struct hv hb hc h1, ?_⟩
      simpa [sepC] using h2
    | iface =>
      obtain ⟨i, hb⟩ := he
      rcases hp.inv_iface hb with rfl | ⟨t', x, rfl, hpx⟩
      · simp only [encode, Option.some.injEq] at hr
        exact ⟨_, .nilIface hv hb, hr.symm⟩
      · simp only [encode] at hr
        cases hq : newTypeEncoder U {} fuel t' with
        | diverge => rw [hq] at hr; cases hr
        | err e =>
          rw [hq] at hr
          obtain ⟨w, h1, h2⟩ := arg_errM hU (v := x) hq b []
          exact ⟨w, .iface hv hb h1, by rw [← Option.some.inj hr]; exact h2⟩
        | ok m =>
          rw [hq] at hr
          obtain ⟨w, h1, h2⟩ := arg_specM hU ih hpx hq (b := b) (r := r) hr
          exact ⟨w, .iface hv hb h1, h2⟩

end Verif.Unjson
