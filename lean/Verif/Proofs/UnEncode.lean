import Verif.Proofs.UnBuild
import Verif.Spec.Unjson
import Verif.Proofs.Serial
import Verif.Proofs.StrJson
import Verif.Props.StrJson
import Verif.Props.NumJson

/-! # Encoding follows the specification -/

namespace Verif.Unjson
open Verif Verif.Float Verif.Spec Verif.Njson

/-- The type at a path. -/
inductive PathTy (U : Univ) : Ty → List Int → Ty → Prop
  | nil {t} : PathTy U t [] t
  | field {t j} {i : Nat} {f is t'} : U.base t = .struct j → (U.fields j)[i]? = some f → f.exported = true → PathTy U f.typ is t' →
      PathTy U t ((i : Int) :: is) t'
  | deref {t e is t'} : U.base t = .ptr e → PathTy U e is t' → PathTy U t (-1 :: is) t'

theorem PathTy.snoc_field {U : Univ} {t : Ty} {is : List Int} {t' : Ty} (h : PathTy U t is t') {j i : Nat} {f : Field}
    (hb : U.base t' = .struct j) (hf : (U.fields j)[i]? = some f) (he : f.exported = true) : PathTy U t (is ++ [(i : Int)]) f.typ := by
  induction h with
  | nil => exact .field hb hf he .nil
  | field h1 h2 h3 _ ih => exact .field h1 h2 h3 (ih hb)
  | deref h1 _ ih => exact .deref h1 (ih hb)

theorem PathTy.snoc_deref {U : Univ} {t : Ty} {is : List Int} {t' e : Ty} (h : PathTy U t is t')
    (hb : U.base t' = .ptr e) : PathTy U t (is ++ [-1]) e := by
  induction h with
  | nil => exact .deref hb .nil
  | field h1 h2 h3 _ ih => exact .field h1 h2 h3 (ih hb)
  | deref h1 _ ih => exact .deref h1 (ih hb)

theorem cands_path {U : Univ} {o : Options} (hU : U.EmbedsStructs) {t : Ty} {fs : List Field} {i : Nat} {idx : List Int} {cs : List Cand}
    (h : Cands U o fs i idx cs) : ∀ {t' j}, U.base t' = .struct j → PathTy U t idx t' → (U.fields j).drop i = fs →
    ∀ c ∈ cs, PathTy U t c.index c.typ := by
  have dr : ∀ {j i f} {fs : List Field}, (U.fields j).drop i = f :: fs → (U.fields j)[i]? = some f ∧ (U.fields j).drop (i + 1) = fs := by
    intro j i f fs h
    constructor
    · have := congrArg List.head? h
      simpa [List.head?_drop] using this
    · have := congrArg List.tail h
      simpa using this
  induction h with
  | nil => intro t' j _ _ _ c hc; exact absurd hc (by simp)
  | skip _ _ ih => intro t' j hb hp hd; exact ih hb hp (dr hd).2
  | @embed f fs i idx cs ds idx' j' he hn hq _ _ ih1 ih2 =>
    intro t' j hb hp hd c hc
    have hf := (dr hd).1
    rcases List.mem_append.1 hc with hc | hc
    · unfold embedding at hq
      split at hq
      · split at hq
        · rename_i e hbe
          split at hq
          · rename_i j2 hbs
            cases hq
            exact ih1 hbs ((hp.snoc_field hb hf he).snoc_deref hbe) rfl c hc
          · cases hq
        · rename_i hbs
          cases hq
          exact ih1 hbs (hp.snoc_field hb hf he) rfl c hc
        · cases hq
      · cases hq
    · exact ih2 hb hp (dr hd).2 c hc
  | @field f fs i idx cs idx' he hn hq _ ih =>
    intro t' j hb hp hd c hc
    have hf := (dr hd).1
    rcases List.mem_cons.1 hc with rfl | hc
    · unfold embedding at hq
      split at hq
      · rename_i ha
        split at hq
        · rename_i e hbe
          obtain ⟨i', hi'⟩ := hU j f e (List.mem_of_getElem? hf) (by simp at ha; exact ha.2) hbe
          rw [hi'] at hq
          cases hq
        · cases hq
        · cases hq
          exact hp.snoc_field hb hf he
      · cases hq
        exact hp.snoc_field hb hf he
    · exact ih hb hp (dr hd).2 c hc

theorem resolve_mem {c : Cand} {cs : List Cand} : ∀ {ks : List Cand}, c ∈ resolve ks cs → c ∈ ks ∨ c ∈ cs := by
  induction cs with
  | nil => intro ks h; exact .inl h
  | cons k cs ih =>
    intro ks h
    rw [resolve_cons] at h
    rcases ih h with h | h
    · unfold addCand at h
      have : c ∈ ks ∨ c = k := by
        split at h
        · split at h
          · exact .inl h
          · simpa using h
        · simpa using h
      rcases this with h | h
      · exact .inl h
      · exact .inr (by simp [h])
    · exact .inr (by simp [h])

/-! ## Inversion of `Plain` -/

theorem Plain.noMarshal {U : Univ} {t : Ty} {v : GV} (h : Plain U t v) : NoMarshal U t := by cases h <;> assumption


section
variable {U : Univ} {t : Ty} {v : GV}

theorem Plain.inv_bool (h : Plain U t v) (hb : U.base t = .bool) : ∃ b, v = .bool b := by
  cases h <;> simp_all
theorem Plain.inv_int {k : IKind} (h : Plain U t v) (hb : U.base t = .int k) : ∃ i, v = .int i := by
  cases h <;> simp_all
theorem Plain.inv_uint {k : IKind} (h : Plain U t v) (hb : U.base t = .uint k) : ∃ n, v = .uint n := by
  cases h <;> simp_all
theorem Plain.inv_float {k : FKind} (h : Plain U t v) (hb : U.base t = .float k) : ∃ f, v = .float f := by
  cases h <;> simp_all
theorem Plain.inv_str (h : Plain U t v) (hb : U.base t = .string) : ∃ s, v = .str s := by
  cases h <;> simp_all
theorem Plain.inv_ptr {e : Ty} (h : Plain U t v) (hb : U.base t = .ptr e) : v = .nilPtr ∨ ∃ x, v = .ptr x ∧ Plain U e x := by
  cases h <;> simp_all
theorem Plain.inv_slice {e : Ty} (h : Plain U t v) (hb : U.base t = .slice e) :
    v = .nilSlice ∨ ∃ arr len, v = .slice arr len ∧ ∀ x ∈ arr.take len, Plain U e x := by
  cases h with
  | nilSlice _ _ => exact .inl rfl
  | slice _ h1 h2 => rw [hb] at h1; cases h1; exact .inr ⟨_, _, rfl, h2⟩
  | _ => simp_all
theorem Plain.inv_array {n : Nat} {e : Ty} (h : Plain U t v) (hb : U.base t = .array n e) :
    ∃ xs, v = .array xs ∧ xs.length = n ∧ ∀ x ∈ xs, Plain U e x := by
  cases h <;> simp_all
theorem Plain.inv_map {k e : Ty} (h : Plain U t v) (hb : U.base t = .map k e) :
    v = .nilMap ∨ ∃ es, v = .map es ∧ U.base k = .string ∧ U.impl k .textMarshaler = false ∧
      (∀ p ∈ es, ∃ s, p.1 = .str s) ∧ ∀ p ∈ es, Plain U e p.2 := by
  cases h with
  | nilMap _ _ => exact .inl rfl
  | map _ h1 h2 h3 h4 h5 => rw [hb] at h1; cases h1; exact .inr ⟨_, rfl, h2, h3, h4, h5⟩
  | _ => simp_all
theorem Plain.inv_iface {i : Nat} (h : Plain U t v) (hb : U.base t = .iface 0 i) :
    v = .nilIface ∨ (∃ t' x, v = .iface t' x ∧ (∀ e, U.base t' ≠ .ptr e) ∧ NoMarshal U (.ptr t') ∧ Plain U t' x) ∨
    ∃ t' e x, v = .iface t' (.ptr x) ∧ U.base t' = .ptr e ∧ NoMarshal U t' ∧ Plain U e x := by
  cases h with
  | nilIface _ _ => exact .inl rfl
  | iface _ _ h1 h2 h3 => exact .inr (.inl ⟨_, _, rfl, h1, h2, h3⟩)
  | ifacePtr _ _ h1 h2 h3 => exact .inr (.inr ⟨_, _, _, rfl, h1, h2, h3⟩)
  | _ => simp_all
theorem Plain.inv_struct {j : Nat} (h : Plain U t v) (hb : U.base t = .struct j) :
    ∃ fs, v = .struct fs ∧ fs.length = (U.fields j).length ∧
      ∀ (i : Nat) f x, (U.fields j)[i]? = some f → fs[i]? = some x → f.exported = true → Plain U f.typ x := by
  cases h with
  | struct _ h1 h2 h3 => rw [hb] at h1; cases h1; exact ⟨_, rfl, h2, h3⟩
  | _ => simp_all
end

theorem fieldByIndex_sub {U : Univ} {t : Ty} {idx : List Int} {t' : Ty} (hp : PathTy U t idx t') :
    ∀ {v : GV} {a : Bool}, Plain U t v →
    (fieldByIndex U idx ⟨t, v, a⟩ = some none ∧ sub v idx = none) ∨
    ∃ x a', fieldByIndex U idx ⟨t, v, a⟩ = some (some ⟨t', x, a'⟩) ∧ sub v idx = some x ∧ Plain U t' x := by
  induction hp with
  | nil => intro v a h; right; exact ⟨v, a, rfl, by unfold sub; rfl, h⟩
  | @field t j i f is t' hb hf he _ ih =>
    intro v a h
    obtain ⟨fs, rfl, h1, h2⟩ := h.inv_struct hb
    have hi : i < fs.length := by rw [h1]; exact (List.getElem?_eq_some_iff.1 hf).1
    obtain ⟨x, hx⟩ : ∃ x, fs[i]? = some x := ⟨fs[i], List.getElem?_eq_getElem hi⟩
    have hne : ¬ ((i : Int) = -1) := by omega
    have e1 : fieldByIndex U ((i : Int) :: is) ⟨t, .struct fs, a⟩ = fieldByIndex U is ⟨f.typ, x, a⟩ := by
      rw [fieldByIndex, if_neg hne]
      unfold RV.field
      simp [hb, hf, hx]
    have e2 : sub (.struct fs) ((i : Int) :: is) = sub x is := by
      rw [sub, if_neg hne]; simp [hx]
    rw [e1, e2]
    exact ih (h2 i f x hf hx he)
  | @deref t e is t' hb _ ih =>
    intro v a h
    rcases h.inv_ptr hb with rfl | ⟨x, rfl, hx⟩
    · left
      constructor
      · rw [fieldByIndex, if_pos rfl]; simp [hb]
      · simp [sub]
    · have e1 : fieldByIndex U (-1 :: is) ⟨t, .ptr x, a⟩ = fieldByIndex U is ⟨e, x, true⟩ := by
        rw [fieldByIndex, if_pos rfl]; simp [hb]
      have e2 : sub (.ptr x) (-1 :: is) = sub x is := by rw [sub, if_pos rfl]
      rw [e1, e2]
      exact ih hx

/-! ## Omission -/

theorem noCustom {U : Univ} (hU : U.NoOmitMethod) (t : Ty) (name : Bytes) : newCustomOmiter U t name = none := by
  have hU' : ∀ name t, U.omitMethod name t = none := hU
  unfold newCustomOmiter
  simp only [hU', Option.isSome_none, Bool.false_eq_true, if_false]
  split <;> rfl

theorem andThen_done {α β : Type} (a : α) (fail : α → β) (f : α → Option (Out β)) : andThen (some (.done a none)) fail f = f a := rfl

/-- `omitAll` on elements each of which is empty or not. -/
theorem omitAll_empty {rec : RV → Option (Out Bool)} : ∀ (xs : List GV) (t : Ty) (a : Bool),
    (∀ x ∈ xs, ∀ r, rec ⟨t, x, a⟩ = some r → r = .done x.empty none) → ∀ r, omitAll rec (xs.map fun x => ⟨t, x, a⟩) = some r →
    r = .done (allEmpty xs) none
  | [], _, _, _, r, h => by simp [omitAll] at h; subst h; unfold allEmpty; rfl
  | x :: xs, t, a, hx, r, h => by
    simp only [List.map_cons, omitAll] at h
    cases hr : rec ⟨t, x, a⟩ with
    | none => rw [hr] at h; exact absurd h (by simp [andThen])
    | some q =>
      have := hx x (by simp) q hr
      subst this
      rw [hr, andThen_done] at h
      unfold allEmpty
      cases he : x.empty with
      | true =>
        rw [he, if_pos rfl] at h
        simpa using omitAll_empty xs t a (fun y hy => hx y (by simp [hy])) r h
      | false => rw [he] at h; simp at h; subst h; rfl

/-- The omiter of a type that is no struct tests for the empty value. -/
theorem omitRun_type {U : Univ} (hU : U.NoOmitMethod) {name : Bytes} {objs : List Obj} : ∀ {fuel : Nat} {t : Ty} {om : Omiter},
    OmFor U name t om → ∀ {v : GV} {a : Bool} {r}, Plain U t v → omitRun U objs fuel om ⟨t, v, a⟩ = some r → r = .done v.empty none := by
  intro fuel
  induction fuel with
  | zero => intro t om _ v a r _ h; simp [omitRun] at h
  | succ fuel ih =>
    intro t om ho v a r hp h
    cases ho with
    | custom hc => rw [noCustom hU] at hc; cases hc
    | ptr _ hb => rcases hp.inv_ptr hb with rfl | ⟨x, rfl, _⟩ <;> simp [omitRun] at h <;> subst h <;> simp [GV.empty]
    | struct _ hb => obtain ⟨fs, rfl, _⟩ := hp.inv_struct hb; simp [omitRun] at h; subst h; simp [GV.empty]
    | slice _ hb => rcases hp.inv_slice hb with rfl | ⟨arr, len, rfl, _⟩ <;> simp [omitRun] at h <;> subst h <;> simp [GV.empty]
    | map _ hb => rcases hp.inv_map hb with rfl | ⟨es, rfl, _⟩ <;> simp [omitRun] at h <;> subst h <;> simp [GV.empty]
    | string _ hb => obtain ⟨s, rfl⟩ := hp.inv_str hb; simp [omitRun] at h; subst h; simp [GV.empty]
    | any _ hb =>
      rcases hp.inv_iface hb with rfl | ⟨t', x, rfl, _⟩ | ⟨t', e, x, rfl, _⟩ <;> simp [omitRun] at h <;> subst h <;> simp [GV.empty]
    | iface _ hb hm => cases hp <;> simp_all
    | int _ hb => obtain ⟨s, rfl⟩ := hp.inv_int hb; simp [omitRun] at h; subst h; simp [GV.empty]
    | uint _ hb => obtain ⟨s, rfl⟩ := hp.inv_uint hb; simp [omitRun] at h; subst h; simp [GV.empty]
    | float _ hb =>
      obtain ⟨f, rfl⟩ := hp.inv_float hb
      rcases f with _ | ⟨neg, _ | ⟨m, e⟩⟩ <;> simp [omitRun] at h <;> subst h <;> simp [GV.empty]
    | bool _ hb => obtain ⟨s, rfl⟩ := hp.inv_bool hb; simp [omitRun] at h; subst h; simp [GV.empty]
    | other _ hb => cases hp <;> simp_all
    | named _ hb => cases hp <;> simp_all
    | @array t n e om _ hb ho' =>
      obtain ⟨xs, rfl, hl, hx⟩ := hp.inv_array hb
      simp only [omitRun] at h
      rw [if_pos (by omega), List.take_of_length_le (by omega)] at h
      have he : U.elem t = e := by unfold Univ.elem; rw [hb]
      rw [he] at h
      have := omitAll_empty xs e a (fun x hm r hr => ih ho' (hx x hm) hr) r h
      rw [this]; simp [GV.empty]


theorem sh_some {objs : List Obj} {r : Nat} {s : Obj} (h : sh objs r = some s) : ∃ x, objs[r]? = some x ∧ x.shape = s := by
  unfold sh at h
  cases hx : objs[r]? with
  | none => rw [hx] at h; exact absurd h (by simp)
  | some x => rw [hx] at h; exact ⟨x, rfl, by simpa using h⟩

/-- What is known about a struct codec. -/
theorem store_struct {U : Univ} {o : Options} {objs : List Obj} (hs : StoreOk U o objs) {r : Nat} {t : Ty} {j : Nat}
    (hb : U.base t = .struct j) (h : sh objs r = some (.struct t [])) :
    ∃ fs cs, objs[r]? = some (.struct t fs) ∧ Cands U o (U.fields j) 0 [] cs ∧ All2 (FieldOk U o objs) fs (resolve [] cs) := by
  obtain ⟨fs, hx⟩ := sh_struct h
  obtain ⟨j', cs, h1, h2, h3⟩ := hs r _ hx
  rw [hb] at h1; cases h1
  exact ⟨fs, cs, hx, h2, h3⟩

theorem cands_path0 {U : Univ} {o : Options} (hU : U.EmbedsStructs) {t : Ty} {j : Nat} {cs : List Cand} (hb : U.base t = .struct j)
    (h : Cands U o (U.fields j) 0 [] cs) : ∀ c ∈ resolve [] cs, PathTy U t c.index c.typ := by
  intro c hc
  rcases resolve_mem hc with hc | hc
  · exact absurd hc (by simp)
  · exact cands_path hU h hb .nil rfl c hc

theorem EncIs.of_struct {U : Univ} {o : Options} {objs : List Obj} {e : Enc} {t : Ty} {h : Hint} {j : Nat} (he : EncIs U o objs e t h)
    (hb : U.base t = .struct j) (hn : NoMarshal U t) : ∃ r, e = .struct r := by
  obtain ⟨n1, n2, n3⟩ := hn
  cases e <;> simp [EncIs, hb, n1, n2, n3] at he
  exact ⟨_, rfl⟩

/-- Omission of fields and structs. -/
theorem omit_spec {U : Univ} {o : Options} (hE : U.EmbedsStructs) (hO : U.NoOmitMethod) {objs : List Obj} (hs : StoreOk U o objs) :
    ∀ (fuel : Nat),
    (∀ {c k v a r}, FieldOk U o objs c k → Plain U k.typ v → omitRun U objs fuel c.om ⟨k.typ, v, a⟩ = some r →
      ∃ b, r = .done b none ∧ Omits U o k v b) ∧
    (∀ {fs ks t v a r}, All2 (FieldOk U o objs) fs ks → (∀ k ∈ ks, PathTy U t k.index k.typ) → Plain U t v →
      omitFields U (omitRun U objs fuel) ⟨t, v, a⟩ fs = some r → ∃ b, r = .done b none ∧ OmitsAll U o ks v b) := by
  intro fuel
  induction fuel with
  | zero =>
    refine ⟨fun _ _ h => by simp [omitRun] at h, ?_⟩
    intro fs ks t v a r hall hpath hp h
    induction hall generalizing r with
    | nil => simp [omitFields] at h; subst h; exact ⟨true, rfl, .nil⟩
    | @cons c k fs ks hf _ ih =>
      simp only [omitFields] at h
      have hpk := hpath k (by simp)
      rw [hf.index] at h
      rcases fieldByIndex_sub hpk (a := a) hp with ⟨e1, e2⟩ | ⟨x, a', e1, e2, e3⟩
      · rw [e1] at h
        obtain ⟨b, h1, h2⟩ := ih (fun k' hk' => hpath k' (by simp [hk'])) h
        exact ⟨b, h1, .absent e2 h2⟩
      · rw [e1] at h
        simp [omitRun, andThen] at h
  | succ fuel ih =>
    have field : ∀ {c k v a r}, FieldOk U o objs c k → Plain U k.typ v → omitRun U objs (fuel + 1) c.om ⟨k.typ, v, a⟩ = some r →
      ∃ b, r = .done b none ∧ Omits U o k v b := by
      intro c k v a r hf hp h
      have hom := hf.om
      unfold OmIs at hom
      by_cases ho : k.hint.omitempty = true
      · rw [if_pos ho] at hom
        by_cases hst : ∃ r, c.enc = .struct r
        · obtain ⟨r0, hr0⟩ := hst
          have henc := hf.enc
          rw [hr0] at hom henc
          simp only [noCustom hO, Option.getD_none] at hom
          obtain ⟨j, hb, hsh⟩ := henc
          obtain ⟨fs, cs, hx, hc, ha⟩ := store_struct hs hb hsh
          rw [hom] at h
          simp only [omitRun, hx] at h
          obtain ⟨b, h1, h2⟩ := ih.2 ha (cands_path0 hE hb hc) hp h
          exact ⟨b, h1, .struct ho hb hc h2⟩
        · have hom' : OmFor U o.omitMethod k.typ c.om := by
            cases hce : c.enc <;> rw [hce] at hom <;> first | exact hom | exact absurd ⟨_, hce⟩ hst
          refine ⟨v.empty, omitRun_type hO hom' hp h, .value ho ?_⟩
          intro j hb
          -- the encoder of a struct type is a struct codec
          exact hst (hf.enc.of_struct hb hp.noMarshal)
      · rw [if_neg ho] at hom
        rw [hom] at h
        simp only [omitRun, Option.some.injEq] at h
        exact ⟨false, h.symm, .keep (by simpa using ho)⟩
    refine ⟨field, ?_⟩
    intro fs ks t v a r hall hpath hp h
    induction hall generalizing r with
    | nil => simp [omitFields] at h; subst h; exact ⟨true, rfl, .nil⟩
    | @cons c k fs ks hf _ ih' =>
      simp only [omitFields] at h
      have hpk := hpath k (by simp)
      rw [hf.index] at h
      rcases fieldByIndex_sub hpk (a := a) hp with ⟨e1, e2⟩ | ⟨x, a', e1, e2, e3⟩
      · rw [e1] at h
        obtain ⟨b, h1, h2⟩ := ih' (fun k' hk' => hpath k' (by simp [hk'])) h
        exact ⟨b, h1, .absent e2 h2⟩
      · rw [e1] at h
        cases hr : omitRun U objs (fuel + 1) c.om ⟨k.typ, x, a'⟩ with
        | none => simp only [hr] at h; exact absurd h (by simp [andThen])
        | some q =>
          obtain ⟨b, rfl, hb⟩ := field hf e3 hr
          simp only [hr, andThen_done] at h
          cases b with
          | false => simp at h; subst h; exact ⟨false, rfl, .no e2 hb⟩
          | true =>
            rw [if_pos rfl] at h
            obtain ⟨b', h1, h2⟩ := ih' (fun k' hk' => hpath k' (by simp [hk'])) h
            exact ⟨b', h1, .yes e2 hb h2⟩


/-! ## Encoding -/

/-- The encoder appended the text of a tree with `P`, or returned an error. -/
def EncRes (r : Out Bytes) (b : Bytes) (P : JVal → Prop) : Prop :=
  (∃ j, r = .done (b ++ j.ser) none ∧ P j) ∨ ∃ b' e, r = .done b' (some e)

theorem ser_str (raw : Bytes) : (JVal.str raw).ser = [34] ++ raw ++ [34] := by rw [JVal.ser]
theorem ser_num (raw : Bytes) : (JVal.num raw).ser = raw := by rw [JVal.ser]
theorem ser_arr (xs : List JVal) : (JVal.arr xs).ser = [91] ++ serElems xs ++ [93] := by rw [JVal.ser]
theorem ser_obj (xs : List (Bytes × JVal)) : (JVal.obj xs).ser = [123] ++ serMembers xs ++ [125] := by rw [JVal.ser]
theorem ser_null : JVal.null.ser = strNull := by rw [JVal.ser]; rfl

theorem sepElems_true (xs : List JVal) : sepElems true xs = serElems xs := by simp [sepElems]
theorem sepElems_nil (b : Bool) : sepElems b [] = [] := by cases b <;> simp [sepElems, serElems]
theorem sepMembers_true (xs : List (Bytes × JVal)) : sepMembers true xs = serMembers xs := by simp [sepMembers]
theorem sepMembers_nil (b : Bool) : sepMembers b [] = [] := by cases b <;> simp [sepMembers, serMembers]

/-- Sequencing with an encoder that never panics. -/
theorem andThen_cases {β : Type} {x : Option (Out Bytes)} {fail : Bytes → β} {f : Bytes → Option (Out β)} {r : Out β}
    (h : andThen x fail f = some r) (hx : x ≠ some .panic) :
    (∃ b, x = some (.done b none) ∧ f b = some r) ∨ ∃ b e, x = some (.done b (some e)) ∧ r = .done (fail b) (some e) := by
  unfold andThen at h
  cases x with
  | none => cases h
  | some o =>
    cases o with
    | panic => exact absurd rfl hx
    | done b er =>
      cases er with
      | none => exact .inl ⟨b, rfl, h⟩
      | some e => exact .inr ⟨b, e, rfl, by simpa using h.symm⟩

theorem EncRes.ne_panic {r : Out Bytes} {b : Bytes} {P : JVal → Prop} (h : EncRes r b P) : r ≠ .panic := by
  rcases h with ⟨_, rfl, _⟩ | ⟨_, _, rfl⟩ <;> simp

theorem andThen_res {β : Type} {x : Option (Out Bytes)} {fail : Bytes → β} {f : Bytes → Option (Out β)} {r : Out β} {b : Bytes}
    {P : JVal → Prop} (h : andThen x fail f = some r) (hx : ∀ q, x = some q → EncRes q b P) :
    (∃ j, P j ∧ f (b ++ j.ser) = some r) ∨ ∃ b e, r = .done (fail b) (some e) := by
  rcases andThen_cases h (fun e => (hx _ e).ne_panic rfl) with ⟨b1, h1, h2⟩ | ⟨b1, e, _, h2⟩
  · rcases hx _ h1 with ⟨j, e1, e2⟩ | ⟨_, _, e1⟩
    · cases e1; exact .inl ⟨j, e2, h2⟩
    · cases e1
  · exact .inr ⟨b1, e, h2⟩

theorem encElems_spec {U : Univ} {o : Options} {h : Hint} {t : Ty} {a : Bool} {rec : Bytes → RV → Option (Out Bytes)} :
    ∀ (xs : List GV) (first : Bool) (b : Bytes) (r : Out Bytes),
    (∀ x ∈ xs, ∀ b r, rec b ⟨t, x, a⟩ = some r → EncRes r b (Encodes U o h t x)) →
    encElems rec (xs.map fun x => ⟨t, x, a⟩) first b = some r →
    (∃ js, r = .done (b ++ sepElems first js) none ∧ EncElems U o h t xs js) ∨ ∃ b' e, r = .done b' (some e)
  | [], first, b, r, _, hr => by
    simp [encElems] at hr; subst hr
    exact .inl ⟨[], by simp [sepElems_nil], .nil⟩
  | x :: xs, first, b, r, hx, hr => by
    simp only [List.map_cons, encElems] at hr
    rcases andThen_res hr (fun q hq => hx x (by simp) _ _ hq) with ⟨j, h1, h2⟩ | ⟨b1, e, h1⟩
    · rcases encElems_spec xs false _ r (fun y hy => hx y (by simp [hy])) h2 with ⟨js, e1, e2⟩ | he
      · left
        refine ⟨j :: js, ?_, .cons h1 e2⟩
        rw [e1, sepElems_cons]
        cases first <;> simp
      · exact .inr he
    · exact .inr ⟨_, e, h1⟩

theorem encEntries_spec {U : Univ} {o : Options} {t kt : Ty} {key val : Bytes → RV → Option (Out Bytes)} :
    ∀ (es : List (GV × GV)) (first : Bool) (b : Bytes) (r : Out Bytes),
    (∀ p ∈ es, ∃ s, p.1 = .str s ∧ ∀ b r, key b ⟨kt, p.1, false⟩ = some r → r = .done (b ++ [34] ++ StrJson.escaped s false false ++ [34]) none) →
    (∀ p ∈ es, ∀ b r, val b ⟨t, p.2, false⟩ = some r → EncRes r b (Encodes U o Hint.none t p.2)) →
    encEntries key val (es.map fun p => (⟨kt, p.1, false⟩, ⟨t, p.2, false⟩)) first b = some r →
    (∃ ms, r = .done (b ++ sepMembers first ms) none ∧ EncEntries U o t es ms) ∨ ∃ b' e, r = .done b' (some e)
  | [], first, b, r, _, _, hr => by
    simp [encEntries] at hr; subst hr
    exact .inl ⟨[], by simp [sepMembers_nil], .nil⟩
  | (k, x) :: es, first, b, r, hk, hx, hr => by
    simp only [List.map_cons, encEntries] at hr
    obtain ⟨s, hs, hks⟩ := hk (k, x) (by simp)
    cases hq : key (if first = true then b else b ++ [44]) ⟨kt, k, false⟩ with
    | none => rw [hq] at hr; simp [andThen] at hr
    | some q =>
      have := hks _ _ hq
      subst this
      rw [hq, andThen_done] at hr
      rcases andThen_res hr (fun q hq => hx (k, x) (by simp) _ _ hq) with ⟨j, h1, h2⟩ | ⟨b1, e, h1⟩
      · rcases encEntries_spec es false _ r (fun y hy => hk y (by simp [hy])) (fun y hy => hx y (by simp [hy])) h2 with ⟨js, e1, e2⟩ | he
        · left
          simp only at hs
          subst hs
          refine ⟨(_, j) :: js, ?_, .cons h1 e2⟩
          rw [e1, sepMembers_cons]
          cases first <;> simp
        · exact .inr he
      · exact .inr ⟨_, e, h1⟩

theorem encFields_spec {U : Univ} {o : Options} {objs : List Obj} {rec : Enc → Bytes → RV → Option (Out Bytes)}
    {om : Omiter → RV → Option (Out Bool)}
    (hrec : ∀ e h t v a b r, EncIs U o objs e t h → Plain U t v → rec e b ⟨t, v, a⟩ = some r → EncRes r b (Encodes U o h t v))
    (hom : ∀ {c k v a r}, FieldOk U o objs c k → Plain U k.typ v → om c.om ⟨k.typ, v, a⟩ = some r → ∃ b, r = .done b none ∧ Omits U o k v b)
    {t : Ty} {v : GV} {a : Bool} (hp : Plain U t v) {fs : List Codec} {ks : List Cand} (hall : All2 (FieldOk U o objs) fs ks) :
    (∀ k ∈ ks, PathTy U t k.index k.typ) → ∀ (more : Bool) (b : Bytes) (r : Out Bytes),
    encFields U rec om ⟨t, v, a⟩ fs more b = some r →
    (∃ ms, r = .done (b ++ (if more then sepMembers false ms else [123] ++ serMembers ms) ++ [125]) none ∧ EncFields U o v ks ms) ∨
    ∃ b' e, r = .done b' (some e) := by
  induction hall with
  | nil =>
    intro _ more b r h
    simp only [encFields, Option.some.injEq] at h
    subst h
    refine .inl ⟨[], ?_, .nil⟩
    cases more <;> simp [sepMembers_nil, serMembers]
  | @cons c k fs ks hf _ ih =>
    intro hpath more b r h
    simp only [encFields] at h
    have hpk := hpath k (by simp)
    rw [hf.index] at h
    rcases fieldByIndex_sub hpk (a := a) hp with ⟨e1, e2⟩ | ⟨x, a', e1, e2, e3⟩
    · rw [e1] at h
      rcases ih (fun k' hk' => hpath k' (by simp [hk'])) _ _ _ h with ⟨ms, h1, h2⟩ | he
      · exact .inl ⟨ms, h1, .absent e2 h2⟩
      · exact .inr he
    · rw [e1] at h
      cases hq : om c.om ⟨k.typ, x, a'⟩ with
      | none => simp only [hq] at h; exact absurd h (by simp [andThen])
      | some q =>
        obtain ⟨skip, rfl, hsk⟩ := hom hf e3 hq
        simp only [hq, andThen_done] at h
        cases skip with
        | true =>
          rw [if_pos rfl] at h
          rcases ih (fun k' hk' => hpath k' (by simp [hk'])) _ _ _ h with ⟨ms, h1, h2⟩ | he
          · exact .inl ⟨ms, h1, .omitted e2 hsk h2⟩
          · exact .inr he
        | false =>
          simp only [Bool.false_eq_true, if_false] at h
          rcases andThen_res h (fun q hq => hrec _ k.hint _ _ _ _ _ hf.enc e3 hq) with ⟨j, h1, h2⟩ | ⟨b1, e, h1⟩
          · rcases ih (fun k' hk' => hpath k' (by simp [hk'])) _ _ _ h2 with ⟨ms, h3, h4⟩ | he
            · refine .inl ⟨(k.key, j) :: ms, ?_, .present e2 hsk h1 h4⟩
              rw [h3, hf.key]
              cases more
              · have := sepMembers_cons true k.key j ms
                rw [sepMembers_true] at this
                simp [this]
              · simp [sepMembers_cons]
            · exact .inr he
          · exact .inr ⟨_, e, h1⟩

/-- strconv's 'e' format has at least four bytes -/
def Univ.FloatText (U : Univ) : Prop := ∀ neg m e, 4 ≤ (U.fmtFloat (.num neg (.fin m e)) 32 101).length

theorem Univ.GoFloats.floatText {U : Univ} (h : U.GoFloats) : U.FloatText := by
  intro neg m e
  by_cases hi : NumJson.toF32 (.fin m e) = .inf
  · rw [h.over neg m e 101 hi]; cases neg <;> decide
  · obtain ⟨x, sg, ds, hx, _, he, hd, ht⟩ := h.exp neg m e hi
    rw [ht, Props.text_split x he]; simp; omega

theorem appendFloat_append {U : Univ} (hF : U.FloatText) (b : Bytes) (neg : Bool) (m : Nat) (e : Int) :
    NumJson.appendFloat b (.num neg (.fin m e)) 32 (U.fmtFloat (.num neg (.fin m e)) 32) = b ++ floatText U (.num neg (.fin m e)) := by
  unfold floatText NumJson.appendFloat
  by_cases h : NumJson.fmtByte (.num neg (.fin m e)) 32 = 101
  · simp only [h, if_true]
    rw [Props.fixExp_append _ _ (hF neg m e), List.nil_append]
  · simp only [if_neg h, List.nil_append]

theorem store_ptr {U : Univ} {o : Options} {objs : List Obj} (hs : StoreOk U o objs) {r : Nat} {t el : Ty} {h : Hint}
    (hb : U.base t = .ptr el) (hx : sh objs r = some (.ptrE t h none)) :
    ∃ e, objs[r]? = some (.ptrE t h (some e)) ∧ EncIs U o objs e el h := by
  obtain ⟨x, h1, h2⟩ := sh_some hx
  cases x <;> simp [Obj.shape] at h2
  obtain ⟨rfl, rfl⟩ := h2
  obtain ⟨el', e', q1, rfl, q3⟩ := hs r _ h1
  rw [hb] at q1; cases q1
  exact ⟨e', h1, q3⟩

theorem store_slice {U : Univ} {o : Options} {objs : List Obj} (hs : StoreOk U o objs) {r : Nat} {t el : Ty} {h : Hint}
    (hb : U.base t = .slice el) (hx : sh objs r = some (.sliceE t h none)) :
    ∃ e, objs[r]? = some (.sliceE t h (some e)) ∧ EncIs U o objs e el h := by
  obtain ⟨x, h1, h2⟩ := sh_some hx
  cases x <;> simp [Obj.shape] at h2
  obtain ⟨rfl, rfl⟩ := h2
  obtain ⟨el', e', q1, rfl, q3⟩ := hs r _ h1
  rw [hb] at q1; cases q1
  exact ⟨e', h1, q3⟩

theorem store_array {U : Univ} {o : Options} {objs : List Obj} (hs : StoreOk U o objs) {r n : Nat} {t el : Ty} {h : Hint}
    (hb : U.base t = .array n el) (hx : sh objs r = some (.arrayE t h n none)) :
    ∃ e, objs[r]? = some (.arrayE t h n (some e)) ∧ EncIs U o objs e el h := by
  obtain ⟨x, h1, h2⟩ := sh_some hx
  cases x <;> simp [Obj.shape] at h2
  obtain ⟨rfl, rfl, rfl⟩ := h2
  obtain ⟨el', e', q1, rfl, q3⟩ := hs r _ h1
  rw [hb] at q1; cases q1
  exact ⟨e', h1, q3⟩

theorem store_map {U : Univ} {o : Options} {objs : List Obj} (hs : StoreOk U o objs) {r : Nat} {t k el : Ty} {ke : Enc}
    (hb : U.base t = .map k el) (hx : sh objs r = some (.mapE t ke none)) :
    ∃ e, objs[r]? = some (.mapE t ke (some e)) ∧ EncIs U o objs e el Hint.none := by
  obtain ⟨x, h1, h2⟩ := sh_some hx
  cases x <;> simp [Obj.shape] at h2
  obtain ⟨rfl, rfl⟩ := h2
  obtain ⟨k', el', e', q1, q2, rfl, q3⟩ := hs r _ h1
  rw [hb] at q1; cases q1
  exact ⟨e', h1, q3⟩

theorem elem_of_base {U : Univ} {t e : Ty} (h : U.base t = .ptr e ∨ U.base t = .slice e ∨ (∃ n, U.base t = .array n e) ∨
    ∃ k, U.base t = .map k e) : U.elem t = e := by
  unfold Univ.elem
  rcases h with h | h | ⟨n, h⟩ | ⟨k, h⟩ <;> rw [h]

/-- What `newTypeEncoder` makes for a type without marshal methods. -/
theorem newTypeEncoder_ok {U : Univ} {o : Options} {fuel : Nat} {t e : Ty} {m : TypeEncoder}
    (ht : (∀ e, U.base t ≠ .ptr e) ∧ e = t ∧ NoMarshal U (.ptr t) ∨ U.base t = .ptr e ∧ NoMarshal U t)
    (h : newTypeEncoder U o fuel t = .ok m) : m.typ = e ∧ StoreOk U o.normalize m.objs ∧ EncIs U o.normalize m.objs m.enc e Hint.none := by
  have hnm : ∀ t, NoMarshal U t → encMeth U t = none := by
    intro t ⟨h1, h2, h3⟩; unfold encMeth; simp [h1, h2, h3]
  unfold newTypeEncoder at h
  rcases ht with ⟨hb, rfl, hn⟩ | ⟨hb, hn⟩
  · simp only [hnm _ hn] at h
    cases hq : newEncoder U o.normalize fuel e Hint.none Codecs.empty with
    | ok x =>
      obtain ⟨e', c⟩ := x
      rw [hq] at h; cases h
      exact ⟨rfl, newEncoder_store hq⟩
    | err _ => rw [hq] at h; cases h
    | diverge => rw [hq] at h; cases h
  · simp only [hb, hnm _ hn] at h
    cases hq : newEncoder U o.normalize fuel e Hint.none Codecs.empty with
    | ok x =>
      obtain ⟨e', c⟩ := x
      rw [hq] at h; cases h
      exact ⟨rfl, newEncoder_store hq⟩
    | err _ => rw [hq] at h; cases h
    | diverge => rw [hq] at h; cases h

theorem encode_spec {U : Univ} (hE : U.EmbedsStructs) (hO : U.NoOmitMethod) (hF : U.FloatText) : ∀ (fuel : Nat) (o : Options) (objs : List Obj),
    StoreOk U o objs → ∀ e h t v a b r, EncIs U o objs e t h → Plain U t v → encode U objs fuel e b ⟨t, v, a⟩ = some r →
    EncRes r b (Encodes U o h t v) := by
  intro fuel
  induction fuel with
  | zero => intro o objs _ e h t v a b r _ _ hr; simp [encode] at hr
  | succ fuel ih =>
    intro o objs hs e h t v a b r he hp hr
    have hnm := hp.noMarshal
    cases e with
    | njson => simp only [EncIs] at he; rw [hnm.1] at he; cases he
    | json => simp only [EncIs] at he; rw [hnm.2.1] at he; cases he
    | text => simp only [EncIs] at he; rw [hnm.2.2] at he; cases he
    | bool =>
      obtain ⟨x, rfl⟩ := hp.inv_bool he
      simp only [encode, Option.some.injEq] at hr
      refine .inl ⟨.bool x, ?_, .bool he⟩
      rw [← hr]; cases x <;> simp [JVal.ser, strTrue, strFalse]
    | int =>
      obtain ⟨k, hb⟩ := he
      obtain ⟨x, rfl⟩ := hp.inv_int hb
      simp only [encode, Option.some.injEq] at hr
      exact .inl ⟨.num (formatInt x), by rw [← hr, ser_num], .int hb⟩
    | uint =>
      obtain ⟨k, hb⟩ := he
      obtain ⟨x, rfl⟩ := hp.inv_uint hb
      simp only [encode, Option.some.injEq] at hr
      exact .inl ⟨.num (formatUint x), by rw [← hr, ser_num], .uint hb⟩
    | float bits inf nan =>
      obtain ⟨⟨k, hb⟩, rfl, rfl, rfl⟩ := he
      obtain ⟨f, rfl⟩ := hp.inv_float hb
      simp only [encode, Option.some.injEq] at hr
      rcases f with _ | ⟨neg, ⟨m, e⟩ | _⟩
      · simp only [encFloat] at hr
        by_cases ho : o.allowNaN = true
        · rw [if_pos ho] at hr
          exact .inl ⟨.num b!"NaN", by rw [← hr, ser_num], .nan hb ho⟩
        · rw [if_neg ho] at hr
          exact .inr ⟨_, _, hr.symm⟩
      · simp only [encFloat] at hr
        rw [appendFloat_append hF] at hr
        exact .inl ⟨.num _, by rw [← hr, ser_num], .float hb⟩
      · simp only [encFloat] at hr
        by_cases ho : o.allowInf = true
        · rw [if_pos ho] at hr
          exact .inl ⟨.num (if neg then b!"-Inf" else b!"+Inf"), by rw [← hr, ser_num], .inf hb ho⟩
        · rw [if_neg ho] at hr
          exact .inr ⟨_, _, hr.symm⟩
    | str html =>
      obtain ⟨hb, hh⟩ := he
      obtain ⟨s, rfl⟩ := hp.inv_str hb
      simp only [encode, Option.some.injEq] at hr
      refine .inl ⟨.str (strText h s), ?_, .str hb⟩
      have : strText h s = StrJson.escaped s html false := by
        obtain ⟨raw, ht, om⟩ := h
        unfold newStringEncoder at hh
        unfold strText
        cases ht <;> cases raw <;> simp at hh ⊢ <;> subst hh <;> rfl
      rw [← hr, this, ser_str, (Props.C04_append_escaped _ _ _).1]; simp
    | rawStr =>
      obtain ⟨hb, hh⟩ := he
      obtain ⟨s, rfl⟩ := hp.inv_str hb
      simp only [encode, Option.some.injEq] at hr
      refine .inl ⟨.str (strText h s), ?_, .str hb⟩
      have : strText h s = s := by
        obtain ⟨raw, ht, om⟩ := h
        unfold newStringEncoder at hh
        unfold strText
        cases ht <;> cases raw <;> simp at hh ⊢
      rw [← hr, this, ser_str]; simp
    | ptr r0 =>
      obtain ⟨el, hb, hx⟩ := he
      obtain ⟨e', hobj, he'⟩ := store_ptr hs hb hx
      rcases hp.inv_ptr hb with rfl | ⟨x, rfl, hpx⟩
      · simp only [encode, Option.some.injEq] at hr
        exact .inl ⟨.null, by rw [← hr, ser_null], .nilPtr hb⟩
      · simp only [encode, hobj] at hr
        rw [elem_of_base (.inl hb)] at hr
        rcases ih o objs hs e' h el x true b r he' hpx hr with ⟨j, h1, h2⟩ | he
        · exact .inl ⟨j, h1, .ptr hb h2⟩
        · exact .inr he
    | slice r0 =>
      obtain ⟨el, hb, hx⟩ := he
      obtain ⟨e', hobj, he'⟩ := store_slice hs hb hx
      rcases hp.inv_slice hb with rfl | ⟨arr, len, rfl, hpx⟩
      · simp only [encode, Option.some.injEq] at hr
        exact .inl ⟨.arr [], by rw [← hr, ser_arr]; simp [serElems], .nilSlice hb⟩
      · simp only [encode, hobj] at hr
        rw [elem_of_base (.inr (.inl hb))] at hr
        have hsp := fun q (hq : _ = some q) => encElems_spec (arr.take len) true (b ++ [91]) q
          (fun x hx b r hr => ih o objs hs e' h el x true b r he' (hpx x hx) hr) hq
        rcases andThen_cases hr (by intro hq; rcases hsp _ hq with ⟨_, h1, _⟩ | ⟨_, _, h1⟩ <;> cases h1) with ⟨b1, h1, h2⟩ | ⟨b1, e, h1, h2⟩
        · rcases hsp _ h1 with ⟨js, q1, q2⟩ | ⟨_, _, q1⟩
          · cases q1
            simp only [Option.some.injEq] at h2
            refine .inl ⟨.arr js, ?_, .slice hb q2⟩
            rw [← h2, ser_arr, sepElems_true]; simp
          · cases q1
        · exact .inr ⟨_, _, h2⟩
    | array r0 =>
      obtain ⟨n, el, hb, hx⟩ := he
      obtain ⟨e', hobj, he'⟩ := store_array hs hb hx
      obtain ⟨xs, rfl, hl, hpx⟩ := hp.inv_array hb
      simp only [encode, hobj] at hr
      rw [elem_of_base (.inr (.inr (.inl ⟨n, hb⟩))), if_pos (by omega), List.take_of_length_le (by omega)] at hr
      have hsp := fun q (hq : _ = some q) => encElems_spec xs true (b ++ [91]) q
        (fun x hx b r hr => ih o objs hs e' h el x a b r he' (hpx x hx) hr) hq
      rcases andThen_cases hr (by intro hq; rcases hsp _ hq with ⟨_, h1, _⟩ | ⟨_, _, h1⟩ <;> cases h1) with ⟨b1, h1, h2⟩ | ⟨b1, e, h1, h2⟩
      · rcases hsp _ h1 with ⟨js, q1, q2⟩ | ⟨_, _, q1⟩
        · cases q1
          simp only [Option.some.injEq] at h2
          refine .inl ⟨.arr js, ?_, .array hb q2⟩
          rw [← h2, ser_arr, sepElems_true]; simp
        · cases q1
      · exact .inr ⟨_, _, h2⟩
    | map r0 =>
      obtain ⟨k, el, ke, hb, hke, hx⟩ := he
      obtain ⟨e', hobj, he'⟩ := store_map hs hb hx
      rcases hp.inv_map hb with rfl | ⟨es, rfl, hbk, hik, hks, hpx⟩
      · simp only [encode, Option.some.injEq] at hr
        exact .inl ⟨.null, by rw [← hr, ser_null], .nilMap hb⟩
      · have hke' : ke = .str false := by
          unfold keyEnc at hke
          rw [if_neg (by simp [hik]), if_pos hbk] at hke
          cases hke; rfl
        subst hke'
        simp only [encode, hobj] at hr
        rw [elem_of_base (.inr (.inr (.inr ⟨k, hb⟩)))] at hr
        simp only [hb] at hr
        have hkey : ∀ p ∈ es, ∃ s, p.1 = GV.str s ∧ ∀ b r, encode U objs fuel (.str false) b ⟨k, p.1, false⟩ = some r →
            r = .done (b ++ [34] ++ StrJson.escaped s false false ++ [34]) none := by
          intro p hp
          obtain ⟨s, hs'⟩ := hks p hp
          refine ⟨s, hs', ?_⟩
          intro b r hr
          rw [hs'] at hr
          cases fuel with
          | zero => simp [encode] at hr
          | succ fuel =>
            simp only [encode, Option.some.injEq] at hr
            rw [← hr, (Props.C04_append_escaped _ _ _).1]
        have hsp := fun q (hq : _ = some q) => encEntries_spec (U := U) (o := o) (t := el) (kt := k) es true (b ++ [123]) q hkey
          (fun p hp b r hr => ih o objs hs e' Hint.none el p.2 false b r he' (hpx p hp) hr) hq
        rcases andThen_cases hr (by intro hq; rcases hsp _ hq with ⟨_, h1, _⟩ | ⟨_, _, h1⟩ <;> cases h1) with ⟨b1, h1, h2⟩ | ⟨b1, e, h1, h2⟩
        · rcases hsp _ h1 with ⟨js, q1, q2⟩ | ⟨_, _, q1⟩
          · cases q1
            simp only [Option.some.injEq] at h2
            refine .inl ⟨.obj js, ?_, .map hb q2⟩
            rw [← h2, ser_obj, sepMembers_true]; simp
          · cases q1
        · exact .inr ⟨_, _, h2⟩
    | struct r0 =>
      obtain ⟨j, hb, hx⟩ := he
      obtain ⟨fs, cs, hobj, hc, hall⟩ := store_struct hs hb hx
      obtain ⟨vs, rfl, hl, hpx⟩ := hp.inv_struct hb
      simp only [encode, hobj] at hr
      rcases encFields_spec (fun e h t v a b r he hp hr => ih o objs hs e h t v a b r he hp hr)
        (fun hf hp hr => (omit_spec hE hO hs fuel).1 hf hp hr) hp hall (cands_path0 hE hb hc) false b r hr with ⟨ms, h1, h2⟩ | he
      · refine .inl ⟨.obj ms, ?_, .struct hb hc h2⟩
        rw [h1, ser_obj]; simp
      · exact .inr he
    | iface =>
      obtain ⟨i, hb⟩ := he
      rcases hp.inv_iface hb with rfl | ⟨t', x, rfl, hnp, hn, hpx⟩ | ⟨t', e, x, rfl, hbp, hn, hpx⟩
      · simp only [encode, Option.some.injEq] at hr
        exact .inl ⟨.null, by rw [← hr, ser_null], .nilIface hb⟩
      · simp only [encode] at hr
        cases hq : newTypeEncoder U {} fuel t' with
        | diverge => rw [hq] at hr; cases hr
        | err e => rw [hq] at hr; exact .inr ⟨_, _, (Option.some.inj hr).symm⟩
        | ok m =>
          obtain ⟨m1, m2, m3⟩ := newTypeEncoder_ok (.inl ⟨hnp, rfl, hn⟩) hq
          rw [hq] at hr
          have hr' : encode U m.objs fuel m.enc b ⟨t', x, false⟩ = some r := by
            cases hbt : U.base t' <;> first | exact absurd hbt (hnp _) | (simp only [hbt] at hr; rw [if_pos m1.symm] at hr; exact hr)
          rcases ih _ m.objs m2 _ _ _ _ _ _ _ m3 hpx hr' with ⟨j, h1, h2⟩ | he
          · exact .inl ⟨j, h1, .iface hb hnp h2⟩
          · exact .inr he
      · simp only [encode] at hr
        cases hq : newTypeEncoder U {} fuel t' with
        | diverge => rw [hq] at hr; cases hr
        | err e => rw [hq] at hr; exact .inr ⟨_, _, (Option.some.inj hr).symm⟩
        | ok m =>
          obtain ⟨m1, m2, m3⟩ := newTypeEncoder_ok (.inr ⟨hbp, hn⟩) hq
          rw [hq] at hr
          simp only [hbp] at hr
          rw [if_pos m1.symm] at hr
          rcases ih _ m.objs m2 _ _ _ _ _ _ _ m3 hpx hr with ⟨j, h1, h2⟩ | he
          · exact .inl ⟨j, h1, .ifacePtr hb hbp h2⟩
          · exact .inr he

end Verif.Unjson
