import Verif.Proofs.UnReject

/-!
# What codec construction produces for types with methods

As in UnBuild.lean, but the codecs also tell which methods are used. Codecs are cached by type and hints, and the codec of a
struct type is found in the cache before the methods of the type are looked at: hence `via`. That the codecs of all struct
types the decoder of a field leads to are in the cache when the encoder of the field is made is part of the invariant (`closed`).
-/

namespace Verif.Unjson
open Verif Verif.Njson

/-- The method an encoder calls. -/
def encName : Enc → Option Meth
  | .njson => some .appender
  | .json => some .jsonMarshaler
  | .text => some .textMarshaler
  | _ => none

/-- The method a decoder calls. -/
def decName : Dec → Option Meth
  | .njson => some .unmarshaler
  | .json => some .jsonUnmarshaler
  | .text => some .textUnmarshaler
  | _ => none

theorem encMeth_name {U : Univ} {t : Ty} {e : Enc} (h : encMeth U t = some e) : marshalMeth U t = encName e := by
  unfold encMeth at h; unfold marshalMeth
  cases h1 : U.impl t .appender <;> cases h2 : U.impl t .jsonMarshaler <;> cases h3 : U.impl t .textMarshaler <;>
    simp [h1, h2, h3] at h ⊢ <;> subst h <;> rfl

theorem decMeth_name {U : Univ} {t : Ty} {d : Dec} (h : decMeth U t = some d) : unmarshalMeth U t = decName d := by
  unfold decMeth at h; unfold unmarshalMeth
  cases h1 : U.impl t .unmarshaler <;> cases h2 : U.impl t .jsonUnmarshaler <;> cases h3 : U.impl t .textUnmarshaler <;>
    simp [h1, h2, h3] at h ⊢ <;> subst h <;> rfl

theorem via_none {U : Univ} {f : Bool} {h : Hint} {t : Ty} (hm : marshalMeth U t = none) : via U f h t = none := by
  unfold via; split <;> simp [hm]
theorem via_false {U : Univ} {h : Hint} {t : Ty} : via U false h t = marshalMeth U t := by unfold via; simp
theorem via_struct {U : Univ} {t : Ty} (h : unmarshalMeth U t = none ∨ marshalMeth U t = none) (hs : structTy U t = true) :
    via U true Hint.none t = none := by
  rcases h with h | h
  · unfold via; simp [h, hs]
  · exact via_none h
theorem structTy_iff {U : Univ} {t : Ty} : structTy U t = true ↔ ∃ j, U.base t = .struct j := by
  unfold structTy; cases U.base t <;> simp

/-! ## Chains of types -/

/-- The type of the elements. -/
def elem (U : Univ) (t : Ty) : Option Ty :=
  match U.base t with
  | .ptr e => some e
  | .slice e => some e
  | .array _ e => some e
  | .map _ e => some e
  | _ => none

/-- Struct types whose decoder is always a struct codec -/
def Good (U : Univ) (t : Ty) : Prop := structTy U t = true ∧ unmarshalMeth U t = none

/-- The decoder of `t` leads to struct type `s`. -/
inductive DReach (U : Univ) : Ty → Ty → Prop
  | here {t} : Good U t → DReach U t t
  | step {t e s} : unmarshalMeth U t = none → elem U t = some e → DReach U e s → DReach U t s

/-- One or more steps to elements -/
inductive Steps (U : Univ) : Ty → Ty → Prop
  | one {u t} : elem U u = some t → Steps U u t
  | more {u t e} : Steps U u t → elem U t = some e → Steps U u e

theorem elem_struct {U : Univ} {t : Ty} (h : structTy U t = true) : elem U t = none := by
  obtain ⟨j, h⟩ := structTy_iff.1 h
  unfold elem; rw [h]

theorem Steps.first {U : Univ} {u v : Ty} (h : Steps U u v) : ∃ e, elem U u = some e ∧ (v = e ∨ Steps U e v) := by
  induction h with
  | one h => exact ⟨_, h, .inl rfl⟩
  | more _ h ih =>
    obtain ⟨e, h1, h2⟩ := ih
    refine ⟨e, h1, .inr ?_⟩
    rcases h2 with rfl | h2
    · exact .one h
    · exact .more h2 h

theorem DReach.acyclic {U : Univ} {t s : Ty} (h : DReach U t s) : ¬ Steps U t t := by
  induction h with
  | here h => intro hs; obtain ⟨e, h1, _⟩ := hs.first; rw [elem_struct h.1] at h1; cases h1
  | step _ he _ ih =>
    intro hs
    obtain ⟨e', h1, h2⟩ := hs.first
    rw [he] at h1; cases h1
    refine ih ?_
    rcases h2 with rfl | h2
    · exact hs
    · exact .more h2 he

theorem DReach.good {U : Univ} {t s : Ty} (h : DReach U t s) : Good U s := by
  induction h with
  | here h => exact h
  | step _ _ _ ih => exact ih

theorem DReach.struct {U : Univ} {t s : Ty} (h : DReach U t s) (ht : structTy U t = true) : s = t := by
  cases h with
  | here => rfl
  | step _ h _ => rw [elem_struct ht] at h; cases h

theorem DReach.steps {U : Univ} {u s t : Ty} (h : DReach U u s) (hs : Steps U u t) (ht : structTy U t = true) : s = t := by
  induction h with
  | here h => obtain ⟨e, h1, _⟩ := hs.first; rw [elem_struct h.1] at h1; cases h1
  | step _ he hd ih =>
    obtain ⟨e', h1, h2⟩ := hs.first
    rw [he] at h1; cases h1
    rcases h2 with rfl | h2
    · exact hd.struct ht
    · exact ih h2

theorem Leads.good {U : Univ} {h : Hint} {t s : Ty} (hl : Leads U h t s) : Good U s := by
  induction hl with
  | here h => exact ⟨h.1, h.2.1⟩
  | _ => assumption

theorem Leads.reach {U : Univ} (hp : U.Paired) {h : Hint} {t s : Ty} (hl : Leads U h t s) : DReach U t s := by
  have aux : ∀ h t s, marshalMeth U t = none → Leads U h t s → unmarshalMeth U t = none := by
    intro h t s hm hl
    cases hu : unmarshalMeth U t with
    | none => rfl
    | some m => exact absurd hl (hp h t s (by rw [hu]; simp) hm)
  induction hl with
  | here h => exact .here ⟨h.1, h.2.1⟩
  | ptr hm hb h ih => exact .step (aux _ _ _ hm (.ptr hm hb h)) (by unfold elem; rw [hb]) ih
  | slice hm hb h ih => exact .step (aux _ _ _ hm (.slice hm hb h)) (by unfold elem; rw [hb]) ih
  | array hm hb h ih => exact .step (aux _ _ _ hm (.array hm hb h)) (by unfold elem; rw [hb]) ih
  | @map hh _ _ _ _ hm hb h ih => exact .step (aux _ _ _ hm (.map (h := hh) hm hb h)) (by unfold elem; rw [hb]) ih

/-! ## Invariants -/

/-- `EncIs`, with the method that is used -/
def EncIsM (U : Univ) (o : Options) (f : Bool) (objs : List Obj) (e : Enc) (t : Ty) (h : Hint) : Prop :=
  via U f h t = encName e ∧ EncIs U o objs e t h

/-- `DecIs`, with the method that is used: the unmarshal methods of struct types without marshal methods may be ignored -/
def DecIsM (U : Univ) (objs : List Obj) (d : Dec) (t : Ty) : Prop :=
  (unmarshalMeth U t = decName d ∨ ((∃ r, d = .struct r) ∧ marshalMeth U t = none)) ∧ DecIs U objs d t

structure FieldOkM (U : Univ) (o : Options) (objs : List Obj) (c : Codec) (k : Cand) : Prop where
  key : c.key = k.key
  index : c.index = k.index
  dec : DecIsM U objs c.dec k.typ
  enc : EncIsM U o true objs c.enc k.typ k.hint
  om : OmIs U o c.enc k c.om

def ObjOkM (U : Univ) (o : Options) (f : Bool) (objs : List Obj) : Obj → Prop
  | .ptrD e d => ∃ d', d = some d' ∧ DecIsM U objs d' e
  | .sliceD t d => ∃ e d', U.base t = .slice e ∧ d = some d' ∧ DecIsM U objs d' e
  | .arrayD _ e d => ∃ d', d = some d' ∧ DecIsM U objs d' e
  | .mapD t d => ∃ k e d', U.base t = .map k e ∧ d = some d' ∧ DecIsM U objs d' e
  | .struct t fs => f = true ∧ ∃ j cs, U.base t = .struct j ∧ Cands U o (U.fields j) 0 [] cs ∧ All2 (FieldOkM U o objs) fs (resolve [] cs)
  | .ptrE t h e => ∃ el e', U.base t = .ptr el ∧ e = some e' ∧ EncIsM U o f objs e' el h
  | .sliceE t h e => ∃ el e', U.base t = .slice el ∧ e = some e' ∧ EncIsM U o f objs e' el h
  | .arrayE t h n e => ∃ el e', U.base t = .array n el ∧ e = some e' ∧ EncIsM U o f objs e' el h
  | .mapE t ke e => ∃ k el e', U.base t = .map k el ∧ keyEnc U k = some ke ∧ e = some e' ∧ EncIsM U o f objs e' el Hint.none

def CVOkM (U : Univ) (o : Options) (f : Bool) (objs : List Obj) (t : Ty) (h : Hint) : CV → Prop
  | .dec d => f = true ∧ h = Hint.none ∧ DecIsM U objs d t
  | .enc e => EncIsM U o f objs e t h

structure InvM (U : Univ) (o : Options) (f : Bool) (c : Codecs) (P : Nat → Prop) : Prop where
  cache : ∀ t h x, ((t, h), x) ∈ c.cache → CVOkM U o f c.objs t h x
  objs : ∀ r x, c.objs[r]? = some x → ¬ P r → ObjOkM U o f c.objs x

theorem EncIsM.mono {U : Univ} {o : Options} {f : Bool} {a b : List Obj} (h : ShExt a b) {e : Enc} {t : Ty} {hh : Hint}
    (hd : EncIsM U o f a e t hh) : EncIsM U o f b e t hh := ⟨hd.1, hd.2.mono h⟩
theorem DecIsM.mono {U : Univ} {a b : List Obj} (h : ShExt a b) {d : Dec} {t : Ty} (hd : DecIsM U a d t) : DecIsM U b d t := ⟨hd.1, hd.2.mono h⟩
theorem FieldOkM.mono {U : Univ} {o : Options} {a b : List Obj} (h : ShExt a b) {c : Codec} {k : Cand}
    (hf : FieldOkM U o a c k) : FieldOkM U o b c k := ⟨hf.key, hf.index, hf.dec.mono h, hf.enc.mono h, hf.om⟩
theorem FieldOkM.plain {U : Univ} {o : Options} {a : List Obj} {c : Codec} {k : Cand} (hf : FieldOkM U o a c k) : FieldOk U o a c k :=
  ⟨hf.key, hf.index, hf.dec.2, hf.enc.2, hf.om⟩

theorem ObjOkM.mono {U : Univ} {o : Options} {f : Bool} {a b : List Obj} (h : ShExt a b) {x : Obj} (hx : ObjOkM U o f a x) : ObjOkM U o f b x := by
  cases x with
  | ptrD t d => obtain ⟨d', h1, h2⟩ := hx; exact ⟨d', h1, h2.mono h⟩
  | sliceD t d => obtain ⟨e, d', h1, h2, h3⟩ := hx; exact ⟨e, d', h1, h2, h3.mono h⟩
  | arrayD n t d => obtain ⟨d', h1, h2⟩ := hx; exact ⟨d', h1, h2.mono h⟩
  | mapD t d => obtain ⟨k, e, d', h1, h2, h3⟩ := hx; exact ⟨k, e, d', h1, h2, h3.mono h⟩
  | struct t fs => obtain ⟨h0, j, cs, h1, h2, h3⟩ := hx; exact ⟨h0, j, cs, h1, h2, All2.mono (fun _ _ hf => hf.mono h) h3⟩
  | ptrE t hh e => obtain ⟨el, e', h1, h2, h3⟩ := hx; exact ⟨el, e', h1, h2, h3.mono h⟩
  | sliceE t hh e => obtain ⟨el, e', h1, h2, h3⟩ := hx; exact ⟨el, e', h1, h2, h3.mono h⟩
  | arrayE t hh n e => obtain ⟨el, e', h1, h2, h3⟩ := hx; exact ⟨el, e', h1, h2, h3.mono h⟩
  | mapE t ke e => obtain ⟨k, el, e', h1, h2, h3, h4⟩ := hx; exact ⟨k, el, e', h1, h2, h3, h4.mono h⟩

theorem CVOkM.mono {U : Univ} {o : Options} {f : Bool} {a b : List Obj} (h : ShExt a b) {t : Ty} {hh : Hint} {x : CV}
    (hx : CVOkM U o f a t hh x) : CVOkM U o f b t hh x := by
  cases x with
  | dec d => exact ⟨hx.1, hx.2.1, hx.2.2.mono h⟩
  | enc e => exact EncIsM.mono h hx

theorem InvM.alloc {U : Univ} {o : Options} {f : Bool} {c : Codecs} {P : Nat → Prop} (h : InvM U o f c P) (x : Obj) :
    InvM U o f { c with objs := c.objs ++ [x] } (fun r => P r ∨ r = c.objs.length) := by
  have he := (ext_append c.objs [x]).shExt
  constructor
  · intro t hh y hy; exact (h.cache t hh y hy).mono he
  · intro r y hy hP
    have hr : r < c.objs.length := by
      have h1 := (List.getElem?_eq_some_iff.1 hy).1
      simp at h1 hP
      omega
    rw [List.getElem?_append_left hr] at hy
    exact (h.objs r y hy (fun hp => hP (.inl hp))).mono he

theorem InvM.put {U : Univ} {o : Options} {f : Bool} {c : Codecs} {P : Nat → Prop} (h : InvM U o f c P) {t : Ty} {hh : Hint} {x : CV}
    (hx : CVOkM U o f c.objs t hh x) : InvM U o f (c.put t hh x) P := by
  constructor
  · intro t' h' y hy
    unfold Codecs.put at hy
    rcases List.mem_cons.1 hy with hy | hy
    · cases hy; exact hx
    · exact h.cache t' h' y hy
  · intro r y hy hP; exact h.objs r y hy hP

theorem InvM.upd {U : Univ} {o : Options} {f : Bool} {c : Codecs} {P : Nat → Prop} {r : Nat} (h : InvM U o f c (fun r' => P r' ∨ r' = r))
    {g : Obj → Obj} (hg : ∀ x, (g x).shape = x.shape) {x : Obj} (hx : c.objs[r]? = some x)
    (hok : ∀ objs, ShExt c.objs objs → ObjOkM U o f objs (g x)) : InvM U o f (c.upd r g) P := by
  have he := shExt_upd c r g hg
  constructor
  · intro t hh y hy; exact (h.cache t hh y hy).mono he
  · intro r' y hy hP
    by_cases hr : r' = r
    · subst hr
      rw [upd_eq c hx] at hy
      cases hy
      exact hok _ he
    · rw [upd_ne c g hr] at hy
      exact (h.objs r' y hy (fun hp => hp.elim hP hr)).mono he

theorem InvM.updP {U : Univ} {o : Options} {f : Bool} {c : Codecs} {P : Nat → Prop} {r : Nat} (h : InvM U o f c P) (hr : P r)
    {g : Obj → Obj} (hg : ∀ x, (g x).shape = x.shape) : InvM U o f (c.upd r g) P := by
  have he := shExt_upd c r g hg
  constructor
  · intro t hh y hy; exact (h.cache t hh y hy).mono he
  · intro r' y hy hP
    have hne : r' ≠ r := fun e => hP (e ▸ hr)
    rw [upd_ne c g hne] at hy
    exact (h.objs r' y hy hP).mono he

/-- The codec of struct type `s` is in the cache. -/
def InS (c : Codecs) (s : Ty) : Prop := ∃ r, (c.find s Hint.none).bind CV.asStruct = some r

/-- The codecs of struct types stay in the cache. -/
def Keep (U : Univ) (c c' : Codecs) : Prop := ∀ s, Good U s → InS c s → InS c' s

theorem Keep.refl (U : Univ) (c : Codecs) : Keep U c c := fun _ _ h => h
theorem Keep.trans {U : Univ} {a b c : Codecs} (h : Keep U a b) (h' : Keep U b c) : Keep U a c := fun s hg hs => h' s hg (h s hg hs)

theorem find_put (c : Codecs) (t : Ty) (h : Hint) (x : CV) (t' : Ty) (h' : Hint) :
    (c.put t h x).find t' h' = if (t, h) = (t', h') then some x else c.find t' h' := by
  unfold Codecs.find Codecs.put
  by_cases he : (t, h) = (t', h')
  · simp [he]
  · simp [he]

theorem Keep.of_cache {U : Univ} {a b : Codecs} (h : a.cache = b.cache) : Keep U a b := by
  intro s _ ⟨r, hr⟩
  refine ⟨r, ?_⟩
  unfold Codecs.find at hr ⊢
  rw [← h]; exact hr

theorem enc_struct {U : Univ} {o : Options} {f : Bool} {objs : List Obj} {e : Enc} {t : Ty} {h : Hint} (ht : structTy U t = true)
    (he : EncIsM U o f objs e t h) (hv : via U f h t = none) : ∃ r, e = .struct r := by
  obtain ⟨j, hb⟩ := structTy_iff.1 ht
  obtain ⟨h1, h2⟩ := he
  rw [hv] at h1
  cases e <;> simp [encName, EncIs, hb] at h1 h2
  exact ⟨_, rfl⟩

theorem dec_struct {U : Univ} {objs : List Obj} {d : Dec} {t : Ty} (ht : Good U t) (hd : DecIsM U objs d t) : ∃ r, d = .struct r := by
  obtain ⟨j, hb⟩ := structTy_iff.1 ht.1
  obtain ⟨h1, h2⟩ := hd
  rcases h1 with h1 | h1
  · rw [ht.2] at h1
    cases d <;> simp [decName, DecIs, hb] at h1 h2
    exact ⟨_, rfl⟩
  · exact h1.1

theorem Keep.put {U : Univ} {o : Options} {c : Codecs} {t : Ty} {h : Hint} {x : CV} (hx : CVOkM U o true c.objs t h x) : Keep U c (c.put t h x) := by
  intro s hg hs
  unfold InS
  rw [find_put]
  by_cases he : (t, h) = (s, Hint.none)
  · rw [if_pos he]
    obtain ⟨rfl, rfl⟩ := Prod.mk.inj he
    cases x with
    | dec d => obtain ⟨r, rfl⟩ := dec_struct hg hx.2.2; exact ⟨r, rfl⟩
    | enc e => obtain ⟨r, rfl⟩ := enc_struct hg.1 hx (via_struct (.inl hg.2) hg.1); exact ⟨r, rfl⟩
  · rw [if_neg he]; exact hs

structure Inv2 (U : Univ) (o : Options) (c : Codecs) (P : Nat → Prop) (L : List Ty) : Prop where
  inv : InvM U o true c P
  closed : ∀ t d, c.find t Hint.none = some (.dec d) → t ∉ L → ∀ s, DReach U t s → InS c s

theorem Inv2.weaken {U : Univ} {o : Options} {c : Codecs} {P : Nat → Prop} (h : Inv2 U o c P []) (L : List Ty) : Inv2 U o c P L :=
  ⟨h.inv, fun t d hf _ => h.closed t d hf (by simp)⟩

theorem Inv2.put {U : Univ} {o : Options} {c : Codecs} {P : Nat → Prop} {L L' : List Ty} (h : Inv2 U o c P L) {t : Ty} {hh : Hint} {x : CV}
    (hx : CVOkM U o true c.objs t hh x) (hL : ∀ u ∈ L, u ∈ L')
    (hc : ∀ d, x = .dec d → t ∉ L' → ∀ s, DReach U t s → InS (c.put t hh x) s) : Inv2 U o (c.put t hh x) P L' := by
  refine ⟨h.inv.put hx, ?_⟩
  intro t' d hf hn s hs
  rw [find_put] at hf
  by_cases he : (t, hh) = (t', Hint.none)
  · rw [if_pos he] at hf
    obtain ⟨rfl, rfl⟩ := Prod.mk.inj he
    cases hf
    exact hc d rfl hn s hs
  · rw [if_neg he] at hf
    exact Keep.put hx s hs.good (h.closed t' d hf (fun hm => hn (hL _ hm)) s hs)

theorem Inv2.upd {U : Univ} {o : Options} {c : Codecs} {P : Nat → Prop} {L : List Ty} {r : Nat} (h : Inv2 U o c (fun r' => P r' ∨ r' = r) L)
    {g : Obj → Obj} (hg : ∀ x, (g x).shape = x.shape) {x : Obj} (hx : c.objs[r]? = some x)
    (hok : ∀ objs, ShExt c.objs objs → ObjOkM U o true objs (g x)) : Inv2 U o (c.upd r g) P L :=
  ⟨h.inv.upd hg hx hok, h.closed⟩

theorem Inv2.updP {U : Univ} {o : Options} {c : Codecs} {P : Nat → Prop} {L : List Ty} {r : Nat} (h : Inv2 U o c P L) (hr : P r)
    {g : Obj → Obj} (hg : ∀ x, (g x).shape = x.shape) : Inv2 U o (c.upd r g) P L := ⟨h.inv.updP hr hg, h.closed⟩

/-! ## Construction -/

section
variable (U : Univ) (o : Options)

def DecPostM (P : Nat → Prop) (L : List Ty) (c c' : Codecs) (d : Dec) (t : Ty) : Prop :=
  Inv2 U o c' P L ∧ Ext c.objs c'.objs ∧ Keep U c c' ∧ DecIsM U c'.objs d t ∧ ∀ s, DReach U t s → InS c' s
def EncPostM (P : Nat → Prop) (c c' : Codecs) (e : Enc) (t : Ty) (h : Hint) : Prop :=
  Inv2 U o c' P [] ∧ Ext c.objs c'.objs ∧ Keep U c c' ∧ EncIsM U o true c'.objs e t h
def FieldsPostM (P : Nat → Prop) (c c' : Codecs) (r : Nat) (t : Ty) (ks : List Cand) : Prop :=
  Inv2 U o c' P [] ∧ ExtBut r c.objs c'.objs ∧ ShExt c.objs c'.objs ∧ Keep U c c' ∧
  ∃ fs, c'.objs[r]? = some (.struct t fs) ∧ All2 (FieldOkM U o c'.objs) fs ks
/-- The struct codecs an encoder leads to are in the cache. -/
def Ready (c : Codecs) (h : Hint) (t : Ty) : Prop := ∀ s, Leads U h t s → InS c s

structure BuildM (fuel : Nat) : Prop where
  cacheDecoder : ∀ t c c' d P L, Inv2 U o c P L → (∀ u ∈ L, Steps U u t) → cacheDecoder U o fuel t c = .ok (d, c') → DecPostM U o P L c c' d t
  newDecoder : ∀ t c c' d P L, Inv2 U o c P L → (∀ u ∈ L, Steps U u t) → newDecoder U o fuel t c = .ok (d, c') → DecPostM U o P L c c' d t
  cacheEncoder : ∀ t h c c' e P, Inv2 U o c P [] → Ready U c h t → cacheEncoder U o fuel t h c = .ok (e, c') → EncPostM U o P c c' e t h
  newEncoder : ∀ t h c c' e P, Inv2 U o c P [] → Ready U c h t → via U true h t = marshalMeth U t → newEncoder U o fuel t h c = .ok (e, c') →
    EncPostM U o P c c' e t h
  newStructCodec : ∀ t j c c' r P L, Inv2 U o c P L → (∀ u ∈ L, Steps U u t) → U.base t = .struct j →
    (unmarshalMeth U t = none ∨ marshalMeth U t = none) → newStructCodec U o fuel t j c = .ok (r, c') →
    Inv2 U o c' P L ∧ Ext c.objs c'.objs ∧ Keep U c c' ∧ sh c'.objs r = some (.struct t []) ∧ (unmarshalMeth U t = none → InS c' t)
  mergeFields : ∀ r t fields i idx c c' P fs ks, Inv2 U o c P [] → P r → c.objs[r]? = some (.struct t fs) →
    All2 (FieldOkM U o c.objs) fs ks → mergeFields U o fuel r fields i idx c = .ok ((), c') →
    ∃ cs, Cands U o fields i idx cs ∧ FieldsPostM U o P c c' r t (resolve ks cs)
  addField : ∀ r t (k : Cand) c c' P fs ks, Inv2 U o c P [] → P r → c.objs[r]? = some (.struct t fs) →
    All2 (FieldOkM U o c.objs) fs ks → addField U o fuel r k.typ k.key k.hint k.index c = .ok ((), c') →
    FieldsPostM U o P c c' r t (addCand ks k)
  buildField : ∀ r t (k : Cand) c c' P fs ks, Inv2 U o c P [] → P r → c.objs[r]? = some (.struct t fs) →
    All2 (FieldOkM U o c.objs) fs ks → buildField U o fuel r k.typ k.key k.hint k.index c = .ok ((), c') →
    FieldsPostM U o P c c' r t (ks ++ [k])

variable {U o}

theorem buildM_zero : BuildM U o 0 := by
  refine ⟨?_, ?_, ?_, ?_, ?_, ?_, ?_, ?_⟩ <;> intros <;> rename_i h <;>
    simp only [cacheDecoder, newDecoder, cacheEncoder, newEncoder, newStructCodec, mergeFields, addField, buildField] at h <;>
    exact absurd h diverge_ok

/-- The codec of a struct type found as something else -/
theorem structEnc_dec {objs : List Obj} {t : Ty} {r : Nat} (h : EncIsM U o true objs (.struct r) t Hint.none) : DecIsM U objs (.struct r) t := by
  obtain ⟨h1, h2⟩ := h
  refine ⟨?_, h2⟩
  unfold via at h1
  split at h1
  · rename_i hc; exact .inl hc.2.2.2
  · exact .inr ⟨⟨r, rfl⟩, h1⟩

theorem structDec_enc {objs : List Obj} {t : Ty} {r : Nat} (h : DecIsM U objs (.struct r) t) : EncIsM U o true objs (.struct r) t Hint.none := by
  obtain ⟨h1, h2⟩ := h
  refine ⟨?_, h2⟩
  obtain ⟨j, hb, _⟩ := h2
  rcases h1 with h1 | ⟨_, h1⟩
  · exact via_struct (.inl h1) (structTy_iff.2 ⟨j, hb⟩)
  · exact via_none h1

theorem cvM_asDec {objs : List Obj} {t : Ty} {x : CV} {d : Dec} (hx : CVOkM U o true objs t Hint.none x) (ha : x.asDec = some d) :
    DecIsM U objs d t := by
  cases x with
  | dec d' => cases ha; exact hx.2.2
  | enc e => cases e <;> simp [CV.asDec] at ha; subst ha; exact structEnc_dec hx

theorem cvM_asEnc {objs : List Obj} {t : Ty} {h : Hint} {x : CV} {e : Enc} (hx : CVOkM U o true objs t h x) (ha : x.asEnc = some e) :
    EncIsM U o true objs e t h := by
  cases x with
  | enc d' => cases ha; exact hx
  | dec e =>
    cases e <;> simp [CV.asEnc] at ha
    subst ha
    obtain ⟨_, rfl, h2⟩ := hx
    exact structDec_enc h2

theorem cvM_asStruct {objs : List Obj} {t : Ty} {h : Hint} {x : CV} {r : Nat} (hx : CVOkM U o true objs t h x) (ha : x.asStruct = some r) :
    sh objs r = some (.struct t []) := by
  cases x with
  | enc e => cases e <;> simp [CV.asStruct] at ha; subst ha; obtain ⟨_, _, _, h2⟩ := hx; exact h2
  | dec d => cases d <;> simp [CV.asStruct] at ha; subst ha; obtain ⟨_, _, _, _, _, h2⟩ := hx; exact h2

theorem allocM_fill {α β : Type} {P : Nat → Prop} {L L' : List Ty} {c c' : Codecs} {x : Obj} {t : Ty} {hh : Hint} {cv : Nat → CV} {m : Bld α}
    {f : α → Obj → Obj} {g : Nat → β} {b : β} {post : α → Codecs → Prop} (hi : Inv2 U o c P L) (hL : ∀ u ∈ L, u ∈ L')
    (h : (Bld.alloc x).bind (fun r => (Bld.put t hh (cv r)).bind fun _ => m.bind fun a => (Bld.upd r (f a)).bind fun _ => Bld.pure (g r)) c
      = .ok (b, c'))
    (hcv : ∀ objs r, sh objs r = some x.shape → CVOkM U o true objs t hh (cv r))
    (hcl : ∀ r d, cv r = .dec d → t ∈ L')
    (hm : ∀ c1 c2 a, Inv2 U o c1 (fun r' => P r' ∨ r' = c.objs.length) L' → Keep U c c1 → m c1 = .ok (a, c2) →
      Inv2 U o c2 (fun r' => P r' ∨ r' = c.objs.length) L' ∧ Ext c1.objs c2.objs ∧ Keep U c1 c2 ∧ post a c2)
    (hf : ∀ a x, (f a x).shape = x.shape)
    (hback : ∀ a c2, post a c2 → ∀ u ∈ L', u ∉ L → ∀ s, DReach U u s → InS c2 s)
    (hok : ∀ a c2 objs', post a c2 → ShExt c2.objs objs' → ObjOkM U o true objs' (f a x)) :
    ∃ r a c2, b = g r ∧ post a c2 ∧ c2.cache = c'.cache ∧ Inv2 U o c' P L ∧ Ext c.objs c'.objs ∧ Keep U c c' ∧ sh c'.objs r = some x.shape := by
  obtain ⟨r1, c1, h1, h⟩ := bind_ok.1 h
  obtain ⟨_, c2, h2, h⟩ := bind_ok.1 h
  obtain ⟨a, c3, h3, h⟩ := bind_ok.1 h
  obtain ⟨_, c4, h4, h⟩ := bind_ok.1 h
  obtain ⟨rfl, rfl⟩ := pure_ok.1 h
  obtain ⟨rfl, rfl⟩ := alloc_ok.1 h1
  have h2 := put_ok.1 h2
  have h4 := upd_ok.1 h4
  have hx : (c.objs ++ [x])[c.objs.length]? = some x := by simp
  have hs : sh (c.objs ++ [x]) c.objs.length = some x.shape := by unfold sh; rw [hx]; rfl
  have i1 : Inv2 U o { c with objs := c.objs ++ [x] } (fun r' => P r' ∨ r' = c.objs.length) L := ⟨hi.inv.alloc x, hi.closed⟩
  have i2 : Inv2 U o c2 (fun r' => P r' ∨ r' = c.objs.length) L' := by
    rw [← h2]; exact i1.put (hcv _ _ hs) hL (fun d hd hn => absurd (hcl _ d hd) hn)
  have k2 : Keep U c c2 := by
    rw [← h2]
    exact (Keep.of_cache (b := { c with objs := c.objs ++ [x] }) rfl).trans (Keep.put (hcv _ _ hs))
  obtain ⟨i3, e3, k3, p3⟩ := hm c2 c3 a i2 k2 h3
  have hx3 : c3.objs[c.objs.length]? = some x := e3 _ _ (by rw [← h2]; exact hx)
  have i4 : Inv2 U o (c3.upd c.objs.length (f a)) P L' := i3.upd (hf a) hx3 (fun objs he => hok a _ _ p3 he)
  refine ⟨_, a, c3, rfl, p3, by rw [← h4]; rfl, ?_, ?_, ?_, ?_⟩
  · rw [← h4]
    refine ⟨i4.inv, fun u d hu hn s hs => ?_⟩
    by_cases hu' : u ∈ L'
    · exact hback a c3 p3 u hu' hn s hs
    · exact i4.closed u d hu hu' s hs
  · rw [← h4]
    refine ext_of_but (x := x) (ExtBut.trans (b := c3.objs) ?_ (extBut_upd _ _ _))
    refine Ext.but ?_ _
    intro r' y hy
    exact e3 r' y (by rw [← h2]; exact hy)
  · rw [← h4]; exact (k2.trans k3).trans (Keep.of_cache rfl)
  · rw [← h4]; unfold sh; rw [upd_eq _ hx3]; simp [hf]

theorem DReach.of_elem {t e s : Ty} (he : elem U t = some e) (h : DReach U t s) : DReach U e s := by
  cases h with
  | here hg => rw [elem_struct hg.1] at he; cases he
  | step _ he' h' => rw [he] at he'; cases he'; exact h'

theorem InS.of_cache {a b : Codecs} (h : a.cache = b.cache) {s : Ty} (hs : InS a s) : InS b s := by
  obtain ⟨r, hr⟩ := hs
  refine ⟨r, ?_⟩
  unfold Codecs.find at hr ⊢
  rw [← h]; exact hr

theorem buildM_cacheDecoder {fuel : Nat} (B : BuildM U o fuel) : ∀ t c c' d P L, Inv2 U o c P L → (∀ u ∈ L, Steps U u t) →
    cacheDecoder U o (fuel + 1) t c = .ok (d, c') → DecPostM U o P L c c' d t := by
  intro t c c' d P L hi hL h
  simp only [cacheDecoder] at h
  obtain ⟨_, _, h0, h⟩ := bind_ok.1 h
  obtain ⟨rfl, rfl⟩ := get_ok.1 h0
  cases hf : (c.find t Hint.none).bind CV.asDec with
  | some d' =>
    simp only [hf] at h
    obtain ⟨rfl, rfl⟩ := pure_ok.1 h
    obtain ⟨x, hx, ha⟩ := Option.bind_eq_some_iff.1 hf
    refine ⟨hi, Ext.refl _, Keep.refl _ _, cvM_asDec (hi.inv.cache _ _ _ (find_mem hx)) ha, ?_⟩
    intro s hs
    cases x with
    | dec d1 =>
      by_cases ht : t ∈ L
      · exact absurd (hL t ht) hs.acyclic
      · exact hi.closed t d1 hx ht s hs
    | enc e1 =>
      cases e1 <;> simp [CV.asDec] at ha
      obtain ⟨_, j, hb, _⟩ : EncIsM U o true c.objs (.struct _) t Hint.none := hi.inv.cache _ _ _ (find_mem hx)
      rw [hs.struct (structTy_iff.2 ⟨j, hb⟩)]
      exact ⟨_, by rw [hx]; rfl⟩
  | none =>
    simp only [hf] at h
    obtain ⟨d1, c1, h1, h⟩ := bind_ok.1 h
    obtain ⟨_, c2, h2, h⟩ := bind_ok.1 h
    obtain ⟨rfl, rfl⟩ := pure_ok.1 h
    rw [← put_ok.1 h2]
    obtain ⟨i1, e1, k1, q1, r1⟩ := B.newDecoder _ _ _ _ _ _ hi hL h1
    have hcv : CVOkM U o true c1.objs t Hint.none (.dec d1) := ⟨rfl, rfl, q1⟩
    have hk := Keep.put hcv
    refine ⟨i1.put hcv (fun _ h => h) (fun _ _ _ s hs => hk s hs.good (r1 s hs)), e1, k1.trans hk, q1, fun s hs => hk s hs.good (r1 s hs)⟩

theorem buildM_cacheEncoder {fuel : Nat} (B : BuildM U o fuel) : ∀ t hh c c' e P, Inv2 U o c P [] → Ready U c hh t →
    cacheEncoder U o (fuel + 1) t hh c = .ok (e, c') → EncPostM U o P c c' e t hh := by
  intro t hh c c' e P hi hr h
  simp only [cacheEncoder] at h
  obtain ⟨_, _, h0, h⟩ := bind_ok.1 h
  obtain ⟨rfl, rfl⟩ := get_ok.1 h0
  cases hf : (c.find t hh).bind CV.asEnc with
  | some d' =>
    simp only [hf] at h
    obtain ⟨rfl, rfl⟩ := pure_ok.1 h
    obtain ⟨x, hx, ha⟩ := Option.bind_eq_some_iff.1 hf
    exact ⟨hi, Ext.refl _, Keep.refl _ _, cvM_asEnc (hi.inv.cache _ _ _ (find_mem hx)) ha⟩
  | none =>
    simp only [hf] at h
    obtain ⟨d1, c1, h1, h⟩ := bind_ok.1 h
    obtain ⟨_, c2, h2, h⟩ := bind_ok.1 h
    obtain ⟨rfl, rfl⟩ := pure_ok.1 h
    have hv : via U true hh t = marshalMeth U t := by
      unfold via
      split
      · rename_i hc
        obtain ⟨_, rfl, hs, hu⟩ := hc
        cases hm : marshalMeth U t with
        | none => rfl
        | some m =>
          exfalso
          obtain ⟨r, hr'⟩ := hr t (.here ⟨hs, hu, by rw [hm]; simp⟩)
          obtain ⟨x, hx, ha⟩ := Option.bind_eq_some_iff.1 hr'
          rw [hx] at hf
          cases x with
          | dec d => cases d <;> simp [CV.asStruct] at ha; simp [CV.asEnc] at hf
          | enc e => simp [CV.asEnc] at hf
      · rfl
    rw [← put_ok.1 h2]
    obtain ⟨i1, e1, k1, q1⟩ := B.newEncoder _ _ _ _ _ _ hi hr hv h1
    have hcv : CVOkM U o true c1.objs t hh (.enc d1) := q1
    exact ⟨i1.put hcv (fun _ h => h) (fun _ hd => by cases hd), e1, k1.trans (Keep.put hcv), q1⟩

theorem buildM_newStructCodec {fuel : Nat} (B : BuildM U o fuel) : ∀ t j c c' r P L, Inv2 U o c P L → (∀ u ∈ L, Steps U u t) → U.base t = .struct j →
    (unmarshalMeth U t = none ∨ marshalMeth U t = none) → newStructCodec U o (fuel + 1) t j c = .ok (r, c') →
    Inv2 U o c' P L ∧ Ext c.objs c'.objs ∧ Keep U c c' ∧ sh c'.objs r = some (.struct t []) ∧ (unmarshalMeth U t = none → InS c' t) := by
  intro t j c c' r P L hi hL hb hum h
  simp only [newStructCodec] at h
  obtain ⟨_, _, h0, h⟩ := bind_ok.1 h
  obtain ⟨rfl, rfl⟩ := get_ok.1 h0
  have hst : structTy U t = true := structTy_iff.2 ⟨j, hb⟩
  cases hf : (c.find t Hint.none).bind CV.asStruct with
  | some d' =>
    simp only [hf] at h
    obtain ⟨rfl, rfl⟩ := pure_ok.1 h
    obtain ⟨x, hx, ha⟩ := Option.bind_eq_some_iff.1 hf
    exact ⟨hi, Ext.refl _, Keep.refl _ _, cvM_asStruct (hi.inv.cache _ _ _ (find_mem hx)) ha, fun _ => ⟨_, hf⟩⟩
  | none =>
    simp only [hf] at h
    obtain ⟨r1, c1, h1, h⟩ := bind_ok.1 h
    obtain ⟨_, c2, h2, h⟩ := bind_ok.1 h
    obtain ⟨_, c3, h3, h⟩ := bind_ok.1 h
    obtain ⟨rfl, rfl⟩ := pure_ok.1 h
    obtain ⟨rfl, rfl⟩ := alloc_ok.1 h1
    have h2 := put_ok.1 h2
    have hx : (c.objs ++ [Obj.struct t []])[c.objs.length]? = some (.struct t []) := by simp
    have i1 : Inv2 U o { c with objs := c.objs ++ [Obj.struct t []] } (fun r' => P r' ∨ r' = c.objs.length) L := ⟨hi.inv.alloc _, hi.closed⟩
    have hin : InS c2 t := ⟨c.objs.length, by rw [← h2, find_put, if_pos rfl]; rfl⟩
    have hcv : CVOkM U o true (c.objs ++ [Obj.struct t []]) t Hint.none (.dec (.struct c.objs.length)) := by
      refine ⟨rfl, rfl, ?_, j, hb, by unfold sh; rw [hx]; rfl⟩
      rcases hum with hum | hum
      · exact .inl hum
      · exact .inr ⟨⟨_, rfl⟩, hum⟩
    have i2 : Inv2 U o c2 (fun r' => P r' ∨ r' = c.objs.length) [] := by
      have i2' : Inv2 U o c2 (fun r' => P r' ∨ r' = c.objs.length) (t :: L) := by
        rw [← h2]; exact i1.put hcv (fun _ h => by simp [h]) (fun _ _ hn => absurd (by simp) hn)
      refine ⟨i2'.inv, fun u d hu _ s hs => ?_⟩
      by_cases hu' : u ∈ t :: L
      · rcases List.mem_cons.1 hu' with rfl | hu'
        · rw [hs.struct hst]; exact hin
        · rw [hs.steps (hL u hu') hst]; exact hin
      · exact i2'.closed u d hu hu' s hs
    have k2 : Keep U c c2 := by
      rw [← h2]
      exact (Keep.of_cache (b := { c with objs := c.objs ++ [Obj.struct t []] }) rfl).trans (Keep.put hcv)
    have hx2 : c2.objs[c.objs.length]? = some (.struct t []) := by rw [← h2]; exact hx
    obtain ⟨cs, hc, i3, e3, s3, k3, fs, f3, a3⟩ := B.mergeFields _ t _ _ _ _ _ _ [] [] i2 (.inr rfl) hx2 .nil h3
    refine ⟨Inv2.weaken ⟨⟨i3.inv.cache, ?_⟩, i3.closed⟩ L, ?_, k2.trans k3, ?_, fun hu => k3 t ⟨hst, hu⟩ hin⟩
    · intro r' y hy hP
      by_cases hr : r' = c.objs.length
      · subst hr
        rw [f3] at hy; cases hy
        exact ⟨rfl, j, cs, hb, hc, a3⟩
      · exact i3.inv.objs r' y hy (fun hp => hp.elim hP hr)
    · refine ext_of_but (x := Obj.struct t []) ?_
      intro r' y hr hy
      exact e3 r' y hr (by rw [← h2]; exact hy)
    · unfold sh; rw [f3]; rfl

theorem buildM_buildField (hp : U.Paired) {fuel : Nat} (B : BuildM U o fuel) : ∀ r t (k : Cand) c c' P fs ks, Inv2 U o c P [] → P r →
    c.objs[r]? = some (.struct t fs) →
    All2 (FieldOkM U o c.objs) fs ks → buildField U o (fuel + 1) r k.typ k.key k.hint k.index c = .ok ((), c') →
    FieldsPostM U o P c c' r t (ks ++ [k]) := by
  intro r t k c c' P fs ks hi hP hx ha h
  simp only [buildField] at h
  obtain ⟨d, c1, h1, hA⟩ := bind_ok.1 h
  obtain ⟨e, c2, h2, hB⟩ := bind_ok.1 hA
  obtain ⟨om, c3, h3, hC⟩ := bind_ok.1 hB
  obtain ⟨i1, e1, k1, d1, r1⟩ := B.cacheDecoder _ _ _ _ _ _ hi (by simp) h1
  obtain ⟨i2, e2, k2, d2⟩ := B.cacheEncoder _ _ _ _ _ _ i1 (fun s hs => r1 s (hs.reach hp)) h2
  obtain ⟨rfl, om3⟩ := fieldOmiter_ok (k := k) d2.2 h3
  have h4 := upd_ok.1 hC
  have hsu := shExt_upd c3 r (Obj.add ⟨k.key, k.index, d, e, om⟩) (shape_add _)
  have hx2 : c3.objs[r]? = some (.struct t fs) := e2 _ _ (e1 _ _ hx)
  rw [← h4]
  refine ⟨i2.updP hP (shape_add _), ?_, ?_, (k1.trans k2).trans (Keep.of_cache rfl), fs ++ [⟨k.key, k.index, d, e, om⟩], upd_eq _ hx2, ?_⟩
  · exact ((e1.trans e2).but r).trans (extBut_upd _ _ _)
  · exact (e1.trans e2).shExt.trans hsu
  · refine All2.append (All2.mono (fun _ _ hf => hf.mono ((e1.trans e2).shExt.trans hsu)) ha) (.cons ?_ .nil)
    exact ⟨rfl, rfl, d1.mono (e2.shExt.trans hsu), d2.mono hsu, om3⟩

theorem buildM_addField {fuel : Nat} (B : BuildM U o fuel) : ∀ r t (k : Cand) c c' P fs ks, Inv2 U o c P [] → P r → c.objs[r]? = some (.struct t fs) →
    All2 (FieldOkM U o c.objs) fs ks → addField U o (fuel + 1) r k.typ k.key k.hint k.index c = .ok ((), c') →
    FieldsPostM U o P c c' r t (addCand ks k) := by
  intro r t k c c' P fs ks hi hP hx ha h
  simp only [addField] at h
  obtain ⟨_, _, h0, h⟩ := bind_ok.1 h
  obtain ⟨rfl, rfl⟩ := get_ok.1 h0
  have hfo : c.fieldsOf r = fs := by unfold Codecs.fieldsOf; rw [hx]
  rw [hfo] at h
  unfold addCand
  rcases getCodec_find k.key (All2.mono (fun _ _ hf => FieldOkM.plain hf) ha) with ⟨g1, g2⟩ | ⟨f, k', g1, g2, g3⟩
  · rw [g1] at h; rw [g2]
    exact B.buildField r t k c c' P fs ks hi hP hx ha h
  · rw [g1] at h; rw [g2]
    simp only [g3.index] at h ⊢
    by_cases hcmp : cmpIndex k'.index k.index ≠ -1
    · rw [if_pos hcmp] at h ⊢
      obtain ⟨_, rfl⟩ := pure_ok.1 h
      exact ⟨hi, (Ext.refl _).but r, ShExt.refl _, Keep.refl _ _, fs, hx, ha⟩
    · rw [if_neg hcmp] at h ⊢
      exact B.buildField r t k c c' P fs ks hi hP hx ha h

theorem FieldsPostM.bind {P : Nat → Prop} {c c1 : Codecs} {r : Nat} {t : Ty} {ks : List Cand} (h : FieldsPostM U o P c c1 r t ks)
    {c2 : Codecs} {ks' : List Cand} (h' : FieldsPostM U o P c1 c2 r t ks') : FieldsPostM U o P c c2 r t ks' :=
  ⟨h'.1, h.2.1.trans h'.2.1, h.2.2.1.trans h'.2.2.1, h.2.2.2.1.trans h'.2.2.2.1, h'.2.2.2.2⟩

theorem buildM_mergeFields {fuel : Nat} (B : BuildM U o fuel) : ∀ r t fields i idx c c' P fs ks, Inv2 U o c P [] → P r →
    c.objs[r]? = some (.struct t fs) → All2 (FieldOkM U o c.objs) fs ks →
    mergeFields U o (fuel + 1) r fields i idx c = .ok ((), c') →
    ∃ cs, Cands U o fields i idx cs ∧ FieldsPostM U o P c c' r t (resolve ks cs) := by
  intro r t fields i idx c c' P fs ks hi hP hx ha h
  cases fields with
  | nil =>
    simp only [mergeFields] at h
    obtain ⟨_, rfl⟩ := pure_ok.1 h
    exact ⟨[], .nil, hi, (Ext.refl _).but r, ShExt.refl _, Keep.refl _ _, fs, hx, ha⟩
  | cons f fields =>
    simp only [mergeFields] at h
    by_cases he : f.exported = false
    · rw [if_pos he] at h
      obtain ⟨cs, h1, h2⟩ := B.mergeFields _ _ _ _ _ _ _ _ _ _ hi hP hx ha h
      exact ⟨cs, .skip (.inl he) h1, h2⟩
    · rw [if_neg he] at h
      by_cases hn : (o.parseField f).1 = b!"-"
      · rw [if_pos hn] at h
        obtain ⟨cs, h1, h2⟩ := B.mergeFields _ _ _ _ _ _ _ _ _ _ hi hP hx ha h
        exact ⟨cs, .skip (.inr hn) h1, h2⟩
      · rw [if_neg hn] at h
        obtain ⟨_, c1, h1, h⟩ := bind_ok.1 h
        have he' : f.exported = true := by simpa using he
        cases hq : embedding U f (o.parseField f).2.2 (idx ++ [(i : Int)]) with
        | mk idx' j? =>
          rw [hq] at h1
          cases j? with
          | some j =>
            obtain ⟨cs, q1, q2⟩ := B.mergeFields _ _ _ _ _ _ _ _ _ _ hi hP hx ha h1
            obtain ⟨i1, e1, s1, k1, fs1, x1, a1⟩ := q2
            obtain ⟨ds, q3, q4⟩ := B.mergeFields _ _ _ _ _ _ _ _ _ _ i1 hP x1 a1 h
            refine ⟨cs ++ ds, .embed he' hn hq q1 q3, ?_⟩
            rw [resolve_append]
            exact FieldsPostM.bind ⟨i1, e1, s1, k1, fs1, x1, a1⟩ q4
          | none =>
            have q2 := B.addField r t ⟨(o.parseField f).1, idx', f.typ, (o.parseField f).2.1⟩ _ _ _ _ _ hi hP hx ha h1
            obtain ⟨i1, e1, s1, k1, fs1, x1, a1⟩ := q2
            obtain ⟨ds, q3, q4⟩ := B.mergeFields _ _ _ _ _ _ _ _ _ _ i1 hP x1 a1 h
            refine ⟨_ :: ds, .field he' hn hq q3, ?_⟩
            rw [resolve_cons]
            exact FieldsPostM.bind ⟨i1, e1, s1, k1, fs1, x1, a1⟩ q4

theorem buildM_newDecoder {fuel : Nat} (B : BuildM U o fuel) : ∀ t c c' d P L, Inv2 U o c P L → (∀ u ∈ L, Steps U u t) →
    newDecoder U o (fuel + 1) t c = .ok (d, c') → DecPostM U o P L c c' d t := by
  intro t c c' d P L hi hL h
  simp only [newDecoder] at h
  cases hm : decMeth U t with
  | some d' =>
    rw [hm] at h
    obtain ⟨rfl, rfl⟩ := pure_ok.1 h
    have hn := decMeth_name hm
    refine ⟨hi, Ext.refl _, Keep.refl _ _, ⟨.inl hn, decMeth_ok hm⟩, ?_⟩
    intro s hs
    have : decMeth U t = none := by
      cases hs with
      | here hg => exact decMeth_none.2 hg.2
      | step hu _ _ => exact decMeth_none.2 hu
    rw [hm] at this; cases this
  | none =>
    rw [hm] at h
    have hm' := decMeth_none.1 hm
    have hnr : elem U t = none → structTy U t = false → ∀ c1 s, DReach U t s → InS c1 s := by
      intro h1 h2 c1 s hs
      cases hs with
      | here hg => rw [hg.1] at h2; cases h2
      | step _ he _ => rw [h1] at he; cases he
    have hsub : ∀ e, elem U t = some e → ∀ c1 c2 a, Inv2 U o c1 (fun r' => P r' ∨ r' = c.objs.length) (t :: L) → Keep U c c1 →
        cacheDecoder U o fuel e c1 = .ok (a, c2) →
        Inv2 U o c2 (fun r' => P r' ∨ r' = c.objs.length) (t :: L) ∧ Ext c1.objs c2.objs ∧ Keep U c1 c2 ∧
          (DecIsM U c2.objs a e ∧ ∀ s, DReach U t s → InS c2 s) := by
      intro e he c1 c2 a h1 _ h2
      have hL' : ∀ u ∈ t :: L, Steps U u e := by
        intro u hu
        rcases List.mem_cons.1 hu with rfl | hu
        · exact .one he
        · exact .more (hL u hu) he
      obtain ⟨q1, q2, q3, q4, q5⟩ := B.cacheDecoder _ _ _ _ _ _ h1 hL' h2
      exact ⟨q1, q2, q3, q4, fun s hs => q5 s (hs.of_elem he)⟩
    have hback : ∀ (e : Ty) (a : Dec) c2, (DecIsM U c2.objs a e ∧ ∀ s, DReach U t s → InS c2 s) → ∀ u ∈ t :: L, u ∉ L → ∀ s, DReach U u s → InS c2 s := by
      intro e a c2 hpost u hu hn s hs
      rcases List.mem_cons.1 hu with rfl | hu
      · exact hpost.2 s hs
      · exact absurd hu hn
    cases hb : U.base t with
    | bool =>
      simp only [hb] at h; obtain ⟨rfl, rfl⟩ := pure_ok.1 h
      exact ⟨hi, Ext.refl _, Keep.refl _ _, ⟨.inl hm', hb⟩, hnr (by unfold elem; rw [hb]) (by unfold structTy; rw [hb]) _⟩
    | int k =>
      simp only [hb] at h; obtain ⟨rfl, rfl⟩ := pure_ok.1 h
      exact ⟨hi, Ext.refl _, Keep.refl _ _, ⟨.inl hm', k, hb⟩, hnr (by unfold elem; rw [hb]) (by unfold structTy; rw [hb]) _⟩
    | uint k =>
      simp only [hb] at h; obtain ⟨rfl, rfl⟩ := pure_ok.1 h
      exact ⟨hi, Ext.refl _, Keep.refl _ _, ⟨.inl hm', k, hb⟩, hnr (by unfold elem; rw [hb]) (by unfold structTy; rw [hb]) _⟩
    | float k =>
      simp only [hb] at h; obtain ⟨rfl, rfl⟩ := pure_ok.1 h
      exact ⟨hi, Ext.refl _, Keep.refl _ _, ⟨.inl hm', k, hb⟩, hnr (by unfold elem; rw [hb]) (by unfold structTy; rw [hb]) _⟩
    | string =>
      simp only [hb] at h; obtain ⟨rfl, rfl⟩ := pure_ok.1 h
      exact ⟨hi, Ext.refl _, Keep.refl _ _, ⟨.inl hm', hb⟩, hnr (by unfold elem; rw [hb]) (by unfold structTy; rw [hb]) _⟩
    | iface m i =>
      simp only [hb] at h
      by_cases h0 : m = 0
      · rw [if_pos h0] at h; obtain ⟨rfl, rfl⟩ := pure_ok.1 h; subst h0
        exact ⟨hi, Ext.refl _, Keep.refl _ _, ⟨.inl hm', i, hb⟩, hnr (by unfold elem; rw [hb]) (by unfold structTy; rw [hb]) _⟩
      · rw [if_neg h0] at h; exact absurd h fail_ok
    | other => simp only [hb] at h; exact absurd h fail_ok
    | named i => simp only [hb] at h; exact absurd h fail_ok
    | struct j =>
      simp only [hb] at h
      obtain ⟨r, c1, h1, h⟩ := bind_ok.1 h
      obtain ⟨rfl, rfl⟩ := pure_ok.1 h
      obtain ⟨q1, q2, q3, q4, q5⟩ := B.newStructCodec _ _ _ _ _ _ _ hi hL hb (.inl hm') h1
      exact ⟨q1, q2, q3, ⟨.inl hm', j, hb, q4⟩, fun s hs => by rw [hs.struct (structTy_iff.2 ⟨j, hb⟩)]; exact q5 hm'⟩
    | ptr e =>
      have he : elem U t = some e := by unfold elem; rw [hb]
      simp only [hb] at h
      obtain ⟨r, a, c2, rfl, hpo, hca, q1, q2, q3, q4⟩ := allocM_fill (L' := t :: L) hi (fun _ h => by simp [h]) h
        (fun objs r hs => ⟨rfl, rfl, .inl hm', e, hb, hs⟩) (fun _ _ _ => by simp) (hsub e he) shape_setDec (hback e)
        (fun a _ _ hp he => ⟨a, rfl, hp.1.mono he⟩)
      exact ⟨q1, q2, q3, ⟨.inl hm', e, hb, q4⟩, fun s hs => (hpo.2 s hs).of_cache hca⟩
    | slice e =>
      have he : elem U t = some e := by unfold elem; rw [hb]
      simp only [hb] at h
      obtain ⟨r, a, c2, rfl, hpo, hca, q1, q2, q3, q4⟩ := allocM_fill (L' := t :: L) hi (fun _ h => by simp [h]) h
        (fun objs r hs => ⟨rfl, rfl, .inl hm', e, hb, hs⟩) (fun _ _ _ => by simp) (hsub e he) shape_setDec (hback e)
        (fun a _ _ hp he => ⟨e, a, hb, rfl, hp.1.mono he⟩)
      exact ⟨q1, q2, q3, ⟨.inl hm', e, hb, q4⟩, fun s hs => (hpo.2 s hs).of_cache hca⟩
    | array n e =>
      have he : elem U t = some e := by unfold elem; rw [hb]
      simp only [hb] at h
      obtain ⟨r, a, c2, rfl, hpo, hca, q1, q2, q3, q4⟩ := allocM_fill (L' := t :: L) hi (fun _ h => by simp [h]) h
        (fun objs r hs => ⟨rfl, rfl, .inl hm', n, e, hb, hs⟩) (fun _ _ _ => by simp) (hsub e he) shape_setDec (hback e)
        (fun a _ _ hp he => ⟨a, rfl, hp.1.mono he⟩)
      exact ⟨q1, q2, q3, ⟨.inl hm', n, e, hb, q4⟩, fun s hs => (hpo.2 s hs).of_cache hca⟩
    | map k e =>
      have he : elem U t = some e := by unfold elem; rw [hb]
      simp only [hb] at h
      by_cases hk : keyOk U k = true
      · rw [if_pos hk] at h
        obtain ⟨r, a, c2, rfl, hpo, hca, q1, q2, q3, q4⟩ := allocM_fill (L' := t :: L) hi (fun _ h => by simp [h]) h
          (fun objs r hs => ⟨rfl, rfl, .inl hm', k, e, hb, hk, hs⟩) (fun _ _ _ => by simp) (hsub e he) shape_setDec (hback e)
          (fun a _ _ hp he => ⟨k, e, a, hb, rfl, hp.1.mono he⟩)
        exact ⟨q1, q2, q3, ⟨.inl hm', k, e, hb, hk, q4⟩, fun s hs => (hpo.2 s hs).of_cache hca⟩
      · rw [if_neg hk] at h; exact absurd h fail_ok

theorem strName (hh : Hint) : encName (newStringEncoder hh) = none := by
  obtain ⟨raw, html, om⟩ := hh
  cases html <;> cases raw <;> rfl

theorem buildM_newEncoder {fuel : Nat} (B : BuildM U o fuel) : ∀ t hh c c' e P, Inv2 U o c P [] → Ready U c hh t → via U true hh t = marshalMeth U t →
    newEncoder U o (fuel + 1) t hh c = .ok (e, c') → EncPostM U o P c c' e t hh := by
  intro t hh c c' d P hi hr hv h
  simp only [newEncoder] at h
  cases hm : encMeth U t with
  | some d' =>
    rw [hm] at h
    obtain ⟨rfl, rfl⟩ := pure_ok.1 h
    exact ⟨hi, Ext.refl _, Keep.refl _ _, hv.trans (encMeth_name hm), encMeth_ok hm⟩
  | none =>
    rw [hm] at h
    have hm' := encMeth_none.1 hm
    rw [hm'] at hv
    have hsub : ∀ e h', (∀ s, Leads U h' e s → Leads U hh t s) → ∀ c1 c2 a, Inv2 U o c1 (fun r' => P r' ∨ r' = c.objs.length) [] → Keep U c c1 →
        cacheEncoder U o fuel e h' c1 = .ok (a, c2) →
        Inv2 U o c2 (fun r' => P r' ∨ r' = c.objs.length) [] ∧ Ext c1.objs c2.objs ∧ Keep U c1 c2 ∧ EncIsM U o true c2.objs a e h' :=
      fun e h' hl c1 c2 a h1 hk h2 => B.cacheEncoder _ _ _ _ _ _ h1 (fun s hs => hk s hs.good (hr s (hl s hs))) h2
    cases hb : U.base t with
    | bool => simp only [hb] at h; obtain ⟨rfl, rfl⟩ := pure_ok.1 h; exact ⟨hi, Ext.refl _, Keep.refl _ _, hv, hb⟩
    | int k => simp only [hb] at h; obtain ⟨rfl, rfl⟩ := pure_ok.1 h; exact ⟨hi, Ext.refl _, Keep.refl _ _, hv, k, hb⟩
    | uint k => simp only [hb] at h; obtain ⟨rfl, rfl⟩ := pure_ok.1 h; exact ⟨hi, Ext.refl _, Keep.refl _ _, hv, k, hb⟩
    | float k =>
      cases k <;> (simp only [hb] at h; obtain ⟨rfl, rfl⟩ := pure_ok.1 h; exact ⟨hi, Ext.refl _, Keep.refl _ _, hv, ⟨_, hb⟩, rfl, rfl, rfl⟩)
    | string =>
      simp only [hb] at h; obtain ⟨rfl, rfl⟩ := pure_ok.1 h
      exact ⟨hi, Ext.refl _, Keep.refl _ _, hv.trans (strName hh).symm, strEnc_ok hb⟩
    | iface m i =>
      simp only [hb] at h
      by_cases h0 : m = 0
      · rw [if_pos h0] at h; obtain ⟨rfl, rfl⟩ := pure_ok.1 h; subst h0; exact ⟨hi, Ext.refl _, Keep.refl _ _, hv, i, hb⟩
      · rw [if_neg h0] at h; exact absurd h fail_ok
    | other => simp only [hb] at h; exact absurd h fail_ok
    | named i => simp only [hb] at h; exact absurd h fail_ok
    | struct j =>
      simp only [hb] at h
      obtain ⟨r, c1, h1, h⟩ := bind_ok.1 h
      obtain ⟨rfl, rfl⟩ := pure_ok.1 h
      obtain ⟨q1, q2, q3, q4, _⟩ := B.newStructCodec _ _ _ _ _ _ _ hi (by simp) hb (.inr hm') h1
      exact ⟨q1, q2, q3, hv, j, hb, q4⟩
    | ptr e =>
      simp only [hb] at h
      obtain ⟨r, a, c2, rfl, _, _, q1, q2, q3, q4⟩ := allocM_fill (L' := []) (post := fun a c2 => EncIsM U o true c2.objs a e hh) hi (fun _ h => h) h
        (fun objs r hs => ⟨hv, e, hb, hs⟩) (fun _ _ h => by cases h) (hsub e hh (fun s hs => .ptr hm' hb hs)) shape_setEnc
        (fun _ _ _ u hu => by simp at hu) (fun a _ _ hp he => ⟨e, a, hb, rfl, hp.mono he⟩)
      exact ⟨q1, q2, q3, hv, e, hb, q4⟩
    | slice e =>
      simp only [hb] at h
      obtain ⟨r, a, c2, rfl, _, _, q1, q2, q3, q4⟩ := allocM_fill (L' := []) (post := fun a c2 => EncIsM U o true c2.objs a e hh) hi (fun _ h => h) h
        (fun objs r hs => ⟨hv, e, hb, hs⟩) (fun _ _ h => by cases h) (hsub e hh (fun s hs => .slice hm' hb hs)) shape_setEnc
        (fun _ _ _ u hu => by simp at hu) (fun a _ _ hp he => ⟨e, a, hb, rfl, hp.mono he⟩)
      exact ⟨q1, q2, q3, hv, e, hb, q4⟩
    | array n e =>
      simp only [hb] at h
      obtain ⟨r, a, c2, rfl, _, _, q1, q2, q3, q4⟩ := allocM_fill (L' := []) (post := fun a c2 => EncIsM U o true c2.objs a e hh) hi (fun _ h => h) h
        (fun objs r hs => ⟨hv, n, e, hb, hs⟩) (fun _ _ h => by cases h) (hsub e hh (fun s hs => .array hm' hb hs)) shape_setEnc
        (fun _ _ _ u hu => by simp at hu) (fun a _ _ hp he => ⟨e, a, hb, rfl, hp.mono he⟩)
      exact ⟨q1, q2, q3, hv, n, e, hb, q4⟩
    | map k e =>
      simp only [hb] at h
      cases hk : keyEnc U k with
      | some ke =>
        rw [hk] at h
        obtain ⟨r, a, c2, rfl, _, _, q1, q2, q3, q4⟩ := allocM_fill (L' := []) (post := fun a c2 => EncIsM U o true c2.objs a e Hint.none) hi (fun _ h => h) h
          (fun objs r hs => ⟨via_none hm', k, e, ke, hb, hk, hs⟩) (fun _ _ h => by cases h) (hsub e Hint.none (fun s hs => .map hm' hb hs)) shape_setEnc
          (fun _ _ _ u hu => by simp at hu) (fun a _ _ hp he => ⟨k, e, a, hb, hk, rfl, hp.mono he⟩)
        exact ⟨q1, q2, q3, hv, k, e, ke, hb, hk, q4⟩
      | none => rw [hk] at h; exact absurd h fail_ok

variable (U o)

theorem buildM (hp : U.Paired) : ∀ fuel, BuildM U o fuel
  | 0 => buildM_zero
  | fuel + 1 => by
    have B := buildM hp fuel
    exact ⟨buildM_cacheDecoder B, buildM_newDecoder B, buildM_cacheEncoder B, buildM_newEncoder B, buildM_newStructCodec B,
      buildM_mergeFields B, buildM_addField B, buildM_buildField hp B⟩

variable {U o}

/-! ## Types that lead to a shadowed type: no struct codec is made -/

theorem allocF_fill {α β : Type} {P : Nat → Prop} {f : Bool} {c c' : Codecs} {x : Obj} {t : Ty} {hh : Hint} {cv : Nat → CV} {m : Bld α}
    {F : α → Obj → Obj} {g : Nat → β} {b : β} {post : α → List Obj → Prop} (hi : InvM U o f c P)
    (h : (Bld.alloc x).bind (fun r => (Bld.put t hh (cv r)).bind fun _ => m.bind fun a => (Bld.upd r (F a)).bind fun _ => Bld.pure (g r)) c
      = .ok (b, c'))
    (hcv : ∀ objs r, sh objs r = some x.shape → CVOkM U o f objs t hh (cv r))
    (hm : ∀ c1 c2 a, InvM U o f c1 (fun r' => P r' ∨ r' = c.objs.length) → m c1 = .ok (a, c2) →
      InvM U o f c2 (fun r' => P r' ∨ r' = c.objs.length) ∧ Ext c1.objs c2.objs ∧ post a c2.objs)
    (hf : ∀ a x, (F a x).shape = x.shape)
    (hok : ∀ a objs objs', post a objs → ShExt objs objs' → ObjOkM U o f objs' (F a x)) :
    ∃ r, b = g r ∧ InvM U o f c' P ∧ Ext c.objs c'.objs ∧ sh c'.objs r = some x.shape := by
  obtain ⟨r1, c1, h1, h⟩ := bind_ok.1 h
  obtain ⟨_, c2, h2, h⟩ := bind_ok.1 h
  obtain ⟨a, c3, h3, h⟩ := bind_ok.1 h
  obtain ⟨_, c4, h4, h⟩ := bind_ok.1 h
  obtain ⟨rfl, rfl⟩ := pure_ok.1 h
  obtain ⟨rfl, rfl⟩ := alloc_ok.1 h1
  have h2 := put_ok.1 h2
  have h4 := upd_ok.1 h4
  have hx : (c.objs ++ [x])[c.objs.length]? = some x := by simp
  have hs : sh (c.objs ++ [x]) c.objs.length = some x.shape := by unfold sh; rw [hx]; rfl
  have i2 : InvM U o f c2 (fun r' => P r' ∨ r' = c.objs.length) := by
    rw [← h2]; exact (hi.alloc x).put (hcv _ _ hs)
  obtain ⟨i3, e3, p3⟩ := hm c2 c3 a i2 h3
  have hx3 : c3.objs[c.objs.length]? = some x := e3 _ _ (by rw [← h2]; exact hx)
  refine ⟨_, rfl, by rw [← h4]; exact i3.upd (hf a) hx3 (fun objs he => hok a _ _ p3 he), ?_, ?_⟩
  · rw [← h4]
    refine ext_of_but (x := x) (ExtBut.trans (b := c3.objs) ?_ (extBut_upd _ _ _))
    refine Ext.but ?_ _
    intro r' y hy
    exact e3 r' y (by rw [← h2]; exact hy)
  · rw [← h4]; unfold sh; rw [upd_eq _ hx3]; simp [hf]

theorem buildF (s : Ty) : ∀ fuel,
    (∀ t h c c' e P, InvM U o false c P → Leads U h t s → cacheEncoder U o fuel t h c = .ok (e, c') →
      InvM U o false c' P ∧ Ext c.objs c'.objs ∧ EncIsM U o false c'.objs e t h) ∧
    (∀ t h c c' e P, InvM U o false c P → Leads U h t s → newEncoder U o fuel t h c = .ok (e, c') →
      InvM U o false c' P ∧ Ext c.objs c'.objs ∧ EncIsM U o false c'.objs e t h) := by
  intro fuel
  induction fuel with
  | zero => constructor <;> intros <;> rename_i h <;> simp only [cacheEncoder, newEncoder] at h <;> exact absurd h diverge_ok
  | succ fuel ih =>
    constructor
    · intro t hh c c' e P hi hl h
      simp only [cacheEncoder] at h
      obtain ⟨_, _, h0, h⟩ := bind_ok.1 h
      obtain ⟨rfl, rfl⟩ := get_ok.1 h0
      cases hf : (c.find t hh).bind CV.asEnc with
      | some d' =>
        simp only [hf] at h
        obtain ⟨rfl, rfl⟩ := pure_ok.1 h
        obtain ⟨x, hx, ha⟩ := Option.bind_eq_some_iff.1 hf
        refine ⟨hi, Ext.refl _, ?_⟩
        have := hi.cache _ _ _ (find_mem hx)
        cases x with
        | dec d => cases this.1
        | enc e => cases ha; exact this
      | none =>
        simp only [hf] at h
        obtain ⟨d1, c1, h1, h⟩ := bind_ok.1 h
        obtain ⟨_, c2, h2, h⟩ := bind_ok.1 h
        obtain ⟨rfl, rfl⟩ := pure_ok.1 h
        rw [← put_ok.1 h2]
        obtain ⟨q1, q2, q3⟩ := ih.2 _ _ _ _ _ _ hi hl h1
        exact ⟨q1.put q3, q2, q3⟩
    · intro t hh c c' d P hi hl h
      simp only [newEncoder] at h
      cases hm : encMeth U t with
      | some d' =>
        rw [hm] at h
        obtain ⟨rfl, rfl⟩ := pure_ok.1 h
        exact ⟨hi, Ext.refl _, via_false.trans (encMeth_name hm), encMeth_ok hm⟩
      | none =>
        rw [hm] at h
        have hm' := encMeth_none.1 hm
        have hv : ∀ h, via U false h t = none := fun h => via_none hm'
        have hsub : ∀ e h', Leads U h' e s → ∀ c1 c2 a, InvM U o false c1 (fun r' => P r' ∨ r' = c.objs.length) →
            cacheEncoder U o fuel e h' c1 = .ok (a, c2) →
            InvM U o false c2 (fun r' => P r' ∨ r' = c.objs.length) ∧ Ext c1.objs c2.objs ∧ EncIsM U o false c2.objs a e h' :=
          fun e h' hl c1 c2 a h1 h2 => ih.1 _ _ _ _ _ _ h1 hl h2
        cases hl with
        | here hs => exact absurd hm' hs.2.2
        | @ptr _ _ e _ _ hb hl =>
          simp only [hb] at h
          obtain ⟨r, rfl, q1, q2, q3⟩ := allocF_fill (post := fun a objs => EncIsM U o false objs a e hh) hi h
            (fun objs r hs => ⟨hv _, e, hb, hs⟩) (hsub e hh hl) shape_setEnc (fun a _ _ hp he => ⟨e, a, hb, rfl, hp.mono he⟩)
          exact ⟨q1, q2, hv _, e, hb, q3⟩
        | @slice _ _ e _ _ hb hl =>
          simp only [hb] at h
          obtain ⟨r, rfl, q1, q2, q3⟩ := allocF_fill (post := fun a objs => EncIsM U o false objs a e hh) hi h
            (fun objs r hs => ⟨hv _, e, hb, hs⟩) (hsub e hh hl) shape_setEnc (fun a _ _ hp he => ⟨e, a, hb, rfl, hp.mono he⟩)
          exact ⟨q1, q2, hv _, e, hb, q3⟩
        | @array _ _ n e _ _ hb hl =>
          simp only [hb] at h
          obtain ⟨r, rfl, q1, q2, q3⟩ := allocF_fill (post := fun a objs => EncIsM U o false objs a e hh) hi h
            (fun objs r hs => ⟨hv _, n, e, hb, hs⟩) (hsub e hh hl) shape_setEnc (fun a _ _ hp he => ⟨e, a, hb, rfl, hp.mono he⟩)
          exact ⟨q1, q2, hv _, n, e, hb, q3⟩
        | @map _ _ k e _ _ hb hl =>
          simp only [hb] at h
          cases hk : keyEnc U k with
          | some ke =>
            rw [hk] at h
            obtain ⟨r, rfl, q1, q2, q3⟩ := allocF_fill (post := fun a objs => EncIsM U o false objs a e Hint.none) hi h
              (fun objs r hs => ⟨hv _, k, e, ke, hb, hk, hs⟩) (hsub e Hint.none hl) shape_setEnc
              (fun a _ _ hp he => ⟨k, e, a, hb, hk, rfl, hp.mono he⟩)
            exact ⟨q1, q2, hv _, k, e, ke, hb, hk, q3⟩
          | none => rw [hk] at h; exact absurd h fail_ok

end

/-- The objects of a finished store. -/
def StoreM (U : Univ) (o : Options) (f : Bool) (objs : List Obj) : Prop := ∀ (r : Nat) x, objs[r]? = some x → ObjOkM U o f objs x

theorem invM_empty (U : Univ) (o : Options) (f : Bool) : InvM U o f Codecs.empty (fun _ => False) := by
  constructor
  · intro t h x hx; exact absurd hx (by simp [Codecs.empty])
  · intro r x hx; exact absurd hx (by simp [Codecs.empty])

theorem inv2_empty (U : Univ) (o : Options) (L : List Ty) : Inv2 U o Codecs.empty (fun _ => False) L := by
  refine ⟨invM_empty U o true, ?_⟩
  intro t d h; exact absurd h (by simp [Codecs.empty, Codecs.find])

/-- The encoder made for an argument: either its type leads to a shadowed type, and then no struct codec is made, or not. -/
theorem newEncoder_storeM {U : Univ} {o : Options} (hp : U.Paired) {fuel : Nat} {t : Ty} {e : Enc} {c : Codecs}
    (hq : newEncoder U o fuel t Hint.none Codecs.empty = .ok (e, c)) :
    (StoreM U o false c.objs ∧ EncIsM U o false c.objs e t Hint.none) ∨
    ((∀ s, ¬ Leads U Hint.none t s) ∧ StoreM U o true c.objs ∧ EncIsM U o true c.objs e t Hint.none) := by
  by_cases hl : ∃ s, Leads U Hint.none t s
  · obtain ⟨s, hl⟩ := hl
    obtain ⟨h1, _, h3⟩ := (buildF s fuel).2 _ _ _ _ _ _ (invM_empty U o false) hl hq
    exact .inl ⟨fun r x hx => h1.objs r x hx (fun h => h), h3⟩
  · have hn : ∀ s, ¬ Leads U Hint.none t s := fun s h => hl ⟨s, h⟩
    have hv : via U true Hint.none t = marshalMeth U t := by
      unfold via
      split
      · rename_i hc
        cases hm : marshalMeth U t with
        | none => rfl
        | some m => exact absurd (.here ⟨hc.2.2.1, hc.2.2.2, by rw [hm]; simp⟩) (hn t)
      · rfl
    obtain ⟨h1, _, _, h3⟩ := (buildM U o hp fuel).newEncoder _ _ _ _ _ _ (inv2_empty U o []) (fun s hs => absurd hs (hn s)) hv hq
    exact .inr ⟨hn, fun r x hx => h1.inv.objs r x hx (fun h => h), h3⟩

/-- The decoder made for an argument. -/
theorem newDecoder_storeM {U : Univ} {o : Options} (hp : U.Paired) {fuel : Nat} {t : Ty} {d : Dec} {c : Codecs}
    (hq : newDecoder U o fuel t Codecs.empty = .ok (d, c)) : StoreM U o true c.objs ∧ DecIsM U c.objs d t := by
  obtain ⟨h1, _, _, h3, _⟩ := (buildM U o hp fuel).newDecoder _ _ _ _ _ _ (inv2_empty U o []) (by simp) hq
  exact ⟨fun r x hx => h1.inv.objs r x hx (fun h => h), h3⟩

end Verif.Unjson
