import Verif.Model.UnRun
import Verif.Spec.UnFields

/-!
# What codec construction produces

`Inv`: every cached codec fits the type it is cached for, and every finished object of the store is complete and refers to
codecs of the right types.
-/

namespace Verif.Unjson
open Verif Verif.Njson

/-- Two lists of the same length with related elements. -/
inductive All2 {α β : Type} (R : α → β → Prop) : List α → List β → Prop
  | nil : All2 R [] []
  | cons {a b l m} : R a b → All2 R l m → All2 R (a :: l) (b :: m)

/-- An object without what is filled in later. -/
def Obj.shape : Obj → Obj
  | .ptrD t _ => .ptrD t none
  | .sliceD t _ => .sliceD t none
  | .arrayD n t _ => .arrayD n t none
  | .mapD t _ => .mapD t none
  | .struct t _ => .struct t []
  | .ptrE t h _ => .ptrE t h none
  | .sliceE t h _ => .sliceE t h none
  | .arrayE t h n _ => .arrayE t h n none
  | .mapE t k _ => .mapE t k none

def sh (objs : List Obj) (r : Nat) : Option Obj := (objs[r]?).map Obj.shape

/-- Decoder `d` is one for type `t`. -/
def DecIs (U : Univ) (objs : List Obj) : Dec → Ty → Prop
  | .njson, t => U.impl t .unmarshaler = true
  | .json, t => U.impl t .jsonUnmarshaler = true
  | .text, t => U.impl t .textUnmarshaler = true
  | .iface, t => ∃ i, U.base t = .iface 0 i
  | .bool, t => U.base t = .bool
  | .int, t => ∃ k, U.base t = .int k
  | .uint, t => ∃ k, U.base t = .uint k
  | .float, t => ∃ k, U.base t = .float k
  | .string, t => U.base t = .string
  | .ptr r, t => ∃ e, U.base t = .ptr e ∧ sh objs r = some (.ptrD e none)
  | .slice r, t => ∃ e, U.base t = .slice e ∧ sh objs r = some (.sliceD t none)
  | .array r, t => ∃ n e, U.base t = .array n e ∧ sh objs r = some (.arrayD n e none)
  | .map r, t => ∃ k e, U.base t = .map k e ∧ keyOk U k = true ∧ sh objs r = some (.mapD t none)
  | .struct r, t => ∃ j, U.base t = .struct j ∧ sh objs r = some (.struct t [])

/-- Encoder `e` is one for type `t` with hints `h`. -/
def EncIs (U : Univ) (o : Options) (objs : List Obj) : Enc → Ty → Hint → Prop
  | .njson, t, _ => U.impl t .appender = true
  | .json, t, _ => U.impl t .jsonMarshaler = true
  | .text, t, _ => U.impl t .textMarshaler = true
  | .iface, t, _ => ∃ i, U.base t = .iface 0 i
  | .bool, t, _ => U.base t = .bool
  | .int, t, _ => ∃ k, U.base t = .int k
  | .uint, t, _ => ∃ k, U.base t = .uint k
  | .float bits inf nan, t, _ => (∃ k, U.base t = .float k) ∧ bits = 32 ∧ inf = o.allowInf ∧ nan = o.allowNaN
  | .str b, t, h => U.base t = .string ∧ newStringEncoder h = .str b
  | .rawStr, t, h => U.base t = .string ∧ newStringEncoder h = .rawStr
  | .ptr r, t, h => ∃ e, U.base t = .ptr e ∧ sh objs r = some (.ptrE t h none)
  | .slice r, t, h => ∃ e, U.base t = .slice e ∧ sh objs r = some (.sliceE t h none)
  | .array r, t, h => ∃ n e, U.base t = .array n e ∧ sh objs r = some (.arrayE t h n none)
  | .map r, t, _ => ∃ k e ke, U.base t = .map k e ∧ keyEnc U k = some ke ∧ sh objs r = some (.mapE t ke none)
  | .struct r, t, _ => ∃ j, U.base t = .struct j ∧ sh objs r = some (.struct t [])

/-- The omiter `newOmiter` makes for a type. -/
inductive OmFor (U : Univ) (name : Bytes) : Ty → Omiter → Prop
  | custom {t o} : newCustomOmiter U t name = some o → OmFor U name t o
  | ptr {t e} : newCustomOmiter U t name = none → U.base t = .ptr e → OmFor U name t .nil
  | struct {t j} : newCustomOmiter U t name = none → U.base t = .struct j → OmFor U name t .never
  | slice {t e} : newCustomOmiter U t name = none → U.base t = .slice e → OmFor U name t .zeroLen
  | map {t k e} : newCustomOmiter U t name = none → U.base t = .map k e → OmFor U name t .zeroLen
  | string {t} : newCustomOmiter U t name = none → U.base t = .string → OmFor U name t .zeroLen
  | array {t n e o} : newCustomOmiter U t name = none → U.base t = .array n e → OmFor U name e o → OmFor U name t (.array n o)
  | any {t i} : newCustomOmiter U t name = none → U.base t = .iface 0 i → OmFor U name t .nil
  | iface {t m i} : newCustomOmiter U t name = none → U.base t = .iface m i → m ≠ 0 → OmFor U name t .always
  | int {t k} : newCustomOmiter U t name = none → U.base t = .int k → OmFor U name t .int
  | uint {t k} : newCustomOmiter U t name = none → U.base t = .uint k → OmFor U name t .uint
  | float {t k} : newCustomOmiter U t name = none → U.base t = .float k → OmFor U name t .float
  | bool {t} : newCustomOmiter U t name = none → U.base t = .bool → OmFor U name t .bool
  | other {t} : newCustomOmiter U t name = none → U.base t = .other → OmFor U name t .always
  | named {t i} : newCustomOmiter U t name = none → U.base t = .named i → OmFor U name t .always

/-- The omiter of a field with encoder `e`. -/
def OmIs (U : Univ) (o : Options) (e : Enc) (k : Cand) (om : Omiter) : Prop :=
  if k.hint.omitempty = true then
    match e with
    | .struct r => om = (newCustomOmiter U k.typ o.omitMethod).getD (.struct r)
    | _ => OmFor U o.omitMethod k.typ om
  else om = .never

structure FieldOk (U : Univ) (o : Options) (objs : List Obj) (c : Codec) (k : Cand) : Prop where
  key : c.key = k.key
  index : c.index = k.index
  dec : DecIs U objs c.dec k.typ
  enc : EncIs U o objs c.enc k.typ k.hint
  om : OmIs U o c.enc k c.om

/-- A finished object. -/
def ObjOk (U : Univ) (o : Options) (objs : List Obj) : Obj → Prop
  | .ptrD e d => ∃ d', d = some d' ∧ DecIs U objs d' e
  | .sliceD t d => ∃ e d', U.base t = .slice e ∧ d = some d' ∧ DecIs U objs d' e
  | .arrayD _ e d => ∃ d', d = some d' ∧ DecIs U objs d' e
  | .mapD t d => ∃ k e d', U.base t = .map k e ∧ d = some d' ∧ DecIs U objs d' e
  | .struct t fs => ∃ j cs, U.base t = .struct j ∧ Cands U o (U.fields j) 0 [] cs ∧ All2 (FieldOk U o objs) fs (resolve [] cs)
  | .ptrE t h e => ∃ el e', U.base t = .ptr el ∧ e = some e' ∧ EncIs U o objs e' el h
  | .sliceE t h e => ∃ el e', U.base t = .slice el ∧ e = some e' ∧ EncIs U o objs e' el h
  | .arrayE t h n e => ∃ el e', U.base t = .array n el ∧ e = some e' ∧ EncIs U o objs e' el h
  | .mapE t ke e => ∃ k el e', U.base t = .map k el ∧ keyEnc U k = some ke ∧ e = some e' ∧ EncIs U o objs e' el Hint.none

/-- What the cache may hold for a key. -/
def CVOk (U : Univ) (o : Options) (objs : List Obj) (t : Ty) (h : Hint) : CV → Prop
  | .dec d => DecIs U objs d t
  | .enc e => EncIs U o objs e t h

structure Inv (U : Univ) (o : Options) (c : Codecs) (P : Nat → Prop) : Prop where
  cache : ∀ t h x, ((t, h), x) ∈ c.cache → CVOk U o c.objs t h x
  objs : ∀ r x, c.objs[r]? = some x → ¬ P r → ObjOk U o c.objs x

/-- Shapes are kept. -/
def ShExt (a b : List Obj) : Prop := ∀ r s, sh a r = some s → sh b r = some s
/-- Objects are kept. -/
def Ext (a b : List Obj) : Prop := ∀ (r : Nat) x, a[r]? = some x → b[r]? = some x
/-- Objects other than `r` are kept. -/
def ExtBut (r : Nat) (a b : List Obj) : Prop := ∀ (r' : Nat) x, r' ≠ r → a[r']? = some x → b[r']? = some x

theorem Ext.shExt {a b : List Obj} (h : Ext a b) : ShExt a b := by
  intro r s hs
  unfold sh at hs ⊢
  cases hx : a[r]? with
  | none => rw [hx] at hs; exact absurd hs (by simp)
  | some x => rw [hx] at hs; rw [h r x hx]; exact hs

theorem ShExt.refl (a : List Obj) : ShExt a a := fun _ _ h => h
theorem ShExt.trans {a b c : List Obj} (h : ShExt a b) (h' : ShExt b c) : ShExt a c := fun r s hs => h' r s (h r s hs)
theorem Ext.refl (a : List Obj) : Ext a a := fun _ _ h => h
theorem Ext.trans {a b c : List Obj} (h : Ext a b) (h' : Ext b c) : Ext a c := fun r s hs => h' r s (h r s hs)
theorem Ext.but {a b : List Obj} (h : Ext a b) (r : Nat) : ExtBut r a b := fun r' x _ hx => h r' x hx
theorem ExtBut.trans {r : Nat} {a b c : List Obj} (h : ExtBut r a b) (h' : ExtBut r b c) : ExtBut r a c :=
  fun r' x hr hx => h' r' x hr (h r' x hr hx)

theorem DecIs.mono {U : Univ} {a b : List Obj} (h : ShExt a b) {d : Dec} {t : Ty} (hd : DecIs U a d t) : DecIs U b d t := by
  cases d with
  | ptr r => obtain ⟨e, h1, h2⟩ := hd; exact ⟨e, h1, h _ _ h2⟩
  | slice r => obtain ⟨e, h1, h2⟩ := hd; exact ⟨e, h1, h _ _ h2⟩
  | array r => obtain ⟨n, e, h1, h2⟩ := hd; exact ⟨n, e, h1, h _ _ h2⟩
  | map r => obtain ⟨k, e, h1, h3, h2⟩ := hd; exact ⟨k, e, h1, h3, h _ _ h2⟩
  | struct r => obtain ⟨j, h1, h2⟩ := hd; exact ⟨j, h1, h _ _ h2⟩
  | _ => exact hd

theorem EncIs.mono {U : Univ} {o : Options} {a b : List Obj} (h : ShExt a b) {e : Enc} {t : Ty} {hh : Hint}
    (hd : EncIs U o a e t hh) : EncIs U o b e t hh := by
  cases e with
  | ptr r => obtain ⟨e, h1, h2⟩ := hd; exact ⟨e, h1, h _ _ h2⟩
  | slice r => obtain ⟨e, h1, h2⟩ := hd; exact ⟨e, h1, h _ _ h2⟩
  | array r => obtain ⟨n, e, h1, h2⟩ := hd; exact ⟨n, e, h1, h _ _ h2⟩
  | map r => obtain ⟨k, e, ke, h1, h3, h2⟩ := hd; exact ⟨k, e, ke, h1, h3, h _ _ h2⟩
  | struct r => obtain ⟨j, h1, h2⟩ := hd; exact ⟨j, h1, h _ _ h2⟩
  | _ => exact hd

theorem FieldOk.mono {U : Univ} {o : Options} {a b : List Obj} (h : ShExt a b) {c : Codec} {k : Cand}
    (hf : FieldOk U o a c k) : FieldOk U o b c k :=
  ⟨hf.key, hf.index, hf.dec.mono h, hf.enc.mono h, hf.om⟩

theorem All2.mono {α β : Type} {R S : α → β → Prop} (h : ∀ a b, R a b → S a b) : ∀ {l : List α} {m : List β},
    All2 R l m → All2 S l m
  | _, _, .nil => .nil
  | _, _, .cons h1 h2 => .cons (h _ _ h1) (All2.mono h h2)

theorem ObjOk.mono {U : Univ} {o : Options} {a b : List Obj} (h : ShExt a b) {x : Obj} (hx : ObjOk U o a x) : ObjOk U o b x := by
  cases x with
  | ptrD t d => obtain ⟨d', h1, h2⟩ := hx; exact ⟨d', h1, h2.mono h⟩
  | sliceD t d => obtain ⟨e, d', h1, h2, h3⟩ := hx; exact ⟨e, d', h1, h2, h3.mono h⟩
  | arrayD n t d => obtain ⟨d', h1, h2⟩ := hx; exact ⟨d', h1, h2.mono h⟩
  | mapD t d => obtain ⟨k, e, d', h1, h2, h3⟩ := hx; exact ⟨k, e, d', h1, h2, h3.mono h⟩
  | struct t fs => obtain ⟨j, cs, h1, h2, h3⟩ := hx; exact ⟨j, cs, h1, h2, All2.mono (fun _ _ hf => hf.mono h) h3⟩
  | ptrE t hh e => obtain ⟨el, e', h1, h2, h3⟩ := hx; exact ⟨el, e', h1, h2, h3.mono h⟩
  | sliceE t hh e => obtain ⟨el, e', h1, h2, h3⟩ := hx; exact ⟨el, e', h1, h2, h3.mono h⟩
  | arrayE t hh n e => obtain ⟨el, e', h1, h2, h3⟩ := hx; exact ⟨el, e', h1, h2, h3.mono h⟩
  | mapE t ke e => obtain ⟨k, el, e', h1, h2, h3, h4⟩ := hx; exact ⟨k, el, e', h1, h2, h3, h4.mono h⟩

theorem CVOk.mono {U : Univ} {o : Options} {a b : List Obj} (h : ShExt a b) {t : Ty} {hh : Hint} {x : CV}
    (hx : CVOk U o a t hh x) : CVOk U o b t hh x := by
  cases x with
  | dec d => exact DecIs.mono h hx
  | enc e => exact EncIs.mono h hx

/-! ## Steps -/

theorem bind_ok {α β : Type} {m : Bld α} {f : α → Bld β} {c : Codecs} {b : β} {c' : Codecs} :
    Bld.bind m f c = .ok (b, c') ↔ ∃ a c1, m c = .ok (a, c1) ∧ f a c1 = .ok (b, c') := by
  unfold Bld.bind
  cases h : m c with
  | ok x =>
    obtain ⟨a, c1⟩ := x
    exact ⟨fun h => ⟨a, c1, rfl, h⟩, fun ⟨_, _, h1, h2⟩ => by cases h1; exact h2⟩
  | err e => simp
  | diverge => simp

theorem pure_ok {α : Type} {a b : α} {c c' : Codecs} : Bld.pure a c = .ok (b, c') ↔ a = b ∧ c = c' := by
  unfold Bld.pure; simp
theorem alloc_ok {x : Obj} {r : Nat} {c c' : Codecs} :
    Bld.alloc x c = .ok (r, c') ↔ c.objs.length = r ∧ { c with objs := c.objs ++ [x] } = c' := by
  unfold Bld.alloc; simp
theorem put_ok {t : Ty} {h : Hint} {x : CV} {u : Unit} {c c' : Codecs} : Bld.put t h x c = .ok (u, c') ↔ c.put t h x = c' := by
  unfold Bld.put; simp
theorem upd_ok {r : Nat} {f : Obj → Obj} {u : Unit} {c c' : Codecs} : Bld.upd r f c = .ok (u, c') ↔ c.upd r f = c' := by
  unfold Bld.upd; simp
theorem get_ok {c c1 c' : Codecs} : Bld.get c = .ok (c1, c') ↔ c = c1 ∧ c = c' := by
  unfold Bld.get; simp
theorem fail_ok {α : Type} {e : UErr} {a : α} {c c' : Codecs} : ¬ (Bld.fail e c = .ok (a, c')) := by unfold Bld.fail; simp
theorem diverge_ok {α : Type} {a : α} {c c' : Codecs} : ¬ (Bld.diverge c = .ok (a, c')) := by unfold Bld.diverge; simp

theorem find_mem {c : Codecs} {t : Ty} {h : Hint} {x : CV} (hf : c.find t h = some x) : ((t, h), x) ∈ c.cache := by
  unfold Codecs.find at hf
  cases hq : c.cache.find? (fun e => e.1 = (t, h)) with
  | none => rw [hq] at hf; exact absurd hf (by simp)
  | some e =>
    rw [hq] at hf
    have h1 := List.find?_some hq
    have h2 := List.mem_of_find?_eq_some hq
    simp at h1 hf
    obtain ⟨k, y⟩ := e
    simp at h1 hf
    subst h1; subst hf
    exact h2

theorem ext_append (a b : List Obj) : Ext a (a ++ b) := by
  intro r x h
  rw [List.getElem?_append_left]
  · exact h
  · exact (List.getElem?_eq_some_iff.1 h).1

theorem Inv.alloc {U : Univ} {o : Options} {c : Codecs} {P : Nat → Prop} (h : Inv U o c P) (x : Obj) :
    Inv U o { c with objs := c.objs ++ [x] } (fun r => P r ∨ r = c.objs.length) := by
  have he := (ext_append c.objs [x]).shExt
  constructor
  · intro t hh y hy; exact (h.cache t hh y hy).mono he
  · intro r y hy hP
    have hr : r < c.objs.length := by
      have h1 := (List.getElem?_eq_some_iff.1 hy).1
      simp at h1 hP
      omega
    rw [List.getElem?_append_left hr] at hy
    exact (h.objs r y hy (fun hp => hP (.inl hp))).mono he

theorem Inv.put {U : Univ} {o : Options} {c : Codecs} {P : Nat → Prop} (h : Inv U o c P) {t : Ty} {hh : Hint} {x : CV}
    (hx : CVOk U o c.objs t hh x) : Inv U o (c.put t hh x) P := by
  constructor
  · intro t' h' y hy
    unfold Codecs.put at hy
    rcases List.mem_cons.1 hy with hy | hy
    · cases hy; exact hx
    · exact h.cache t' h' y hy
  · intro r y hy hP; exact h.objs r y hy hP

theorem shExt_upd (c : Codecs) (r : Nat) (f : Obj → Obj) (hf : ∀ x, (f x).shape = x.shape) : ShExt c.objs (c.upd r f).objs := by
  intro r' s hs
  unfold Codecs.upd sh at *
  simp only [List.getElem?_modify]
  cases hx : c.objs[r']? with
  | none => rw [hx] at hs; exact absurd hs (by simp)
  | some x =>
    rw [hx] at hs
    by_cases hr : r = r'
    · simp [hr] at hs ⊢; rw [hf]; exact hs
    · simpa [hr] using hs

theorem shape_setDec (d : Dec) (x : Obj) : (x.setDec d).shape = x.shape := by cases x <;> rfl
theorem shape_setEnc (e : Enc) (x : Obj) : (x.setEnc e).shape = x.shape := by cases x <;> rfl
theorem shape_add (f : Codec) (x : Obj) : (x.add f).shape = x.shape := by cases x <;> rfl

theorem upd_ne (c : Codecs) {r r' : Nat} (f : Obj → Obj) (h : r' ≠ r) : (c.upd r f).objs[r']? = c.objs[r']? := by
  unfold Codecs.upd
  simp [Ne.symm h]
theorem upd_eq (c : Codecs) {r : Nat} {f : Obj → Obj} {x : Obj} (h : c.objs[r]? = some x) : (c.upd r f).objs[r]? = some (f x) := by
  unfold Codecs.upd
  simp [h]

/-- Fill in a pending object. -/
theorem Inv.upd {U : Univ} {o : Options} {c : Codecs} {P : Nat → Prop} {r : Nat} (h : Inv U o c (fun r' => P r' ∨ r' = r))
    {f : Obj → Obj} (hf : ∀ x, (f x).shape = x.shape) {x : Obj} (hx : c.objs[r]? = some x)
    (hok : ∀ objs, ShExt c.objs objs → ObjOk U o objs (f x)) : Inv U o (c.upd r f) P := by
  have he := shExt_upd c r f hf
  constructor
  · intro t hh y hy; exact (h.cache t hh y hy).mono he
  · intro r' y hy hP
    by_cases hr : r' = r
    · subst hr
      rw [upd_eq c hx] at hy
      cases hy
      exact hok _ he
    · rw [upd_ne c f hr] at hy
      exact (h.objs r' y hy (fun hp => hp.elim hP hr)).mono he

/-- Change a pending object that stays pending. -/
theorem Inv.updP {U : Univ} {o : Options} {c : Codecs} {P : Nat → Prop} {r : Nat} (h : Inv U o c P) (hr : P r)
    {f : Obj → Obj} (hf : ∀ x, (f x).shape = x.shape) : Inv U o (c.upd r f) P := by
  have he := shExt_upd c r f hf
  constructor
  · intro t hh y hy; exact (h.cache t hh y hy).mono he
  · intro r' y hy hP
    have hne : r' ≠ r := fun e => hP (e ▸ hr)
    rw [upd_ne c f hne] at hy
    exact (h.objs r' y hy hP).mono he

theorem extBut_upd (c : Codecs) (r : Nat) (f : Obj → Obj) : ExtBut r c.objs (c.upd r f).objs := by
  intro r' x hr hx
  rw [upd_ne c f hr]; exact hx

/-- An object allocated at the end does not matter to what was there. -/
theorem ext_of_but {a b : List Obj} {x : Obj} (h : ExtBut a.length (a ++ [x]) b) : Ext a b := by
  intro r y hy
  have hr := (List.getElem?_eq_some_iff.1 hy).1
  exact h r y (by omega) (ext_append a [x] r y hy)


/-! ## Omiters -/

theorem newOmiter_ok {U : Univ} {name : Bytes} : ∀ {fuel : Nat} {t : Ty} {c c' : Codecs} {om : Omiter},
    newOmiter U name fuel t c = .ok (om, c') → c' = c ∧ OmFor U name t om := by
  intro fuel
  induction fuel with
  | zero => intro t c c' om h; exact absurd h diverge_ok
  | succ fuel ih =>
    intro t c c' om h
    unfold newOmiter at h
    cases hc : newCustomOmiter U t name with
    | some o => rw [hc] at h; obtain ⟨rfl, rfl⟩ := pure_ok.1 h; exact ⟨rfl, .custom hc⟩
    | none =>
      rw [hc] at h
      cases hb : U.base t with
      | array n e =>
        simp only [hb] at h
        obtain ⟨o, c1, h1, h2⟩ := bind_ok.1 h
        obtain ⟨rfl, rfl⟩ := pure_ok.1 h2
        obtain ⟨rfl, h3⟩ := ih h1
        exact ⟨rfl, .array hc hb h3⟩
      | iface m i =>
        simp only [hb] at h
        obtain ⟨rfl, rfl⟩ := pure_ok.1 h
        refine ⟨rfl, ?_⟩
        by_cases hm : m = 0
        · subst hm; exact .any hc hb
        · rw [if_neg hm]; exact .iface hc hb hm
      | bool => simp only [hb] at h; obtain ⟨rfl, rfl⟩ := pure_ok.1 h; exact ⟨rfl, .bool hc hb⟩
      | int k => simp only [hb] at h; obtain ⟨rfl, rfl⟩ := pure_ok.1 h; exact ⟨rfl, .int hc hb⟩
      | uint k => simp only [hb] at h; obtain ⟨rfl, rfl⟩ := pure_ok.1 h; exact ⟨rfl, .uint hc hb⟩
      | float k => simp only [hb] at h; obtain ⟨rfl, rfl⟩ := pure_ok.1 h; exact ⟨rfl, .float hc hb⟩
      | string => simp only [hb] at h; obtain ⟨rfl, rfl⟩ := pure_ok.1 h; exact ⟨rfl, .string hc hb⟩
      | ptr e => simp only [hb] at h; obtain ⟨rfl, rfl⟩ := pure_ok.1 h; exact ⟨rfl, .ptr hc hb⟩
      | slice e => simp only [hb] at h; obtain ⟨rfl, rfl⟩ := pure_ok.1 h; exact ⟨rfl, .slice hc hb⟩
      | map k e => simp only [hb] at h; obtain ⟨rfl, rfl⟩ := pure_ok.1 h; exact ⟨rfl, .map hc hb⟩
      | struct j => simp only [hb] at h; obtain ⟨rfl, rfl⟩ := pure_ok.1 h; exact ⟨rfl, .struct hc hb⟩
      | other => simp only [hb] at h; obtain ⟨rfl, rfl⟩ := pure_ok.1 h; exact ⟨rfl, .other hc hb⟩
      | named i => simp only [hb] at h; obtain ⟨rfl, rfl⟩ := pure_ok.1 h; exact ⟨rfl, .named hc hb⟩

theorem sh_struct {objs : List Obj} {r : Nat} {t : Ty} (h : sh objs r = some (.struct t [])) : ∃ fs, objs[r]? = some (.struct t fs) := by
  unfold sh at h
  cases hx : objs[r]? with
  | none => rw [hx] at h; exact absurd h (by simp)
  | some x =>
    rw [hx] at h
    cases x <;> simp [Obj.shape] at h
    subst h
    exact ⟨_, rfl⟩

theorem fieldOmiter_ok {U : Univ} {o : Options} {fuel : Nat} {k : Cand} {e : Enc} {c c' : Codecs} {om : Omiter}
    (he : EncIs U o c.objs e k.typ k.hint) (h : fieldOmiter U o fuel k.typ k.hint e c = .ok (om, c')) : c' = c ∧ OmIs U o e k om := by
  unfold fieldOmiter at h
  unfold OmIs
  by_cases ho : k.hint.omitempty = true
  · rw [if_pos ho] at h ⊢
    by_cases hs : ∃ r, e = .struct r
    · obtain ⟨r, rfl⟩ := hs
      obtain ⟨j, _, h2⟩ := he
      obtain ⟨fs, h3⟩ := sh_struct h2
      simp only [h3] at h
      cases h
      exact ⟨rfl, rfl⟩
    · cases e <;> first | exact newOmiter_ok h | exact absurd ⟨_, rfl⟩ hs
  · rw [if_neg ho] at h ⊢
    cases h; exact ⟨rfl, rfl⟩

/-! ## Field lists -/

theorem All2.append {α β : Type} {R : α → β → Prop} : ∀ {l : List α} {m : List β} {l' : List α} {m' : List β},
    All2 R l m → All2 R l' m' → All2 R (l ++ l') (m ++ m')
  | _, _, _, _, .nil, h => h
  | _, _, _, _, .cons h1 h2, h => .cons h1 (All2.append h2 h)

theorem getCodec_find {U : Univ} {o : Options} {objs : List Obj} {fs : List Codec} {ks : List Cand} (key : Bytes)
    (h : All2 (FieldOk U o objs) fs ks) :
    (getCodec fs key = none ∧ ks.find? (fun k => k.key = key) = none) ∨
    ∃ f k, getCodec fs key = some f ∧ ks.find? (fun k => k.key = key) = some k ∧ FieldOk U o objs f k := by
  unfold getCodec
  induction h with
  | nil => left; exact ⟨rfl, rfl⟩
  | @cons f k l m h1 _ ih =>
    by_cases hk : k.key = key
    · right; exact ⟨f, k, by simp [h1.key, hk], by simp [hk], h1⟩
    · have hk' : ¬ f.key = key := by rw [h1.key]; exact hk
      simp only [List.find?_cons, hk, hk', decide_false]
      exact ih


theorem resolve_nil (ks : List Cand) : resolve ks [] = ks := rfl
theorem resolve_cons (ks : List Cand) (k : Cand) (cs : List Cand) : resolve ks (k :: cs) = resolve (addCand ks k) cs := rfl
theorem resolve_append (ks cs ds : List Cand) : resolve ks (cs ++ ds) = resolve (resolve ks cs) ds := by
  unfold resolve; rw [List.foldl_append]

/-! ## Construction -/

section
variable (U : Univ) (o : Options)

def DecPost (P : Nat → Prop) (c c' : Codecs) (d : Dec) (t : Ty) : Prop :=
  Inv U o c' P ∧ Ext c.objs c'.objs ∧ DecIs U c'.objs d t
def EncPost (P : Nat → Prop) (c c' : Codecs) (e : Enc) (t : Ty) (h : Hint) : Prop :=
  Inv U o c' P ∧ Ext c.objs c'.objs ∧ EncIs U o c'.objs e t h
def FieldsPost (P : Nat → Prop) (c c' : Codecs) (r : Nat) (t : Ty) (ks : List Cand) : Prop :=
  Inv U o c' P ∧ ExtBut r c.objs c'.objs ∧ ShExt c.objs c'.objs ∧
  ∃ fs, c'.objs[r]? = some (.struct t fs) ∧ All2 (FieldOk U o c'.objs) fs ks

structure Build (fuel : Nat) : Prop where
  cacheDecoder : ∀ t c c' d P, Inv U o c P → cacheDecoder U o fuel t c = .ok (d, c') → DecPost U o P c c' d t
  newDecoder : ∀ t c c' d P, Inv U o c P → newDecoder U o fuel t c = .ok (d, c') → DecPost U o P c c' d t
  cacheEncoder : ∀ t h c c' e P, Inv U o c P → cacheEncoder U o fuel t h c = .ok (e, c') → EncPost U o P c c' e t h
  newEncoder : ∀ t h c c' e P, Inv U o c P → newEncoder U o fuel t h c = .ok (e, c') → EncPost U o P c c' e t h
  newStructCodec : ∀ t j c c' r P, Inv U o c P → U.base t = .struct j → newStructCodec U o fuel t j c = .ok (r, c') →
    Inv U o c' P ∧ Ext c.objs c'.objs ∧ sh c'.objs r = some (.struct t [])
  mergeFields : ∀ r t fields i idx c c' P fs ks, Inv U o c P → P r → c.objs[r]? = some (.struct t fs) →
    All2 (FieldOk U o c.objs) fs ks → mergeFields U o fuel r fields i idx c = .ok ((), c') →
    ∃ cs, Cands U o fields i idx cs ∧ FieldsPost U o P c c' r t (resolve ks cs)
  addField : ∀ r t k c c' P fs ks, Inv U o c P → P r → c.objs[r]? = some (.struct t fs) →
    All2 (FieldOk U o c.objs) fs ks → addField U o fuel r k.typ k.key k.hint k.index c = .ok ((), c') →
    FieldsPost U o P c c' r t (addCand ks k)
  buildField : ∀ r t k c c' P fs ks, Inv U o c P → P r → c.objs[r]? = some (.struct t fs) →
    All2 (FieldOk U o c.objs) fs ks → buildField U o fuel r k.typ k.key k.hint k.index c = .ok ((), c') →
    FieldsPost U o P c c' r t (ks ++ [k])

variable {U o}

theorem build_zero : Build U o 0 := by
  refine ⟨?_, ?_, ?_, ?_, ?_, ?_, ?_, ?_⟩ <;> intros <;> rename_i h <;>
    simp only [cacheDecoder, newDecoder, cacheEncoder, newEncoder, newStructCodec, mergeFields, addField, buildField] at h <;>
    exact absurd h diverge_ok

theorem cv_asDec {objs : List Obj} {t : Ty} {h : Hint} {x : CV} {d : Dec} (hx : CVOk U o objs t h x) (ha : x.asDec = some d) :
    DecIs U objs d t := by
  cases x with
  | dec d' => cases ha; exact hx
  | enc e => cases e <;> simp [CV.asDec] at ha; subst ha; exact hx

theorem cv_asEnc {objs : List Obj} {t : Ty} {h : Hint} {x : CV} {e : Enc} (hx : CVOk U o objs t h x) (ha : x.asEnc = some e) :
    EncIs U o objs e t h := by
  cases x with
  | enc d' => cases ha; exact hx
  | dec e => cases e <;> simp [CV.asEnc] at ha; subst ha; exact hx

theorem cv_asStruct {objs : List Obj} {t : Ty} {h : Hint} {x : CV} {r : Nat} (hx : CVOk U o objs t h x) (ha : x.asStruct = some r) :
    sh objs r = some (.struct t []) := by
  cases x with
  | enc e => cases e <;> simp [CV.asStruct] at ha; subst ha; obtain ⟨_, _, h2⟩ := hx; exact h2
  | dec d => cases d <;> simp [CV.asStruct] at ha; subst ha; obtain ⟨_, _, h2⟩ := hx; exact h2

/-- Allocate an object, cache it, build what it refers to, fill that in. -/
theorem alloc_fill {α : Type} {P : Nat → Prop} {c c' : Codecs} {x : Obj} {t : Ty} {hh : Hint} {cv : Nat → CV} {m : Bld α}
    {f : α → Obj → Obj} {r : Nat} {post : α → List Obj → Prop} (hi : Inv U o c P)
    (hcv : ∀ objs r, sh objs r = some x.shape → CVOk U o objs t hh (cv r))
    (hm : ∀ c1 c2 a, Inv U o c1 (fun r' => P r' ∨ r' = c.objs.length) → m c1 = .ok (a, c2) →
      Inv U o c2 (fun r' => P r' ∨ r' = c.objs.length) ∧ Ext c1.objs c2.objs ∧ post a c2.objs)
    (hf : ∀ a x, (f a x).shape = x.shape)
    (hok : ∀ a objs objs', post a objs → ShExt objs objs' → ObjOk U o objs' (f a x))
    (h : (Bld.alloc x).bind (fun r => (Bld.put t hh (cv r)).bind fun _ => m.bind fun a => (Bld.upd r (f a)).bind fun _ => Bld.pure r) c
      = .ok (r, c')) :
    Inv U o c' P ∧ Ext c.objs c'.objs ∧ sh c'.objs r = some x.shape := by
  obtain ⟨r1, c1, h1, h⟩ := bind_ok.1 h
  obtain ⟨_, c2, h2, h⟩ := bind_ok.1 h
  obtain ⟨a, c3, h3, h⟩ := bind_ok.1 h
  obtain ⟨_, c4, h4, h⟩ := bind_ok.1 h
  obtain ⟨rfl, rfl⟩ := pure_ok.1 h
  obtain ⟨rfl, rfl⟩ := alloc_ok.1 h1
  have h2 := put_ok.1 h2
  have h4 := upd_ok.1 h4
  have hx : (c.objs ++ [x])[c.objs.length]? = some x := by simp
  have hs : sh (c.objs ++ [x]) c.objs.length = some x.shape := by unfold sh; rw [hx]; rfl
  have i2 : Inv U o c2 (fun r' => P r' ∨ r' = c.objs.length) := by
    rw [← h2]; exact (hi.alloc x).put (hcv _ _ hs)
  obtain ⟨i3, e3, p3⟩ := hm c2 c3 a i2 h3
  have hx3 : c3.objs[c.objs.length]? = some x := e3 _ _ (by rw [← h2]; exact hx)
  have i4 : Inv U o (c3.upd c.objs.length (f a)) P := i3.upd (hf a) hx3 (fun objs he => hok a _ _ p3 he)
  refine ⟨by rw [← h4]; exact i4, ?_, ?_⟩
  · rw [← h4]
    refine ext_of_but (x := x) (ExtBut.trans (b := c3.objs) ?_ (extBut_upd _ _ _))
    refine Ext.but ?_ _
    intro r' y hy
    exact e3 r' y (by rw [← h2]; exact hy)
  · rw [← h4]; unfold sh; rw [upd_eq _ hx3]; simp [hf]

/-- `alloc_fill` followed by a wrapper. -/
theorem alloc_fill' {α β : Type} {P : Nat → Prop} {c c' : Codecs} {x : Obj} {t : Ty} {hh : Hint} {cv : Nat → CV} {m : Bld α}
    {f : α → Obj → Obj} {g : Nat → β} {b : β} {post : α → List Obj → Prop} (hi : Inv U o c P)
    (h : (Bld.alloc x).bind (fun r => (Bld.put t hh (cv r)).bind fun _ => m.bind fun a => (Bld.upd r (f a)).bind fun _ => Bld.pure (g r)) c
      = .ok (b, c'))
    (hcv : ∀ objs r, sh objs r = some x.shape → CVOk U o objs t hh (cv r))
    (hm : ∀ c1 c2 a, Inv U o c1 (fun r' => P r' ∨ r' = c.objs.length) → m c1 = .ok (a, c2) →
      Inv U o c2 (fun r' => P r' ∨ r' = c.objs.length) ∧ Ext c1.objs c2.objs ∧ post a c2.objs)
    (hf : ∀ a x, (f a x).shape = x.shape)
    (hok : ∀ a objs objs', post a objs → ShExt objs objs' → ObjOk U o objs' (f a x)) :
    ∃ r, b = g r ∧ Inv U o c' P ∧ Ext c.objs c'.objs ∧ sh c'.objs r = some x.shape := by
  obtain ⟨r1, c1, h1, h⟩ := bind_ok.1 h
  obtain ⟨u, c2, h2, h⟩ := bind_ok.1 h
  obtain ⟨a, c3, h3, h⟩ := bind_ok.1 h
  obtain ⟨u', c4, h4, h⟩ := bind_ok.1 h
  obtain ⟨rfl, rfl⟩ := pure_ok.1 h
  refine ⟨r1, rfl, alloc_fill (cv := cv) (m := m) (f := f) hi hcv hm hf hok ?_⟩
  exact bind_ok.2 ⟨r1, c1, h1, bind_ok.2 ⟨u, c2, h2, bind_ok.2 ⟨a, c3, h3, bind_ok.2 ⟨u', c4, h4, pure_ok.2 ⟨rfl, rfl⟩⟩⟩⟩⟩

theorem DecPost.trans_put {P : Nat → Prop} {c c' : Codecs} {d : Dec} {t : Ty} (h : DecPost U o P c c' d t) :
    DecPost U o P c (c'.put t Hint.none (.dec d)) d t := ⟨h.1.put h.2.2, h.2.1, h.2.2⟩
theorem EncPost.trans_put {P : Nat → Prop} {c c' : Codecs} {e : Enc} {t : Ty} {hh : Hint} (h : EncPost U o P c c' e t hh) :
    EncPost U o P c (c'.put t hh (.enc e)) e t hh := ⟨h.1.put h.2.2, h.2.1, h.2.2⟩

theorem decMeth_ok {c : Codecs} {t : Ty} {d : Dec} (h : decMeth U t = some d) : DecIs U c.objs d t := by
  unfold decMeth at h
  by_cases h1 : U.impl t .unmarshaler = true
  · rw [if_pos h1] at h; cases h; exact h1
  · rw [if_neg h1] at h
    by_cases h2 : U.impl t .jsonUnmarshaler = true
    · rw [if_pos h2] at h; cases h; exact h2
    · rw [if_neg h2] at h
      by_cases h3 : U.impl t .textUnmarshaler = true
      · rw [if_pos h3] at h; cases h; exact h3
      · rw [if_neg h3] at h; cases h

theorem encMeth_ok {c : Codecs} {t : Ty} {e : Enc} {hh : Hint} (h : encMeth U t = some e) : EncIs U o c.objs e t hh := by
  unfold encMeth at h
  by_cases h1 : U.impl t .appender = true
  · rw [if_pos h1] at h; cases h; exact h1
  · rw [if_neg h1] at h
    by_cases h2 : U.impl t .jsonMarshaler = true
    · rw [if_pos h2] at h; cases h; exact h2
    · rw [if_neg h2] at h
      by_cases h3 : U.impl t .textMarshaler = true
      · rw [if_pos h3] at h; cases h; exact h3
      · rw [if_neg h3] at h; cases h

theorem strEnc_ok {objs : List Obj} {t : Ty} {hh : Hint} (h : U.base t = .string) : EncIs U o objs (newStringEncoder hh) t hh := by
  obtain ⟨raw, html, om⟩ := hh
  cases html <;> cases raw <;> exact ⟨h, rfl⟩

theorem build_cacheDecoder {fuel : Nat} (B : Build U o fuel) : ∀ t c c' d P, Inv U o c P →
    cacheDecoder U o (fuel + 1) t c = .ok (d, c') → DecPost U o P c c' d t := by
  intro t c c' d P hi h
  simp only [cacheDecoder] at h
  obtain ⟨_, _, h0, h⟩ := bind_ok.1 h
  obtain ⟨rfl, rfl⟩ := get_ok.1 h0
  cases hf : (c.find t Hint.none).bind CV.asDec with
  | some d' =>
    simp only [hf] at h
    obtain ⟨rfl, rfl⟩ := pure_ok.1 h
    obtain ⟨x, hx, ha⟩ := Option.bind_eq_some_iff.1 hf
    exact ⟨hi, Ext.refl _, cv_asDec (hi.cache _ _ _ (find_mem hx)) ha⟩
  | none =>
    simp only [hf] at h
    obtain ⟨d1, c1, h1, h⟩ := bind_ok.1 h
    obtain ⟨_, c2, h2, h⟩ := bind_ok.1 h
    obtain ⟨rfl, rfl⟩ := pure_ok.1 h
    rw [← put_ok.1 h2]
    exact (B.newDecoder _ _ _ _ _ hi h1).trans_put

theorem build_cacheEncoder {fuel : Nat} (B : Build U o fuel) : ∀ t hh c c' e P, Inv U o c P →
    cacheEncoder U o (fuel + 1) t hh c = .ok (e, c') → EncPost U o P c c' e t hh := by
  intro t hh c c' e P hi h
  simp only [cacheEncoder] at h
  obtain ⟨_, _, h0, h⟩ := bind_ok.1 h
  obtain ⟨rfl, rfl⟩ := get_ok.1 h0
  cases hf : (c.find t hh).bind CV.asEnc with
  | some d' =>
    simp only [hf] at h
    obtain ⟨rfl, rfl⟩ := pure_ok.1 h
    obtain ⟨x, hx, ha⟩ := Option.bind_eq_some_iff.1 hf
    exact ⟨hi, Ext.refl _, cv_asEnc (hi.cache _ _ _ (find_mem hx)) ha⟩
  | none =>
    simp only [hf] at h
    obtain ⟨d1, c1, h1, h⟩ := bind_ok.1 h
    obtain ⟨_, c2, h2, h⟩ := bind_ok.1 h
    obtain ⟨rfl, rfl⟩ := pure_ok.1 h
    rw [← put_ok.1 h2]
    exact (B.newEncoder _ _ _ _ _ _ hi h1).trans_put

theorem build_newStructCodec {fuel : Nat} (B : Build U o fuel) : ∀ t j c c' r P, Inv U o c P → U.base t = .struct j →
    newStructCodec U o (fuel + 1) t j c = .ok (r, c') → Inv U o c' P ∧ Ext c.objs c'.objs ∧ sh c'.objs r = some (.struct t []) := by
  intro t j c c' r P hi hb h
  simp only [newStructCodec] at h
  obtain ⟨_, _, h0, h⟩ := bind_ok.1 h
  obtain ⟨rfl, rfl⟩ := get_ok.1 h0
  cases hf : (c.find t Hint.none).bind CV.asStruct with
  | some d' =>
    simp only [hf] at h
    obtain ⟨rfl, rfl⟩ := pure_ok.1 h
    obtain ⟨x, hx, ha⟩ := Option.bind_eq_some_iff.1 hf
    exact ⟨hi, Ext.refl _, cv_asStruct (hi.cache _ _ _ (find_mem hx)) ha⟩
  | none =>
    simp only [hf] at h
    obtain ⟨r1, c1, h1, h⟩ := bind_ok.1 h
    obtain ⟨_, c2, h2, h⟩ := bind_ok.1 h
    obtain ⟨_, c3, h3, h⟩ := bind_ok.1 h
    obtain ⟨rfl, rfl⟩ := pure_ok.1 h
    obtain ⟨rfl, rfl⟩ := alloc_ok.1 h1
    have h2 := put_ok.1 h2
    have hx : (c.objs ++ [Obj.struct t []])[c.objs.length]? = some (.struct t []) := by simp
    have i2 : Inv U o c2 (fun r' => P r' ∨ r' = c.objs.length) := by
      rw [← h2]; exact (hi.alloc _).put ⟨j, hb, by unfold sh; rw [hx]; rfl⟩
    have hx2 : c2.objs[c.objs.length]? = some (.struct t []) := by rw [← h2]; exact hx
    obtain ⟨cs, hc, i3, e3, s3, fs, f3, a3⟩ := B.mergeFields _ t _ _ _ _ _ _ [] [] i2 (.inr rfl) hx2 .nil h3
    refine ⟨⟨i3.cache, ?_⟩, ?_, ?_⟩
    · intro r' y hy hP
      by_cases hr : r' = c.objs.length
      · subst hr
        rw [f3] at hy; cases hy
        exact ⟨j, cs, hb, hc, a3⟩
      · exact i3.objs r' y hy (fun hp => hp.elim hP hr)
    · refine ext_of_but (x := Obj.struct t []) ?_
      intro r' y hr hy
      exact e3 r' y hr (by rw [← h2]; exact hy)
    · unfold sh; rw [f3]; rfl

theorem build_buildField {fuel : Nat} (B : Build U o fuel) : ∀ r t k c c' P fs ks, Inv U o c P → P r → c.objs[r]? = some (.struct t fs) →
    All2 (FieldOk U o c.objs) fs ks → buildField U o (fuel + 1) r k.typ k.key k.hint k.index c = .ok ((), c') →
    FieldsPost U o P c c' r t (ks ++ [k]) := by
  intro r t k c c' P fs ks hi hP hx ha h
  simp only [buildField] at h
  obtain ⟨d, c1, h1, hA⟩ := bind_ok.1 h
  obtain ⟨e, c2, h2, hB⟩ := bind_ok.1 hA
  obtain ⟨om, c3, h3, hC⟩ := bind_ok.1 hB
  obtain ⟨i1, e1, d1⟩ := B.cacheDecoder _ _ _ _ _ hi h1
  obtain ⟨i2, e2, d2⟩ := B.cacheEncoder _ _ _ _ _ _ i1 h2
  obtain ⟨rfl, om3⟩ := fieldOmiter_ok (k := k) d2 h3
  have h4 := upd_ok.1 hC
  have hsu := shExt_upd c3 r (Obj.add ⟨k.key, k.index, d, e, om⟩) (shape_add _)
  have hx2 : c3.objs[r]? = some (.struct t fs) := e2 _ _ (e1 _ _ hx)
  rw [← h4]
  refine ⟨i2.updP hP (shape_add _), ?_, ?_, fs ++ [⟨k.key, k.index, d, e, om⟩], upd_eq _ hx2, ?_⟩
  · exact ((e1.trans e2).but r).trans (extBut_upd _ _ _)
  · exact (e1.trans e2).shExt.trans hsu
  · refine All2.append (All2.mono (fun _ _ hf => hf.mono ((e1.trans e2).shExt.trans hsu)) ha) (.cons ?_ .nil)
    exact ⟨rfl, rfl, d1.mono (e2.shExt.trans hsu), d2.mono hsu, om3⟩

theorem build_addField {fuel : Nat} (B : Build U o fuel) : ∀ r t k c c' P fs ks, Inv U o c P → P r → c.objs[r]? = some (.struct t fs) →
    All2 (FieldOk U o c.objs) fs ks → addField U o (fuel + 1) r k.typ k.key k.hint k.index c = .ok ((), c') →
    FieldsPost U o P c c' r t (addCand ks k) := by
  intro r t k c c' P fs ks hi hP hx ha h
  simp only [addField] at h
  obtain ⟨_, _, h0, h⟩ := bind_ok.1 h
  obtain ⟨rfl, rfl⟩ := get_ok.1 h0
  have hfo : c.fieldsOf r = fs := by unfold Codecs.fieldsOf; rw [hx]
  rw [hfo] at h
  unfold addCand
  rcases getCodec_find k.key ha with ⟨g1, g2⟩ | ⟨f, k', g1, g2, g3⟩
  · rw [g1] at h; rw [g2]
    exact B.buildField r t k c c' P fs ks hi hP hx ha h
  · rw [g1] at h; rw [g2]
    simp only [g3.index] at h ⊢
    by_cases hcmp : cmpIndex k'.index k.index ≠ -1
    · rw [if_pos hcmp] at h ⊢
      obtain ⟨_, rfl⟩ := pure_ok.1 h
      exact ⟨hi, (Ext.refl _).but r, ShExt.refl _, fs, hx, ha⟩
    · rw [if_neg hcmp] at h ⊢
      exact B.buildField r t k c c' P fs ks hi hP hx ha h

theorem FieldsPost.bind {P : Nat → Prop} {c c1 : Codecs} {r : Nat} {t : Ty} {ks : List Cand} (h : FieldsPost U o P c c1 r t ks)
    {c2 : Codecs} {ks' : List Cand} (h' : FieldsPost U o P c1 c2 r t ks') : FieldsPost U o P c c2 r t ks' :=
  ⟨h'.1, h.2.1.trans h'.2.1, h.2.2.1.trans h'.2.2.1, h'.2.2.2⟩

theorem build_mergeFields {fuel : Nat} (B : Build U o fuel) : ∀ r t fields i idx c c' P fs ks, Inv U o c P → P r →
    c.objs[r]? = some (.struct t fs) → All2 (FieldOk U o c.objs) fs ks →
    mergeFields U o (fuel + 1) r fields i idx c = .ok ((), c') →
    ∃ cs, Cands U o fields i idx cs ∧ FieldsPost U o P c c' r t (resolve ks cs) := by
  intro r t fields i idx c c' P fs ks hi hP hx ha h
  cases fields with
  | nil =>
    simp only [mergeFields] at h
    obtain ⟨_, rfl⟩ := pure_ok.1 h
    exact ⟨[], .nil, hi, (Ext.refl _).but r, ShExt.refl _, fs, hx, ha⟩
  | cons f fields =>
    simp only [mergeFields] at h
    by_cases he : f.exported = false
    · rw [if_pos he] at h
      obtain ⟨cs, h1, h2⟩ := B.mergeFields _ _ _ _ _ _ _ _ _ _ hi hP hx ha h
      exact ⟨cs, .skip (.inl he) h1, h2⟩
    · rw [if_neg he] at h
      by_cases hn : (o.parseField f).1 = b!"-"
      · rw [if_pos hn] at h
        obtain ⟨cs, h1, h2⟩ := B.mergeFields _ _ _ _ _ _ _ _ _ _ hi hP hx ha h
        exact ⟨cs, .skip (.inr hn) h1, h2⟩
      · rw [if_neg hn] at h
        obtain ⟨_, c1, h1, h⟩ := bind_ok.1 h
        have he' : f.exported = true := by simpa using he
        cases hq : embedding U f (o.parseField f).2.2 (idx ++ [(i : Int)]) with
        | mk idx' j? =>
          rw [hq] at h1
          cases j? with
          | some j =>
            obtain ⟨cs, q1, q2⟩ := B.mergeFields _ _ _ _ _ _ _ _ _ _ hi hP hx ha h1
            obtain ⟨i1, e1, s1, fs1, x1, a1⟩ := q2
            obtain ⟨ds, q3, q4⟩ := B.mergeFields _ _ _ _ _ _ _ _ _ _ i1 hP x1 a1 h
            refine ⟨cs ++ ds, .embed he' hn hq q1 q3, ?_⟩
            rw [resolve_append]
            exact FieldsPost.bind ⟨i1, e1, s1, fs1, x1, a1⟩ q4
          | none =>
            have q2 := B.addField r t ⟨(o.parseField f).1, idx', f.typ, (o.parseField f).2.1⟩ _ _ _ _ _ hi hP hx ha h1
            obtain ⟨i1, e1, s1, fs1, x1, a1⟩ := q2
            obtain ⟨ds, q3, q4⟩ := B.mergeFields _ _ _ _ _ _ _ _ _ _ i1 hP x1 a1 h
            refine ⟨_ :: ds, .field he' hn hq q3, ?_⟩
            rw [resolve_cons]
            exact FieldsPost.bind ⟨i1, e1, s1, fs1, x1, a1⟩ q4

theorem build_newDecoder {fuel : Nat} (B : Build U o fuel) : ∀ t c c' d P, Inv U o c P →
    newDecoder U o (fuel + 1) t c = .ok (d, c') → DecPost U o P c c' d t := by
  intro t c c' d P hi h
  simp only [newDecoder] at h
  cases hm : decMeth U t with
  | some d' =>
    rw [hm] at h
    obtain ⟨rfl, rfl⟩ := pure_ok.1 h
    exact ⟨hi, Ext.refl _, decMeth_ok hm⟩
  | none =>
    rw [hm] at h
    have hsub : ∀ e c1 c2 a, Inv U o c1 (fun r' => P r' ∨ r' = c.objs.length) → cacheDecoder U o fuel e c1 = .ok (a, c2) →
      Inv U o c2 (fun r' => P r' ∨ r' = c.objs.length) ∧ Ext c1.objs c2.objs ∧ DecIs U c2.objs a e :=
      fun e c1 c2 a h1 h2 => B.cacheDecoder _ _ _ _ _ h1 h2
    cases hb : U.base t with
    | bool => simp only [hb] at h; obtain ⟨rfl, rfl⟩ := pure_ok.1 h; exact ⟨hi, Ext.refl _, hb⟩
    | int k => simp only [hb] at h; obtain ⟨rfl, rfl⟩ := pure_ok.1 h; exact ⟨hi, Ext.refl _, k, hb⟩
    | uint k => simp only [hb] at h; obtain ⟨rfl, rfl⟩ := pure_ok.1 h; exact ⟨hi, Ext.refl _, k, hb⟩
    | float k => simp only [hb] at h; obtain ⟨rfl, rfl⟩ := pure_ok.1 h; exact ⟨hi, Ext.refl _, k, hb⟩
    | string => simp only [hb] at h; obtain ⟨rfl, rfl⟩ := pure_ok.1 h; exact ⟨hi, Ext.refl _, hb⟩
    | iface m i =>
      simp only [hb] at h
      by_cases h0 : m = 0
      · rw [if_pos h0] at h; obtain ⟨rfl, rfl⟩ := pure_ok.1 h; subst h0; exact ⟨hi, Ext.refl _, i, hb⟩
      · rw [if_neg h0] at h; exact absurd h fail_ok
    | other => simp only [hb] at h; exact absurd h fail_ok
    | named i => simp only [hb] at h; exact absurd h fail_ok
    | struct j =>
      simp only [hb] at h
      obtain ⟨r, c1, h1, h⟩ := bind_ok.1 h
      obtain ⟨rfl, rfl⟩ := pure_ok.1 h
      obtain ⟨q1, q2, q3⟩ := B.newStructCodec _ _ _ _ _ _ hi hb h1
      exact ⟨q1, q2, j, hb, q3⟩
    | ptr e =>
      simp only [hb] at h
      obtain ⟨r, rfl, q1, q2, q3⟩ := alloc_fill' (post := fun a objs => DecIs U objs a e) hi h
        (fun objs r hs => ⟨e, hb, hs⟩) (hsub e) shape_setDec (fun a _ _ hp he => ⟨a, rfl, hp.mono he⟩)
      exact ⟨q1, q2, e, hb, q3⟩
    | slice e =>
      simp only [hb] at h
      obtain ⟨r, rfl, q1, q2, q3⟩ := alloc_fill' (post := fun a objs => DecIs U objs a e) hi h
        (fun objs r hs => ⟨e, hb, hs⟩) (hsub e) shape_setDec (fun a _ _ hp he => ⟨e, a, hb, rfl, hp.mono he⟩)
      exact ⟨q1, q2, e, hb, q3⟩
    | array n e =>
      simp only [hb] at h
      obtain ⟨r, rfl, q1, q2, q3⟩ := alloc_fill' (post := fun a objs => DecIs U objs a e) hi h
        (fun objs r hs => ⟨n, e, hb, hs⟩) (hsub e) shape_setDec (fun a _ _ hp he => ⟨a, rfl, hp.mono he⟩)
      exact ⟨q1, q2, n, e, hb, q3⟩
    | map k e =>
      simp only [hb] at h
      by_cases hk : keyOk U k = true
      · rw [if_pos hk] at h
        obtain ⟨r, rfl, q1, q2, q3⟩ := alloc_fill' (post := fun a objs => DecIs U objs a e) hi h
          (fun objs r hs => ⟨k, e, hb, hk, hs⟩) (hsub e) shape_setDec (fun a _ _ hp he => ⟨k, e, a, hb, rfl, hp.mono he⟩)
        exact ⟨q1, q2, k, e, hb, hk, q3⟩
      · rw [if_neg hk] at h; exact absurd h fail_ok

theorem build_newEncoder {fuel : Nat} (B : Build U o fuel) : ∀ t hh c c' e P, Inv U o c P →
    newEncoder U o (fuel + 1) t hh c = .ok (e, c') → EncPost U o P c c' e t hh := by
  intro t hh c c' d P hi h
  simp only [newEncoder] at h
  cases hm : encMeth U t with
  | some d' =>
    rw [hm] at h
    obtain ⟨rfl, rfl⟩ := pure_ok.1 h
    exact ⟨hi, Ext.refl _, encMeth_ok hm⟩
  | none =>
    rw [hm] at h
    have hsub : ∀ e h' c1 c2 a, Inv U o c1 (fun r' => P r' ∨ r' = c.objs.length) → cacheEncoder U o fuel e h' c1 = .ok (a, c2) →
      Inv U o c2 (fun r' => P r' ∨ r' = c.objs.length) ∧ Ext c1.objs c2.objs ∧ EncIs U o c2.objs a e h' :=
      fun e h' c1 c2 a h1 h2 => B.cacheEncoder _ _ _ _ _ _ h1 h2
    cases hb : U.base t with
    | bool => simp only [hb] at h; obtain ⟨rfl, rfl⟩ := pure_ok.1 h; exact ⟨hi, Ext.refl _, hb⟩
    | int k => simp only [hb] at h; obtain ⟨rfl, rfl⟩ := pure_ok.1 h; exact ⟨hi, Ext.refl _, k, hb⟩
    | uint k => simp only [hb] at h; obtain ⟨rfl, rfl⟩ := pure_ok.1 h; exact ⟨hi, Ext.refl _, k, hb⟩
    | float k =>
      cases k <;> (simp only [hb] at h; obtain ⟨rfl, rfl⟩ := pure_ok.1 h; exact ⟨hi, Ext.refl _, ⟨_, hb⟩, rfl, rfl, rfl⟩)
    | string => simp only [hb] at h; obtain ⟨rfl, rfl⟩ := pure_ok.1 h; exact ⟨hi, Ext.refl _, strEnc_ok hb⟩
    | iface m i =>
      simp only [hb] at h
      by_cases h0 : m = 0
      · rw [if_pos h0] at h; obtain ⟨rfl, rfl⟩ := pure_ok.1 h; subst h0; exact ⟨hi, Ext.refl _, i, hb⟩
      · rw [if_neg h0] at h; exact absurd h fail_ok
    | other => simp only [hb] at h; exact absurd h fail_ok
    | named i => simp only [hb] at h; exact absurd h fail_ok
    | struct j =>
      simp only [hb] at h
      obtain ⟨r, c1, h1, h⟩ := bind_ok.1 h
      obtain ⟨rfl, rfl⟩ := pure_ok.1 h
      obtain ⟨q1, q2, q3⟩ := B.newStructCodec _ _ _ _ _ _ hi hb h1
      exact ⟨q1, q2, j, hb, q3⟩
    | ptr e =>
      simp only [hb] at h
      obtain ⟨r, rfl, q1, q2, q3⟩ := alloc_fill' (post := fun a objs => EncIs U o objs a e hh) hi h
        (fun objs r hs => ⟨e, hb, hs⟩) (hsub e hh) shape_setEnc (fun a _ _ hp he => ⟨e, a, hb, rfl, hp.mono he⟩)
      exact ⟨q1, q2, e, hb, q3⟩
    | slice e =>
      simp only [hb] at h
      obtain ⟨r, rfl, q1, q2, q3⟩ := alloc_fill' (post := fun a objs => EncIs U o objs a e hh) hi h
        (fun objs r hs => ⟨e, hb, hs⟩) (hsub e hh) shape_setEnc (fun a _ _ hp he => ⟨e, a, hb, rfl, hp.mono he⟩)
      exact ⟨q1, q2, e, hb, q3⟩
    | array n e =>
      simp only [hb] at h
      obtain ⟨r, rfl, q1, q2, q3⟩ := alloc_fill' (post := fun a objs => EncIs U o objs a e hh) hi h
        (fun objs r hs => ⟨n, e, hb, hs⟩) (hsub e hh) shape_setEnc (fun a _ _ hp he => ⟨e, a, hb, rfl, hp.mono he⟩)
      exact ⟨q1, q2, n, e, hb, q3⟩
    | map k e =>
      simp only [hb] at h
      cases hk : keyEnc U k with
      | some ke =>
        rw [hk] at h
        obtain ⟨r, rfl, q1, q2, q3⟩ := alloc_fill' (post := fun a objs => EncIs U o objs a e Hint.none) hi h
          (fun objs r hs => ⟨k, e, ke, hb, hk, hs⟩) (hsub e Hint.none) shape_setEnc
          (fun a _ _ hp he => ⟨k, e, a, hb, hk, rfl, hp.mono he⟩)
        exact ⟨q1, q2, k, e, ke, hb, hk, q3⟩
      | none => rw [hk] at h; exact absurd h fail_ok

variable (U o)

theorem build : ∀ fuel, Build U o fuel
  | 0 => build_zero
  | fuel + 1 => by
    have B := build fuel
    exact ⟨build_cacheDecoder B, build_newDecoder B, build_cacheEncoder B, build_newEncoder B, build_newStructCodec B,
      build_mergeFields B, build_addField B, build_buildField B⟩

end

/-- The objects of a store all of which are finished. -/
def StoreOk (U : Univ) (o : Options) (objs : List Obj) : Prop := ∀ (r : Nat) x, objs[r]? = some x → ObjOk U o objs x

theorem inv_empty (U : Univ) (o : Options) : Inv U o Codecs.empty (fun _ => False) := by
  constructor
  · intro t h x hx; exact absurd hx (by simp [Codecs.empty])
  · intro r x hx; exact absurd hx (by simp [Codecs.empty])

theorem newDecoder_store {U : Univ} {o : Options} {fuel : Nat} {t : Ty} {d : Dec} {c : Codecs}
    (h : newDecoder U o fuel t Codecs.empty = .ok (d, c)) : StoreOk U o c.objs ∧ DecIs U c.objs d t := by
  obtain ⟨h1, _, h3⟩ := (build U o fuel).newDecoder _ _ _ _ _ (inv_empty U o) h
  exact ⟨fun r x hx => h1.objs r x hx (fun h => h), h3⟩

theorem newEncoder_store {U : Univ} {o : Options} {fuel : Nat} {t : Ty} {h : Hint} {e : Enc} {c : Codecs}
    (hq : newEncoder U o fuel t h Codecs.empty = .ok (e, c)) : StoreOk U o c.objs ∧ EncIs U o c.objs e t h := by
  obtain ⟨h1, _, h3⟩ := (build U o fuel).newEncoder _ _ _ _ _ _ (inv_empty U o) hq
  exact ⟨fun r x hx => h1.objs r x hx (fun h => h), h3⟩

end Verif.Unjson
