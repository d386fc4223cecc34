import Verif.Spec.UnMeth
import Verif.Proofs.UnEncode
import Verif.Proofs.UnAccept

/-! # For which types no encoder or decoder can be made -/

namespace Verif.Unjson
open Verif Verif.Njson

theorem encMeth_none {U : Univ} {t : Ty} : encMeth U t = none ↔ marshalMeth U t = none := by
  unfold encMeth marshalMeth
  cases U.impl t .appender <;> cases U.impl t .jsonMarshaler <;> cases U.impl t .textMarshaler <;> simp

theorem decMeth_none {U : Univ} {t : Ty} : decMeth U t = none ↔ unmarshalMeth U t = none := by
  unfold decMeth unmarshalMeth
  cases U.impl t .unmarshaler <;> cases U.impl t .jsonUnmarshaler <;> cases U.impl t .textUnmarshaler <;> simp

theorem marshalMeth_ne {U : Univ} {t : Ty} {m : Meth} (hm : m = .appender ∨ m = .jsonMarshaler ∨ m = .textMarshaler) (h : U.impl t m = true) :
    marshalMeth U t ≠ none := by
  unfold marshalMeth
  rcases hm with rfl | rfl | rfl <;> rw [h] <;> cases U.impl t .appender <;> cases U.impl t .jsonMarshaler <;> simp

theorem unmarshalMeth_ne {U : Univ} {t : Ty} {m : Meth} (hm : m = .unmarshaler ∨ m = .jsonUnmarshaler ∨ m = .textUnmarshaler) (h : U.impl t m = true) :
    unmarshalMeth U t ≠ none := by
  unfold unmarshalMeth
  rcases hm with rfl | rfl | rfl <;> rw [h] <;> cases U.impl t .unmarshaler <;> cases U.impl t .jsonUnmarshaler <;> simp

theorem base_not_named {U : Univ} (hU : U.Ok) (t : Ty) (i : Nat) : U.base t ≠ .named i := by
  intro hi
  cases t <;> first | cases hi | exact hU.under_base _ _ hi

theorem bind_err {α β : Type} {m : Bld α} {f : α → Bld β} {c : Codecs} {e : UErr} (h : Bld.bind m f c = .err e) :
    m c = .err e ∨ ∃ a c1, m c = .ok (a, c1) ∧ f a c1 = .err e := by
  unfold Bld.bind at h
  cases hm : m c with
  | ok p => obtain ⟨a, c1⟩ := p; rw [hm] at h; exact .inr ⟨a, c1, rfl, h⟩
  | err e' => rw [hm] at h; cases h; exact .inl rfl
  | diverge => rw [hm] at h; cases h

theorem bind_err_of {α β : Type} {m : Bld α} {f : α → Bld β} {c : Codecs} {e : UErr} (h : Bld.bind m f c = .err e) (hf : ∀ a, NoErr (f a)) :
    m c = .err e := by
  rcases bind_err h with h | ⟨a, c1, _, h⟩
  · exact h
  · exact absurd h (hf a _ _)

section
variable {U : Univ} {o : Options}

/-- An error while an object is built is an error of what it refers to. -/
theorem alloc_err {α β : Type} {P : Nat → Prop} {c : Codecs} {x : Obj} {t : Ty} {hh : Hint} {cv : Nat → CV} {m : Bld α}
    {f : α → Obj → Obj} {g : Nat → β} {e : UErr} (hi : Inv U o c P)
    (h : (Bld.alloc x).bind (fun r => (Bld.put t hh (cv r)).bind fun _ => m.bind fun a => (Bld.upd r (f a)).bind fun _ => Bld.pure (g r)) c = .err e)
    (hcv : ∀ objs r, sh objs r = some x.shape → CVOk U o objs t hh (cv r)) :
    ∃ c2, Inv U o c2 (fun r' => P r' ∨ r' = c.objs.length) ∧ m c2 = .err e := by
  rcases bind_err h with h | ⟨r, c1, h1, h⟩
  · exact absurd h (noErr_alloc _ _ _)
  rcases bind_err h with h' | ⟨_, c2, h2, h3⟩
  · exact absurd h' (noErr_put _ _ _ _ _)
  obtain ⟨rfl, rfl⟩ := alloc_ok.1 h1
  have hx : (c.objs ++ [x])[c.objs.length]? = some x := by simp
  have hs : sh (c.objs ++ [x]) c.objs.length = some x.shape := by unfold sh; rw [hx]; rfl
  refine ⟨c2, ?_, bind_err_of h3 fun a => (noErr_upd _ _).bind fun _ => noErr_pure _⟩
  rw [← put_ok.1 h2]
  exact (hi.alloc x).put (hcv _ _ hs)

variable (U o)

structure Rejects (fuel : Nat) : Prop where
  cacheDecoder : ∀ t c P e, Inv U o c P → cacheDecoder U o fuel t c = .err e → e = .invalidType ∧ NoDecoder U o t
  newDecoder : ∀ t c P e, Inv U o c P → newDecoder U o fuel t c = .err e → e = .invalidType ∧ NoDecoder U o t
  cacheEncoder : ∀ t h c P e, Inv U o c P → cacheEncoder U o fuel t h c = .err e → e = .invalidType ∧ NoEncoder U o t
  newEncoder : ∀ t h c P e, Inv U o c P → newEncoder U o fuel t h c = .err e → e = .invalidType ∧ NoEncoder U o t
  newStructCodec : ∀ t j c P e, Inv U o c P → U.base t = .struct j → newStructCodec U o fuel t j c = .err e →
    e = .invalidType ∧ NoFields U o (U.fields j) 0 [] []
  mergeFields : ∀ r t fields i idx c P fs ks e, Inv U o c P → P r → c.objs[r]? = some (.struct t fs) →
    All2 (FieldOk U o c.objs) fs ks → mergeFields U o fuel r fields i idx c = .err e → e = .invalidType ∧ NoFields U o fields i idx ks
  addField : ∀ r t (k : Cand) c P fs ks e, Inv U o c P → P r → c.objs[r]? = some (.struct t fs) →
    All2 (FieldOk U o c.objs) fs ks → addField U o fuel r k.typ k.key k.hint k.index c = .err e →
    e = .invalidType ∧ addCand ks k = ks ++ [k] ∧ (NoDecoder U o k.typ ∨ NoEncoder U o k.typ)
  buildField : ∀ r (k : Cand) c P e, Inv U o c P → buildField U o fuel r k.typ k.key k.hint k.index c = .err e →
    e = .invalidType ∧ (NoDecoder U o k.typ ∨ NoEncoder U o k.typ)

variable {U o}

theorem rejects_zero : Rejects U o 0 := by
  refine ⟨?_, ?_, ?_, ?_, ?_, ?_, ?_, ?_⟩ <;> intros <;> rename_i h <;>
    simp only [cacheDecoder, newDecoder, cacheEncoder, newEncoder, newStructCodec, mergeFields, addField, buildField] at h <;>
    cases h

theorem rejects_newDecoder (hU : U.Ok) {fuel : Nat} (R : Rejects U o fuel) : ∀ t c P e, Inv U o c P → newDecoder U o (fuel + 1) t c = .err e →
    e = .invalidType ∧ NoDecoder U o t := by
  intro t c P e hi h
  simp only [newDecoder] at h
  cases hm : decMeth U t with
  | some d => rw [hm] at h; cases h
  | none =>
    rw [hm] at h
    have hm' := decMeth_none.1 hm
    cases hb : U.base t with
    | iface m i =>
      simp only [hb] at h
      by_cases h0 : m = 0
      · rw [if_pos h0] at h; cases h
      · rw [if_neg h0] at h; cases h; exact ⟨rfl, .iface hm' hb h0⟩
    | other => simp only [hb] at h; cases h; exact ⟨rfl, .other hm' hb⟩
    | named i => exact absurd hb (base_not_named hU t i)
    | struct j =>
      simp only [hb] at h
      obtain ⟨h1, h2⟩ := R.newStructCodec _ _ _ _ _ hi hb (bind_err_of h fun _ => noErr_pure _)
      exact ⟨h1, .struct hm' hb h2⟩
    | ptr e =>
      simp only [hb] at h
      obtain ⟨c2, i2, h2⟩ := alloc_err hi h (fun objs r hs => ⟨e, hb, hs⟩)
      obtain ⟨h3, h4⟩ := R.cacheDecoder _ _ _ _ i2 h2
      exact ⟨h3, .ptr hm' hb h4⟩
    | slice e =>
      simp only [hb] at h
      obtain ⟨c2, i2, h2⟩ := alloc_err hi h (fun objs r hs => ⟨e, hb, hs⟩)
      obtain ⟨h3, h4⟩ := R.cacheDecoder _ _ _ _ i2 h2
      exact ⟨h3, .slice hm' hb h4⟩
    | array n e =>
      simp only [hb] at h
      obtain ⟨c2, i2, h2⟩ := alloc_err hi h (fun objs r hs => ⟨n, e, hb, hs⟩)
      obtain ⟨h3, h4⟩ := R.cacheDecoder _ _ _ _ i2 h2
      exact ⟨h3, .array hm' hb h4⟩
    | map k e =>
      simp only [hb] at h
      by_cases hk : keyOk U k = true
      · rw [if_pos hk] at h
        obtain ⟨c2, i2, h2⟩ := alloc_err hi h (fun objs r hs => ⟨k, e, hb, hk, hs⟩)
        obtain ⟨h3, h4⟩ := R.cacheDecoder _ _ _ _ i2 h2
        exact ⟨h3, .map hm' hb h4⟩
      · rw [if_neg hk] at h; cases h
        unfold keyOk at hk
        simp at hk
        exact ⟨rfl, .key hm' hb hk.1 hk.2⟩
    | _ => simp only [hb] at h; cases h

theorem rejects_newEncoder (hU : U.Ok) {fuel : Nat} (R : Rejects U o fuel) : ∀ t hh c P e, Inv U o c P → newEncoder U o (fuel + 1) t hh c = .err e →
    e = .invalidType ∧ NoEncoder U o t := by
  intro t hh c P e hi h
  simp only [newEncoder] at h
  cases hm : encMeth U t with
  | some d => rw [hm] at h; cases h
  | none =>
    rw [hm] at h
    have hm' := encMeth_none.1 hm
    cases hb : U.base t with
    | iface m i =>
      simp only [hb] at h
      by_cases h0 : m = 0
      · rw [if_pos h0] at h; cases h
      · rw [if_neg h0] at h; cases h; exact ⟨rfl, .iface hm' hb h0⟩
    | other => simp only [hb] at h; cases h; exact ⟨rfl, .other hm' hb⟩
    | named i => exact absurd hb (base_not_named hU t i)
    | float k => cases k <;> (simp only [hb] at h; cases h)
    | struct j =>
      simp only [hb] at h
      obtain ⟨h1, h2⟩ := R.newStructCodec _ _ _ _ _ hi hb (bind_err_of h fun _ => noErr_pure _)
      exact ⟨h1, .struct hm' hb h2⟩
    | ptr e =>
      simp only [hb] at h
      obtain ⟨c2, i2, h2⟩ := alloc_err hi h (fun objs r hs => ⟨e, hb, hs⟩)
      obtain ⟨h3, h4⟩ := R.cacheEncoder _ _ _ _ _ i2 h2
      exact ⟨h3, .ptr hm' hb h4⟩
    | slice e =>
      simp only [hb] at h
      obtain ⟨c2, i2, h2⟩ := alloc_err hi h (fun objs r hs => ⟨e, hb, hs⟩)
      obtain ⟨h3, h4⟩ := R.cacheEncoder _ _ _ _ _ i2 h2
      exact ⟨h3, .slice hm' hb h4⟩
    | array n e =>
      simp only [hb] at h
      obtain ⟨c2, i2, h2⟩ := alloc_err hi h (fun objs r hs => ⟨n, e, hb, hs⟩)
      obtain ⟨h3, h4⟩ := R.cacheEncoder _ _ _ _ _ i2 h2
      exact ⟨h3, .array hm' hb h4⟩
    | map k e =>
      simp only [hb] at h
      cases hk : keyEnc U k with
      | some ke =>
        rw [hk] at h
        obtain ⟨c2, i2, h2⟩ := alloc_err hi h (fun objs r hs => ⟨k, e, ke, hb, hk, hs⟩)
        obtain ⟨h3, h4⟩ := R.cacheEncoder _ _ _ _ _ i2 h2
        exact ⟨h3, .map hm' hb h4⟩
      | none =>
        rw [hk] at h; cases h
        unfold keyEnc at hk
        by_cases h1 : U.impl k .textMarshaler = true
        · rw [if_pos h1] at hk; cases hk
        · rw [if_neg h1] at hk
          by_cases h2 : U.base k = .string
          · rw [if_pos h2] at hk; cases hk
          · exact ⟨rfl, .key hm' hb (by simpa using h1) h2⟩
    | _ => simp only [hb] at h; cases h

theorem rejects_mergeFields {fuel : Nat} (R : Rejects U o fuel) : ∀ r t fields i idx c P fs ks e, Inv U o c P → P r → c.objs[r]? = some (.struct t fs) →
    All2 (FieldOk U o c.objs) fs ks → mergeFields U o (fuel + 1) r fields i idx c = .err e → e = .invalidType ∧ NoFields U o fields i idx ks := by
  intro r t fields i idx c P fs ks e hi hP hx ha h
  cases fields with
  | nil => simp only [mergeFields] at h; cases h
  | cons f fields =>
    simp only [mergeFields] at h
    by_cases he : f.exported = false
    · rw [if_pos he] at h
      obtain ⟨h1, h2⟩ := R.mergeFields _ _ _ _ _ _ _ _ _ _ hi hP hx ha h
      exact ⟨h1, .skip (.inl he) h2⟩
    · rw [if_neg he] at h
      by_cases hn : (o.parseField f).1 = b!"-"
      · rw [if_pos hn] at h
        obtain ⟨h1, h2⟩ := R.mergeFields _ _ _ _ _ _ _ _ _ _ hi hP hx ha h
        exact ⟨h1, .skip (.inr hn) h2⟩
      · rw [if_neg hn] at h
        have he' : f.exported = true := by simpa using he
        have B := build U o fuel
        cases hq : embedding U f (o.parseField f).2.2 (idx ++ [(i : Int)]) with
        | mk idx' j? =>
          rw [hq] at h
          cases j? with
          | some j =>
            rcases bind_err h with h | ⟨_, c1, h1, h⟩
            · obtain ⟨h1, h2⟩ := R.mergeFields _ _ _ _ _ _ _ _ _ _ hi hP hx ha h
              exact ⟨h1, .inner he' hn hq h2⟩
            · obtain ⟨cs, q1, i1, _, _, fs1, x1, a1⟩ := B.mergeFields _ _ _ _ _ _ _ _ _ _ hi hP hx ha h1
              obtain ⟨h1, h2⟩ := R.mergeFields _ _ _ _ _ _ _ _ _ _ i1 hP x1 a1 h
              exact ⟨h1, .outer he' hn hq q1 h2⟩
          | none =>
            rcases bind_err h with h | ⟨_, c1, h1, h⟩
            · obtain ⟨h1, h2, h3⟩ := R.addField r t ⟨(o.parseField f).1, idx', f.typ, (o.parseField f).2.1⟩ _ _ _ _ _ hi hP hx ha h
              rcases h3 with h3 | h3
              · exact ⟨h1, .decoder he' hn hq rfl h2 h3⟩
              · exact ⟨h1, .encoder he' hn hq rfl h2 h3⟩
            · obtain ⟨i1, _, _, fs1, x1, a1⟩ := B.addField r t ⟨(o.parseField f).1, idx', f.typ, (o.parseField f).2.1⟩ _ _ _ _ _ hi hP hx ha h1
              obtain ⟨h1, h2⟩ := R.mergeFields _ _ _ _ _ _ _ _ _ _ i1 hP x1 a1 h
              exact ⟨h1, .later he' hn hq rfl h2⟩

theorem rejects_addField {fuel : Nat} (R : Rejects U o fuel) : ∀ r t (k : Cand) c P fs ks e, Inv U o c P → P r → c.objs[r]? = some (.struct t fs) →
    All2 (FieldOk U o c.objs) fs ks → addField U o (fuel + 1) r k.typ k.key k.hint k.index c = .err e →
    e = .invalidType ∧ addCand ks k = ks ++ [k] ∧ (NoDecoder U o k.typ ∨ NoEncoder U o k.typ) := by
  intro r t k c P fs ks e hi hP hx ha h
  simp only [addField] at h
  rcases bind_err h with h | ⟨_, _, h0, h⟩
  · exact absurd h (noErr_get _ _)
  obtain ⟨rfl, rfl⟩ := get_ok.1 h0
  have hfo : c.fieldsOf r = fs := by unfold Codecs.fieldsOf; rw [hx]
  rw [hfo] at h
  unfold addCand
  rcases getCodec_find k.key ha with ⟨g1, g2⟩ | ⟨f, k', g1, g2, g3⟩
  · rw [g1] at h; rw [g2]
    obtain ⟨h1, h2⟩ := R.buildField _ _ _ _ _ hi h
    exact ⟨h1, rfl, h2⟩
  · rw [g1] at h; rw [g2]
    simp only [g3.index] at h ⊢
    by_cases hcmp : cmpIndex k'.index k.index ≠ -1
    · rw [if_pos hcmp] at h; cases h
    · rw [if_neg hcmp] at h ⊢
      obtain ⟨h1, h2⟩ := R.buildField _ _ _ _ _ hi h
      exact ⟨h1, rfl, h2⟩

theorem rejects_buildField {fuel : Nat} (R : Rejects U o fuel) : ∀ r (k : Cand) c P e, Inv U o c P →
    buildField U o (fuel + 1) r k.typ k.key k.hint k.index c = .err e → e = .invalidType ∧ (NoDecoder U o k.typ ∨ NoEncoder U o k.typ) := by
  intro r k c P e hi h
  simp only [buildField] at h
  rcases bind_err h with h | ⟨d, c1, h1, h⟩
  · obtain ⟨h1, h2⟩ := R.cacheDecoder _ _ _ _ hi h
    exact ⟨h1, .inl h2⟩
  · obtain ⟨i1, _, _⟩ := (build U o fuel).cacheDecoder _ _ _ _ _ hi h1
    rcases bind_err h with h | ⟨en, c2, h2, h⟩
    · obtain ⟨h1, h2⟩ := R.cacheEncoder _ _ _ _ _ i1 h
      exact ⟨h1, .inr h2⟩
    · rcases bind_err h with h | ⟨_, c3, h3, h⟩
      · exact absurd h (fieldOmiter_noErr U o fuel _ _ _ _ _)
      · exact absurd h (noErr_upd _ _ _ _)

theorem rejects_newStructCodec {fuel : Nat} (R : Rejects U o fuel) : ∀ t j c P e, Inv U o c P → U.base t = .struct j →
    newStructCodec U o (fuel + 1) t j c = .err e → e = .invalidType ∧ NoFields U o (U.fields j) 0 [] [] := by
  intro t j c P e hi hb h
  simp only [newStructCodec] at h
  rcases bind_err h with h | ⟨_, _, h0, h⟩
  · exact absurd h (noErr_get _ _)
  obtain ⟨rfl, rfl⟩ := get_ok.1 h0
  cases hf : (c.find t Hint.none).bind CV.asStruct with
  | some d' => simp only [hf] at h; cases h
  | none =>
    simp only [hf] at h
    rcases bind_err h with h | ⟨r1, c1, h1, h⟩
    · exact absurd h (noErr_alloc _ _ _)
    rcases bind_err h with h' | ⟨_, c2, h2, h3⟩
    · exact absurd h' (noErr_put _ _ _ _ _)
    have h4 := bind_err_of h3 fun _ => noErr_pure _
    obtain ⟨rfl, rfl⟩ := alloc_ok.1 h1
    have h2 := put_ok.1 h2
    have hx : (c.objs ++ [Obj.struct t []])[c.objs.length]? = some (.struct t []) := by simp
    have i2 : Inv U o c2 (fun r' => P r' ∨ r' = c.objs.length) := by
      rw [← h2]; exact (hi.alloc _).put ⟨j, hb, by unfold sh; rw [hx]; rfl⟩
    have hx2 : c2.objs[c.objs.length]? = some (.struct t []) := by rw [← h2]; exact hx
    exact R.mergeFields _ t _ _ _ _ _ [] [] _ i2 (.inr rfl) hx2 .nil h4

theorem rejects_cacheDecoder {fuel : Nat} (R : Rejects U o fuel) : ∀ t c P e, Inv U o c P → cacheDecoder U o (fuel + 1) t c = .err e →
    e = .invalidType ∧ NoDecoder U o t := by
  intro t c P e hi h
  simp only [cacheDecoder] at h
  rcases bind_err h with h | ⟨_, _, h0, h⟩
  · exact absurd h (noErr_get _ _)
  obtain ⟨rfl, rfl⟩ := get_ok.1 h0
  cases hf : (c.find t Hint.none).bind CV.asDec with
  | some d' => simp only [hf] at h; cases h
  | none =>
    simp only [hf] at h
    exact R.newDecoder _ _ _ _ hi (bind_err_of h fun _ => (noErr_put _ _ _).bind fun _ => noErr_pure _)

theorem rejects_cacheEncoder {fuel : Nat} (R : Rejects U o fuel) : ∀ t hh c P e, Inv U o c P → cacheEncoder U o (fuel + 1) t hh c = .err e →
    e = .invalidType ∧ NoEncoder U o t := by
  intro t hh c P e hi h
  simp only [cacheEncoder] at h
  rcases bind_err h with h | ⟨_, _, h0, h⟩
  · exact absurd h (noErr_get _ _)
  obtain ⟨rfl, rfl⟩ := get_ok.1 h0
  cases hf : (c.find t hh).bind CV.asEnc with
  | some d' => simp only [hf] at h; cases h
  | none =>
    simp only [hf] at h
    exact R.newEncoder _ _ _ _ _ hi (bind_err_of h fun _ => (noErr_put _ _ _).bind fun _ => noErr_pure _)

variable (U o)

theorem rejects (hU : U.Ok) : ∀ fuel, Rejects U o fuel
  | 0 => rejects_zero
  | fuel + 1 => by
    have R := rejects hU fuel
    exact ⟨rejects_cacheDecoder R, rejects_newDecoder hU R, rejects_cacheEncoder R, rejects_newEncoder hU R, rejects_newStructCodec R,
      rejects_mergeFields R, rejects_addField R, rejects_buildField R⟩

variable {U o}

/-! ## Conversely -/

theorem mem_addCand {ks : List Cand} {k c : Cand} (h : c ∈ ks) : c ∈ addCand ks k := by
  unfold addCand
  split
  · split
    · exact h
    · simp [h]
  · simp [h]

theorem mem_resolve {cs : List Cand} : ∀ {ks : List Cand} {c : Cand}, c ∈ ks → c ∈ resolve ks cs := by
  induction cs with
  | nil => intro ks c h; exact h
  | cons k cs ih => intro ks c h; rw [resolve_cons]; exact ih (mem_addCand h)

theorem All2.mem_rightM {α β : Type} {R : α → β → Prop} {l : List α} {m : List β} (h : All2 R l m) : ∀ b ∈ m, ∃ a ∈ l, R a b := by
  induction h with
  | nil => intro b hb; simp at hb
  | cons h1 _ ih =>
    intro b hb
    rcases List.mem_cons.1 hb with rfl | hb
    · exact ⟨_, by simp, h1⟩
    · obtain ⟨a, ha, hr⟩ := ih b hb; exact ⟨a, by simp [ha], hr⟩

theorem cands_det {fs : List Field} {i : Nat} {idx : List Int} {cs : List Cand} (h : Cands U o fs i idx cs) :
    ∀ {cs'}, Cands U o fs i idx cs' → cs = cs' := by
  induction h with
  | nil => intro cs' h'; cases h'; rfl
  | skip h1 _ ih =>
    intro cs' h'
    cases h' with
    | skip _ h2 => exact ih h2
    | embed a b _ _ _ => rcases h1 with h1 | h1 <;> simp_all
    | field a b _ _ => rcases h1 with h1 | h1 <;> simp_all
  | embed a b c _ _ ih1 ih2 =>
    intro cs' h'
    cases h' with
    | skip h1 h2 => rcases h1 with h1 | h1 <;> simp_all
    | embed _ _ c' d' e' => rw [c] at c'; cases c'; rw [ih1 d', ih2 e']
    | field _ _ c' _ => rw [c] at c'; cases c'
  | field a b c _ ih =>
    intro cs' h'
    cases h' with
    | skip h1 h2 => rcases h1 with h1 | h1 <;> simp_all
    | embed _ _ c' d' e' => rw [c] at c'; cases c'
    | field _ _ c' d' => rw [c] at c'; cases c'; rw [ih d']

theorem store_noEncoder {objs : List Obj} (hs : StoreOk U o objs) {t : Ty} (h : NoEncoder U o t) : ∀ e hh, ¬ EncIs U o objs e t hh := by
  refine NoEncoder.rec (U := U) (o := o) (motive_1 := fun t _ => ∀ e hh, ¬ EncIs U o objs e t hh) (motive_2 := fun t _ => ∀ d, ¬ DecIs U objs d t)
    (motive_3 := fun fs i idx acc _ => ∀ cs, Cands U o fs i idx cs → ∀ l, All2 (FieldOk U o objs) l (resolve acc cs) → False)
    ?_ ?_ ?_ ?_ ?_ ?_ ?_ ?_ ?_ ?_ ?_ ?_ ?_ ?_ ?_ ?_ ?_ ?_ ?_ ?_ ?_ ?_ h
  case refine_1 =>
    intro t hm hb e hh he
    cases e <;> simp [EncIs, hb] at he <;> exact absurd hm (marshalMeth_ne (by simp) he)
  case refine_2 =>
    intro t n i hm hb hn e hh he
    cases e <;> simp [EncIs, hb] at he
    case iface => exact hn he
    all_goals exact absurd hm (marshalMeth_ne (by simp) he)
  case refine_3 =>
    intro t k e hm hb hk1 hk2 e hh he
    cases e <;> simp [EncIs, hb] at he
    case map => obtain ⟨ke, hk, _⟩ := he; unfold keyEnc at hk; simp [hk1, hk2] at hk
    all_goals exact absurd hm (marshalMeth_ne (by simp) he)
  case refine_4 =>
    intro t el hm hb _ ih e hh he
    cases e <;> (try (simp [EncIs, hb] at he))
    case ptr r => obtain ⟨e', _, he'⟩ := store_ptr hs hb he; exact ih _ _ he'
    all_goals exact absurd hm (marshalMeth_ne (by simp) he)
  case refine_5 =>
    intro t el hm hb _ ih e hh he
    cases e <;> (try (simp [EncIs, hb] at he))
    case slice r => obtain ⟨e', _, he'⟩ := store_slice hs hb he; exact ih _ _ he'
    all_goals exact absurd hm (marshalMeth_ne (by simp) he)
  case refine_6 =>
    intro t n el hm hb _ ih e hh he
    cases e <;> (try (simp [EncIs, hb] at he))
    case array r => obtain ⟨e', _, he'⟩ := store_array hs hb he; exact ih _ _ he'
    all_goals exact absurd hm (marshalMeth_ne (by simp) he)
  case refine_7 =>
    intro t k el hm hb _ ih e hh he
    cases e <;> (try (simp [EncIs, hb] at he))
    case map r => obtain ⟨ke, _, he⟩ := he; obtain ⟨e', _, he'⟩ := store_map hs hb he; exact ih _ _ he'
    all_goals exact absurd hm (marshalMeth_ne (by simp) he)
  case refine_8 =>
    intro t j hm hb _ ih e hh he
    cases e <;> (try (simp [EncIs, hb] at he))
    case struct r => obtain ⟨fs, cs, _, hc, ha⟩ := store_struct hs hb he; exact ih _ hc _ ha
    all_goals exact absurd hm (marshalMeth_ne (by simp) he)
  case refine_9 =>
    intro t hm hb e he
    cases e <;> simp [DecIs, hb] at he <;> exact absurd hm (unmarshalMeth_ne (by simp) he)
  case refine_10 =>
    intro t n i hm hb hn e he
    cases e <;> simp [DecIs, hb] at he
    case iface => exact hn he
    all_goals exact absurd hm (unmarshalMeth_ne (by simp) he)
  case refine_11 =>
    intro t k e hm hb hk1 hk2 e he
    cases e <;> simp [DecIs, hb] at he
    case map => have hk := he.1; unfold keyOk at hk; simp [hk1, hk2] at hk
    all_goals exact absurd hm (unmarshalMeth_ne (by simp) he)
  case refine_12 =>
    intro t el hm hb _ ih e he
    cases e <;> (try (simp [DecIs, hb] at he))
    case ptr r =>
      obtain ⟨x, h1, h2⟩ := sh_some he
      cases x <;> simp [Obj.shape] at h2
      subst h2
      obtain ⟨d', rfl, q3⟩ := hs r _ h1
      exact ih _ q3
    all_goals exact absurd hm (unmarshalMeth_ne (by simp) he)
  case refine_13 =>
    intro t el hm hb _ ih e he
    cases e <;> (try (simp [DecIs, hb] at he))
    case slice r =>
      obtain ⟨x, h1, h2⟩ := sh_some he
      cases x <;> simp [Obj.shape] at h2
      subst h2
      obtain ⟨e', d', hb', rfl, q3⟩ := hs r _ h1
      rw [hb] at hb'; cases hb'
      exact ih _ q3
    all_goals exact absurd hm (unmarshalMeth_ne (by simp) he)
  case refine_14 =>
    intro t n el hm hb _ ih e he
    cases e <;> (try (simp [DecIs, hb] at he))
    case array r =>
      obtain ⟨x, h1, h2⟩ := sh_some he
      cases x <;> simp [Obj.shape] at h2
      obtain ⟨rfl, rfl⟩ := h2
      obtain ⟨d', rfl, q3⟩ := hs r _ h1
      exact ih _ q3
    all_goals exact absurd hm (unmarshalMeth_ne (by simp) he)
  case refine_15 =>
    intro t k el hm hb _ ih e he
    cases e <;> (try (simp [DecIs, hb] at he))
    case map r =>
      obtain ⟨x, h1, h2⟩ := sh_some he.2
      cases x <;> simp [Obj.shape] at h2
      subst h2
      obtain ⟨k', e', d', hb', rfl, q3⟩ := hs r _ h1
      rw [hb] at hb'; cases hb'
      exact ih _ q3
    all_goals exact absurd hm (unmarshalMeth_ne (by simp) he)
  case refine_16 =>
    intro t j hm hb _ ih e he
    cases e <;> (try (simp [DecIs, hb] at he))
    case struct r => obtain ⟨fs, cs, _, hc, ha⟩ := store_struct hs hb he; exact ih _ hc _ ha
    all_goals exact absurd hm (unmarshalMeth_ne (by simp) he)
  case refine_17 =>
    intro f fs i idx acc h1 _ ih cs hc l ha
    cases hc with
    | skip _ h2 => exact ih _ h2 _ ha
    | embed a b _ _ _ => rcases h1 with h1 | h1 <;> simp_all
    | field a b _ _ => rcases h1 with h1 | h1 <;> simp_all
  case refine_18 =>
    intro f fs i idx acc idx' j a b c _ ih cs hc l ha
    cases hc with
    | skip h1 _ => rcases h1 with h1 | h1 <;> simp_all
    | field _ _ c' _ => rw [c] at c'; cases c'
    | @embed _ _ _ _ cs1 ds _ _ _ _ c' d' e' =>
      rw [c] at c'; cases c'
      rw [resolve_append] at ha
      have : ∃ l', All2 (FieldOk U o objs) l' (resolve acc cs1) := by
        clear c d' e' ih
        generalize resolve acc cs1 = ks at ha
        induction ds generalizing ks l with
        | nil => exact ⟨l, ha⟩
        | cons k ds ihd =>
          rw [resolve_cons] at ha
          obtain ⟨l', hl'⟩ := ihd _ _ ha
          unfold addCand at hl'
          have split2 : ∀ l', All2 (FieldOk U o objs) l' (ks ++ [k]) → ∃ l'', All2 (FieldOk U o objs) l'' ks := by
            clear hl' ihd ha
            induction ks with
            | nil => intro _ _; exact ⟨[], .nil⟩
            | cons x ks ihk =>
              intro l' hl'
              cases hl' with
              | cons h1 h2 => obtain ⟨l'', h3⟩ := ihk _ h2; exact ⟨_, .cons h1 h3⟩
          split at hl'
          · split at hl'
            · exact ⟨_, hl'⟩
            · exact split2 _ hl'
          · exact split2 _ hl'
      obtain ⟨l', hl'⟩ := this
      exact ih _ d' _ hl'
  case refine_19 =>
    intro f fs i idx acc idx' j cs1 a b c hc1 _ ih cs hc l ha
    cases hc with
    | skip h1 _ => rcases h1 with h1 | h1 <;> simp_all
    | field _ _ c' _ => rw [c] at c'; cases c'
    | embed _ _ c' d' e' =>
      rw [c] at c'; cases c'
      rw [resolve_append, cands_det d' hc1] at ha
      exact ih _ e' _ ha
  case refine_20 =>
    intro f fs i idx acc idx' k a b c hk hadd _ ih cs hc l ha
    cases hc with
    | skip h1 _ => rcases h1 with h1 | h1 <;> simp_all
    | embed _ _ c' _ _ => rw [c] at c'; cases c'
    | field _ _ c' d' =>
      rw [c] at c'; cases c'
      rw [resolve_cons, ← hk, hadd] at ha
      obtain ⟨x, _, hx⟩ := ha.mem_rightM k (mem_resolve (by simp))
      have := hx.dec
      rw [hk] at this
      exact ih _ this
  case refine_21 =>
    intro f fs i idx acc idx' k a b c hk hadd _ ih cs hc l ha
    cases hc with
    | skip h1 _ => rcases h1 with h1 | h1 <;> simp_all
    | embed _ _ c' _ _ => rw [c] at c'; cases c'
    | field _ _ c' d' =>
      rw [c] at c'; cases c'
      rw [resolve_cons, ← hk, hadd] at ha
      obtain ⟨x, _, hx⟩ := ha.mem_rightM k (mem_resolve (by simp))
      have := hx.enc
      rw [hk] at this
      exact ih _ _ this
  case refine_22 =>
    intro f fs i idx acc idx' k a b c hk _ ih cs hc l ha
    cases hc with
    | skip h1 _ => rcases h1 with h1 | h1 <;> simp_all
    | embed _ _ c' _ _ => rw [c] at c'; cases c'
    | field _ _ c' d' =>
      rw [c] at c'; cases c'
      rw [resolve_cons, ← hk] at ha
      exact ih _ d' _ ha

end

/-- `newTypeEncoder` for a type that is no pointer type. -/
theorem newTypeEncoder_val {U : Univ} {o : Options} {fuel : Nat} {t : Ty} (hne : ∀ e, U.base t ≠ .ptr e) :
    newTypeEncoder U o fuel t = match encMeth U (.ptr t) with
      | some e => .ok ⟨t, e, []⟩
      | none =>
        match newEncoder U o.normalize fuel t Hint.none Codecs.empty with
        | .ok (e, c) => .ok ⟨t, e, c.objs⟩
        | .err e => .err e
        | .diverge => .diverge := by
  unfold newTypeEncoder
  cases hb : U.base t with
  | ptr e => exact absurd hb (hne e)
  | _ => rfl

/-- `newTypeEncoder` for a pointer type. -/
theorem newTypeEncoder_ptr {U : Univ} {o : Options} {fuel : Nat} {t el : Ty} (hb : U.base t = .ptr el) :
    newTypeEncoder U o fuel t = match encMeth U t with
      | some e => .ok ⟨el, e, []⟩
      | none =>
        match newEncoder U o.normalize fuel el Hint.none Codecs.empty with
        | .ok (e, c) => .ok ⟨el, e, c.objs⟩
        | .err e => .err e
        | .diverge => .diverge := by
  unfold newTypeEncoder
  rw [hb]
  rfl

/-- When `newTypeEncoder` returns an encoder and when an error. -/
theorem newTypeEncoder_cases {U : Univ} (hU : U.Ok) {o : Options} {fuel : Nat} {t : Ty} :
    (∀ m, newTypeEncoder U o fuel t = .ok m → (∀ e, U.base t = .ptr e → marshalMeth U t = none → ¬ NoEncoder U o.normalize e) ∧
      ((∀ e, U.base t ≠ .ptr e) → marshalMeth U (.ptr t) = none → ¬ NoEncoder U o.normalize t)) ∧
    (∀ e, newTypeEncoder U o fuel t = .err e → e = .invalidType ∧
      ((∃ e, U.base t = .ptr e ∧ marshalMeth U t = none ∧ NoEncoder U o.normalize e) ∨
       ((∀ e, U.base t ≠ .ptr e) ∧ marshalMeth U (.ptr t) = none ∧ NoEncoder U o.normalize t))) := by
  have key : ∀ t' e c, newEncoder U o.normalize fuel t' Hint.none Codecs.empty = .ok (e, c) → ¬ NoEncoder U o.normalize t' := by
    intro t' e c hq hn
    obtain ⟨hs, he⟩ := newEncoder_store hq
    exact store_noEncoder hs hn _ _ he
  have key2 : ∀ t' e, newEncoder U o.normalize fuel t' Hint.none Codecs.empty = .err e → e = .invalidType ∧ NoEncoder U o.normalize t' :=
    fun t' e hq => (rejects U o.normalize hU fuel).newEncoder _ _ _ _ _ (inv_empty U _) hq
  by_cases hp : ∃ e, U.base t = .ptr e
  · obtain ⟨el, hb⟩ := hp
    constructor
    · intro m h
      refine ⟨?_, fun hne => absurd hb (hne _)⟩
      intro e hb' hm
      rw [hb] at hb'; cases hb'
      unfold newTypeEncoder at h
      simp only [hb, encMeth_none.2 hm] at h
      cases hq : newEncoder U o.normalize fuel el Hint.none Codecs.empty with
      | ok x => exact key _ _ _ hq
      | err _ => rw [hq] at h; cases h
      | diverge => rw [hq] at h; cases h
    · intro e h
      unfold newTypeEncoder at h
      simp only [hb] at h
      cases hm : encMeth U t with
      | some _ => rw [hm] at h; cases h
      | none =>
        rw [hm] at h
        cases hq : newEncoder U o.normalize fuel el Hint.none Codecs.empty with
        | ok x => rw [hq] at h; cases h
        | err e' =>
          rw [hq] at h; cases h
          obtain ⟨h1, h2⟩ := key2 _ _ hq
          exact ⟨h1, .inl ⟨el, hb, encMeth_none.1 hm, h2⟩⟩
        | diverge => rw [hq] at h; cases h
  · have hne : ∀ e, U.base t ≠ .ptr e := fun e h => hp ⟨e, h⟩
    constructor
    · intro m h
      refine ⟨fun e hb => absurd hb (hne e), fun _ hm => ?_⟩
      rw [newTypeEncoder_val hne, encMeth_none.2 hm] at h
      dsimp only at h
      cases hq : newEncoder U o.normalize fuel t Hint.none Codecs.empty with
      | ok x => exact key _ _ _ hq
      | err _ => rw [hq] at h; cases h
      | diverge => rw [hq] at h; cases h
    · intro e h
      rw [newTypeEncoder_val hne] at h
      cases hm : encMeth U (.ptr t) with
      | some _ => rw [hm] at h; cases h
      | none =>
        rw [hm] at h
        cases hq : newEncoder U o.normalize fuel t Hint.none Codecs.empty with
        | ok x => rw [hq] at h; cases h
        | err e' =>
          rw [hq] at h; cases h
          obtain ⟨h1, h2⟩ := key2 _ _ hq
          exact ⟨h1, .inr ⟨hne, encMeth_none.1 hm, h2⟩⟩
        | diverge => rw [hq] at h; cases h

end Verif.Unjson
