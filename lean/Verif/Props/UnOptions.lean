import Verif.Spec.UnOptions
import Verif.Props.UnMarshal
import Verif.Props.UnUnmarshal

/-! # Encoders and decoders with options (C68, C69, C70) -/

namespace Verif.Props
open Verif Verif.Float Verif.Spec Verif.Njson Verif.Unjson

theorem inForce_eq {o o' : Options} (h : InForce o o') : o' = o.normalize := by
  cases o'; cases o
  obtain ⟨h1, h2, h3, h4, h5, h6, h7⟩ := h
  simp only at *
  subst h5 h6 h7
  unfold Options.normalize
  simp only [defaultTag, defaultOmitMethod, Options.mk.injEq, true_and, and_true]
  constructor
  · split
    · rename_i h; exact h1 h
    · rename_i h; exact h2 h
  · split
    · rename_i h; exact h3 h
    · rename_i h; exact h4 h

/-- For all options there are options in force. -/
theorem inForce_exists (o : Options) : InForce o o.normalize := by
  constructor <;> intros <;> simp_all [Options.normalize, defaultTag, defaultOmitMethod]

/-- **C68**: an `Encoder` from `NewTypeEncoder(typ, options)` returns an error or `out` followed by the text of a tree that
the value is encoded as under the options in force. -/
theorem C68_encodes {U : Univ} (hE : U.EmbedsStructs) (hO : U.NoOmitMethod) (hF : U.GoFloats) {o o' : Options} (ho : InForce o o')
    {t : Ty} {v : GV} (hv : MarshalArg U t v) (fuel : Nat) (m : TypeEncoder) (hm : newTypeEncoder U o fuel t = .ok m)
    (fuel' : Nat) (out : Bytes) (r : Out Bytes) (h : m.encodeArg U fuel' out (some (t, v)) = some r) :
    (∃ j, r = .done (out ++ j.ser) none ∧ EncodesArg U o' t v j) ∨ ∃ b e, r = .done b (some e) := by
  cases inForce_eq ho
  simp only [TypeEncoder.encodeArg, TypeEncoder.encode] at h
  rcases hv with ⟨hb, hn, hp⟩ | ⟨e, x, rfl, hb, hn, hp⟩
  · obtain ⟨m1, m2, m3⟩ := newTypeEncoder_ok (.inl ⟨hb, rfl, hn⟩) hm
    have h' : encode U m.objs fuel' m.enc out ⟨t, v, false⟩ = some r := by
      cases hbt : U.base t <;> first | exact absurd hbt (hb _) | (simp only [hbt] at h; rw [if_pos m1.symm] at h; exact h)
    rcases encode_spec hE hO hF.floatText fuel' _ _ m2 _ _ _ _ _ _ _ m3 hp h' with ⟨j, h1, h2⟩ | he
    · exact .inl ⟨j, h1, .inl ⟨hb, h2⟩⟩
    · exact .inr he
  · obtain ⟨m1, m2, m3⟩ := newTypeEncoder_ok (.inr ⟨hb, hn⟩) hm
    simp only [hb] at h
    rw [if_pos m1.symm] at h
    rcases encode_spec hE hO hF.floatText fuel' _ _ m2 _ _ _ _ _ _ _ m3 hp h with ⟨j, h1, h2⟩ | he
    · exact .inl ⟨j, h1, .inr ⟨e, x, rfl, hb, h2⟩⟩
    · exact .inr he

/-- A struct type with two tags on its only field: `struct { A float64 "json:\"a\" yaml:\"b,omitempty\"" }`. -/
def exTags : Univ := { exU with
  fields := fun j => if j = 0 then [⟨b!"A", [(b!"json", b!"a"), (b!"yaml", b!"b,omitempty")], false, true, .float .b64⟩] else exFields j
  zeroStruct := fun j => if j = 0 then .struct [.float (.num false (.fin 0 f64.emin))] else exZero j }

/-- What an encoder made with the given options does. -/
def encodeWith (U : Univ) (o : Options) (fuel : Nat) (t : Ty) (v : GV) : Option (Out Bytes) :=
  match newTypeEncoder U o fuel t with
  | .ok m => m.encodeArg U fuel [] (some (t, v))
  | _ => none

/-- The hypotheses hold, and options matter: the name comes from the chosen tag, NaN is written when it is allowed. -/
example : InForce { tag := b!"yaml", allowNaN := true } { tag := b!"yaml", omitMethod := b!"Omit", allowNaN := true } ∧
    MarshalArg exTags (.struct 0) (.struct [.float .nan]) ∧
    encodeWith exTags { tag := b!"yaml", allowNaN := true } 10 (.struct 0) (.struct [.float .nan]) = some (.done b!"{\"b\":NaN}" none) ∧
    encodeWith exTags {} 10 (.struct 0) (.struct [.float (.num false (.fin 0 f64.emin))]) = some (.done b!"{\"a\":0}" none) ∧
    encodeWith exTags { tag := b!"yaml" } 10 (.struct 0) (.struct [.float (.num false (.fin 0 f64.emin))]) = some (.done b!"{}" none) := by
  have nm : ∀ t, (t ≠ .struct 5 ∧ t ≠ .ptr (.struct 5)) → NoMarshal exTags t := by
    intro t ⟨h1, h2⟩; unfold NoMarshal exTags exU; simp [h1, h2]
  refine ⟨by constructor <;> simp, .inl ⟨by simp [Univ.base], nm _ (by decide), ?_⟩,
    eq_of_sameB (by decide +kernel), eq_of_sameB (by decide +kernel), eq_of_sameB (by decide +kernel)⟩
  refine .struct (j := 0) (nm _ (by decide)) rfl rfl ?_
  intro i f v hf hv _
  cases i with
  | zero => cases hf; cases hv; exact .float (k := .b64) (nm _ (by decide)) rfl
  | succ i => simp at hv

/-! ## C69 -/

theorem inForceTag_eq {tag : Bytes} {o' : Options} (h : InForceTag tag o') : o' = { tag := if tag = [] then defaultTag else tag } := by
  cases o'
  obtain ⟨h1, h2, h3, h4, h5, h6⟩ := h
  simp only at *
  subst h3 h4 h5 h6
  simp only [defaultTag, Options.mk.injEq, and_true]
  split
  · rename_i h; exact h1 h
  · rename_i h; exact h2 h

/-- **C69**: a `Decoder` from `NewTypeDecoder(typ, tag)` decodes every node of every document as the decoding rules say, with
field names from the tags with the given key. -/
theorem C69_decodes {U : Univ} (hU : U.Ok) (hE : U.EmbedsStructs) {tag : Bytes} {o' : Options} (ho : InForceTag tag o')
    {t e : Ty} {x : GV} (ha : UnmarshalArg U t e x) (fuel : Nat) (c : TypeDecoder) (hc : newTypeDecoder U tag fuel t = .ok c)
    (fuel' : Nat) (h : Heap) (n : Node) (j : JVal) (hn : Tree h n j) (r : Out (Option (Ty × GV)))
    (hr : c.decodeArg U fuel' h n (some (t, .ptr x)) = some r) :
    ∃ r', Decodes U o' e x j r' ∧ r = r'.map fun y => some (t, .ptr y) := by
  cases inForceTag_eq ho
  unfold newTypeDecoder at hc
  rw [ha.base] at hc
  simp only at hc
  rw [if_neg (by simp [ha.noMethod.1]), if_neg (by simp [ha.noMethod.2.1]), if_neg (by simp [ha.noMethod.2.2])] at hc
  cases hq : newDecoder U { tag := if tag = [] then defaultTag else tag } fuel e Codecs.empty with
  | diverge => rw [hq] at hc; cases hc
  | err e => rw [hq] at hc; cases hc
  | ok p =>
    obtain ⟨dec, cs⟩ := p
    rw [hq] at hc
    cases hc
    obtain ⟨hs, hdi⟩ := newDecoder_store hq
    simp only [TypeDecoder.decodeArg, TypeDecoder.decode, if_true, ha.base] at hr
    cases hdec : Unjson.decode U cs.objs h fuel' dec n ⟨e, x, true⟩ with
    | none => rw [hdec] at hr; cases hr
    | some r' =>
      rw [hdec] at hr
      refine ⟨r', decode_spec hU hE hs _ _ _ _ _ _ _ _ hdi ha.plain ha.typed hn hdec, ?_⟩
      cases r' <;> (cases hr; rfl)

/-- **C69** for `UnmarshalFromNode`: the tag key is "json". -/
theorem C69_from_node {U : Univ} (hU : U.Ok) (hE : U.EmbedsStructs) {o' : Options} (ho : InForceTag [] o')
    {t e : Ty} {x : GV} (ha : UnmarshalArg U t e x) (fuel : Nat) (h : Heap) (n : Node) (j : JVal) (hn : Tree h n j)
    (r : Out (Option (Ty × GV))) (hr : unmarshalFromNode U fuel h n (some (t, .ptr x)) = some r) :
    (∃ err, newTypeDecoder U [] fuel t = .err err ∧ r = .done (some (t, .ptr x)) (some err)) ∨
    ∃ r', Decodes U o' e x j r' ∧ r = r'.map fun y => some (t, .ptr y) := by
  unfold unmarshalFromNode at hr
  simp only at hr
  cases hq : newTypeDecoder U [] fuel t with
  | diverge => rw [hq] at hr; cases hr
  | err e => rw [hq] at hr; cases hr; exact .inl ⟨_, rfl, rfl⟩
  | ok c => rw [hq] at hr; exact .inr (C69_decodes hU hE ho ha fuel c hq fuel h n j hn r hr)

/-! ## C70 -/

/-- **C70**, encoding: an `Encoder` rejects the nil interface, and every value whose type is neither the type it was made for
nor a pointer to that; the output is what it was. A nil pointer, of whatever type, makes it panic instead. -/
theorem C70_encoder {U : Univ} {o : Options} {fuel : Nat} {t e : Ty} (he : IsEncTarget U t e) {m : TypeEncoder} (hm : newTypeEncoder U o fuel t = .ok m)
    (fuel' : Nat) (out : Bytes) :
    m.encodeArg U fuel' out none = some (.done out (some .invalidValueType)) ∧
    (∀ t' v, ¬ IsEncTarget U t' e → ((∃ e', U.base t' = .ptr e') → ∃ x, v = .ptr x) →
      m.encodeArg U fuel' out (some (t', v)) = some (.done out (some .invalidValueType))) ∧
    ∀ t' e', U.base t' = .ptr e' → m.encodeArg U fuel' out (some (t', .nilPtr)) = some .panic := by
  have hmt : m.typ = e := by
    unfold newTypeEncoder at hm
    have : (match U.base t with | .ptr e => e | _ => t) = e := by
      rcases he with hb | ⟨hb, rfl⟩
      · rw [hb]
      · cases hq : U.base e <;> first | rfl | exact absurd hq (hb _)
    simp only at hm
    split at hm
    · cases hm; exact this
    · split at hm
      · cases hm; exact this
      · cases hm
      · cases hm
  refine ⟨rfl, fun t' v hn hv => ?_, fun t' e' hb => by simp only [TypeEncoder.encodeArg, TypeEncoder.encode, hb]⟩
  simp only [TypeEncoder.encodeArg, TypeEncoder.encode, hmt]
  cases hb : U.base t' with
  | ptr e' =>
    obtain ⟨x, rfl⟩ := hv ⟨_, hb⟩
    simp only
    rw [if_neg]
    rintro rfl
    exact hn (.inl hb)
  | _ =>
    simp only
    rw [if_neg]
    rintro rfl
    exact hn (.inr ⟨by simp [hb], rfl⟩)

/-- **C70**, decoding: a `Decoder` for a pointer type without unmarshal methods rejects the nil interface and every value of
another type, and leaves it as it is. -/
theorem C70_decoder {U : Univ} {tag : Bytes} {fuel : Nat} {t e : Ty} (hb : U.base t = .ptr e) (hu : NoUnmarshal U t) {c : TypeDecoder}
    (hc : newTypeDecoder U tag fuel t = .ok c) (fuel' : Nat) (h : Heap) (n : Node) :
    c.decodeArg U fuel' h n none = some (.done none (some .invalidValueType)) ∧
    ∀ t' v, t' ≠ t → c.decodeArg U fuel' h n (some (t', v)) = some (.done (some (t', v)) (some .invalidValueType)) := by
  unfold newTypeDecoder at hc
  rw [hb] at hc
  simp only at hc
  rw [if_neg (by simp [hu.1]), if_neg (by simp [hu.2.1]), if_neg (by simp [hu.2.2])] at hc
  split at hc
  · cases hc
    refine ⟨rfl, fun t' v hn => ?_⟩
    simp only [TypeDecoder.decodeArg, TypeDecoder.decode]
    rw [if_neg hn]
  · cases hc
  · cases hc

/-- **C70**, the package functions: `AppendJSON(out, nil)` appends null; `Unmarshal` into nil and into values that are no
pointers is an error. -/
theorem C70_nil (U : Univ) (fuel : Nat) :
    (∀ out, Unjson.appendJSON U fuel out none = some (.done (out ++ b!"null") none)) ∧
    (∀ d s, unmarshal U fuel d s none = some (.done none (some .invalidValueType))) ∧
    (∀ h n, unmarshalFromNode U fuel h n none = some (.done none (some .invalidValueType))) ∧
    ∀ t v, (∀ e, U.base t ≠ .ptr e) → (∀ i, U.base t ≠ .iface 0 i) →
      (∀ d s, unmarshal U fuel d s (some (t, v)) = some (.done (some (t, v)) (some .invalidType))) ∧
      (∀ h n, unmarshalFromNode U fuel h n (some (t, v)) = some (.done (some (t, v)) (some .invalidType))) := by
  refine ⟨fun _ => rfl, fun _ _ => rfl, fun _ _ => rfl, fun t v h1 h2 => ?_⟩
  have hq : newTypeDecoder U [] fuel t = .err .invalidType := by
    unfold newTypeDecoder
    cases hb : U.base t with
    | ptr e => exact absurd hb (h1 e)
    | iface m i =>
      simp only
      rw [if_neg]
      rintro rfl; exact h2 _ hb
    | _ => rfl
  constructor
  · intro d s; unfold unmarshal; simp only [hq]
  · intro h n; unfold unmarshalFromNode; simp only [hq]

def isOk {α : Type} : Res α → Bool
  | .ok _ => true
  | _ => false

theorem ok_of_isOk {α : Type} {r : Res α} (h : isOk r = true) : ∃ m, r = .ok m := by
  cases r with
  | ok m => exact ⟨m, rfl⟩
  | _ => cases h

/-- The hypotheses hold; a value of another type is rejected. -/
example : IsEncTarget exU (.struct 0) (.struct 0) ∧ ¬ IsEncTarget exU (.ptr .string) (.struct 0) ∧
    NoUnmarshal exU (.ptr (.struct 0)) ∧ (∃ m, newTypeEncoder exU {} 30 (.struct 0) = .ok m) ∧ ∃ c, newTypeDecoder exU [] 30 (.ptr (.struct 0)) = .ok c := by
  refine ⟨.inr ⟨by simp [Univ.base], rfl⟩, ?_, exU_noUnmarshal _, ?_, ?_⟩
  · rintro (h | ⟨h, _⟩)
    · cases h
    · exact h _ rfl
  · exact ok_of_isOk (by decide +kernel)
  · exact ok_of_isOk (by decide +kernel)

end Verif.Props
