import Verif.Proofs.UnExample

/-! # What Marshal writes (C47) -/

namespace Verif.Props
open Verif Verif.Float Verif.Spec Verif.Njson Verif.Unjson

/-! ## C47 -/

/-- Every result of `AppendJSON` on a value without marshal methods: it is an error, or `out` followed by the text of a
tree that the value is encoded as. It does not panic. -/
theorem C47_encodes {U : Univ} (hE : U.EmbedsStructs) (hO : U.NoOmitMethod) (hF : U.GoFloats) {t : Ty} {v : GV}
    (hv : MarshalArg U t v) (fuel : Nat) (out : Bytes) (r : Out Bytes) (h : Unjson.appendJSON U fuel out (some (t, v)) = some r) :
    (∃ j, r = .done (out ++ j.ser) none ∧ MarshalsAs U t v j) ∨ ∃ b e, r = .done b (some e) := by
  unfold Unjson.appendJSON at h
  simp only at h
  cases hq : newTypeEncoder U {} fuel t with
  | diverge => rw [hq] at h; cases h
  | err e => rw [hq] at h; cases h; exact .inr ⟨_, _, rfl⟩
  | ok m =>
    rw [hq] at h
    simp only [TypeEncoder.encode] at h
    rcases hv with ⟨hb, hn, hp⟩ | ⟨e, x, rfl, hb, hn, hp⟩
    · obtain ⟨m1, m2, m3⟩ := newTypeEncoder_ok (.inl ⟨hb, rfl, hn⟩) hq
      have h' : encode U m.objs fuel m.enc out ⟨t, v, false⟩ = some r := by
        cases hbt : U.base t <;> first | exact absurd hbt (hb _) | (simp only [hbt] at h; rw [if_pos m1.symm] at h; exact h)
      rcases encode_spec hE hO hF.floatText fuel _ _ m2 _ _ _ _ _ _ _ m3 hp h' with ⟨j, h1, h2⟩ | he
      · exact .inl ⟨j, h1, .inl ⟨hb, h2⟩⟩
      · exact .inr he
    · obtain ⟨m1, m2, m3⟩ := newTypeEncoder_ok (.inr ⟨hb, hn⟩) hq
      simp only [hb] at h
      rw [if_pos m1.symm] at h
      rcases encode_spec hE hO hF.floatText fuel _ _ m2 _ _ _ _ _ _ _ m3 hp h with ⟨j, h1, h2⟩ | he
      · exact .inl ⟨j, h1, .inr ⟨e, x, rfl, hb, h2⟩⟩
      · exact .inr he

theorem marshalsAs_raw {U : Univ} (hF : U.GoFloats) (hT : U.PlainTags defaultOptions) {t : Ty} {v : GV} {j : JVal}
    (h : MarshalsAs U t v j) (hq : AllFlt Fits32 v) : AllRaw (EscOf (AllStr GoodText v) GoodText) RfcBody RfcNumber j := by
  rcases h with ⟨_, h⟩ | ⟨e, x, rfl, _, h⟩
  · exact encodes_raw hF hT _ _ h rfl (by simp [Hint.none]) hq id
  · exact encodes_raw hF hT _ _ h rfl (by simp [Hint.none]) (by cases hq with | ptr h => exact h) (fun g => by cases g with | ptr h => exact h)

/-- **C47 (partial)**: for values without marshal methods of types whose field names need no escaping and that do not use
the 8bit hint, with floats that do not overflow a float32: `AppendJSON` fails or returns `out` followed by an RFC 8259 value, which `Parse` reads, with the right
tree and an empty tail, *exactly when* every string in the tree contains a quote or does not end in a backslash.
Missing from the full claim: the texts with other strings, for which it is false (`C47_false`); field names and 8bit
strings, which are written unescaped (`C47_false_raw`); floats that overflow a float32, which are written as `+Inf`
(`C47_false_float`). -/
theorem C47_valid_partial {U : Univ} (hE : U.EmbedsStructs) (hO : U.NoOmitMethod) (hF : U.GoFloats) (hT : U.PlainTags defaultOptions)
    {t : Ty} {v : GV} (hv : MarshalArg U t v) (hq : AllFlt Fits32 v) (fuel : Nat) (out : Bytes) (r : Out Bytes)
    (h : Unjson.appendJSON U fuel out (some (t, v)) = some r) :
    (∃ text j, r = .done (out ++ text) none ∧ MarshalsAs U t v j ∧ RfcValue text j ∧ ∀ d : Doc, d.Wf →
      ((∃ d' id, Parses d text d' id j []) ↔ AllRaw GoodEnd (fun _ => True) (fun _ => True) j)) ∨
    ∃ b e, r = .done b (some e) := by
  rcases C47_encodes hE hO hF hv fuel out r h with ⟨j, h1, h2⟩ | he
  · have hr := marshalsAs_raw hF hT h2 hq
    refine .inl ⟨j.ser, j, h1, h2, ?_, fun d hd => ⟨fun ⟨d', id, hp⟩ => ?_, fun hg => ?_⟩⟩
    · apply ser_gval
      refine (allRaw_mono (fun s hs => ?_) (fun _ h => h) (fun _ h => h)).1 j hr
      obtain ⟨s, html, rfl, _⟩ := hs
      exact (C03_escaped_legal s html).1
    · obtain ⟨w, v, q1, q2, q3, q4⟩ := (C11_language d hd _ j []).1 ⟨d', id, hp⟩
      refine (allRaw_mono (fun s hs => ?_) (fun _ _ => trivial) (fun _ _ => trivial)).1 j (gval_allRaw q3)
      rcases hs with ⟨_, hs⟩ | ⟨p, q, hs, _⟩
      · exact Or.inr hs
      · left; rw [hs]; simp
    · have hl : AllRaw LenientStr EscBody LenientNum j := by
        refine (allRaw_mono (fun s hs => ?_) (fun s hs => ?_) (fun s hs => ?_)).1 j (allRaw_and.1 j hg hr)
        · obtain ⟨hg, x, html, rfl, _⟩ := hs
          exact escBody_lenient (rfcBody_escBody (C03_escaped_legal x html).1) hg
        · exact rfcBody_escBody hs.2
        · exact rfcNumber_lenient hs.2
      exact (parses_iff hd).2 ⟨_, treeParse_ser hl⟩
  · exact .inr he

/-- **C47 (partial)**, in terms of the value: when every string in it contains a quote or does not end in a backslash,
then the text is read back. -/
theorem C47_parse_partial {U : Univ} (hE : U.EmbedsStructs) (hO : U.NoOmitMethod) (hF : U.GoFloats) (hT : U.PlainTags defaultOptions)
    {t : Ty} {v : GV} (hv : MarshalArg U t v) (hq : AllFlt Fits32 v) (hg : AllStr GoodText v) (fuel : Nat) (out : Bytes) (r : Out Bytes)
    (h : Unjson.appendJSON U fuel out (some (t, v)) = some r) (d : Doc) (hd : d.Wf) :
    (∃ text j d' id, r = .done (out ++ text) none ∧ MarshalsAs U t v j ∧ Parses d text d' id j []) ∨ ∃ b e, r = .done b (some e) := by
  rcases C47_valid_partial hE hO hF hT hv hq fuel out r h with ⟨text, j, h1, h2, _, h3⟩ | he
  · have : AllRaw GoodEnd (fun _ => True) (fun _ => True) j := by
      refine (allRaw_mono (fun s hs => ?_) (fun _ _ => trivial) (fun _ _ => trivial)).1 j (marshalsAs_raw hF hT h2 hq)
      obtain ⟨s, html, rfl, h⟩ := hs
      exact (goodEnd_escaped s html).2 (h hg)
    obtain ⟨d', id, hp⟩ := (h3 d hd).2 this
    exact .inl ⟨text, j, d', id, h1, h2, hp⟩
  · exact .inr he

theorem rfcBody_ascii : ∀ s : Bytes, (∀ b ∈ s, 32 ≤ b ∧ b < 127 ∧ b ≠ 34 ∧ b ≠ 92) → RfcBody s := by
  intro s
  induction s with
  | nil => intro _; exact .nil
  | cons c s ih =>
    intro h
    have h1 := h c (by simp)
    have key : ∀ c : UInt8, 32 ≤ c ∧ c < 127 ∧ c ≠ 34 ∧ c ≠ 92 → Unescapable (Char.ofNat c.toNat) ∧ enc (Char.ofNat c.toNat) = [c] := by
      apply forall_byte; unfold Unescapable; decide +kernel
    have := RfcBody.char _ (key c h1).1 (ih fun b hb => h b (by simp [hb]))
    rw [(key c h1).2] at this
    exact this

theorem exU_tags : exU.PlainTags defaultOptions := by
  intro j f hf _
  have : (∀ b ∈ (defaultOptions.parseField f).1, 32 ≤ b ∧ b < 127 ∧ b ≠ 34 ∧ b ≠ 92) ∧ (defaultOptions.parseField f).2.1.raw = false := by
    unfold exU exFields at hf
    dsimp only at hf
    split at hf <;> simp at hf
    all_goals rcases hf with rfl | rfl | rfl <;> decide +kernel
  exact ⟨rfcBody_ascii _ this.1, by simp [this.2]⟩

/-- A list of two elements of the recursive struct type 0. -/
def exList : GV := .struct [.int (-12), .str b!"a\"b", .ptr (.struct [.int 3, .str [], .nilPtr])]

theorem exList_arg : MarshalArg exU (.ptr (.struct 0)) (.ptr exList) := by
  have nm : ∀ t, (t ≠ .struct 5 ∧ t ≠ .ptr (.struct 5)) → NoMarshal exU t := by
    intro t ⟨h1, h2⟩; unfold NoMarshal exU; simp [h1, h2]
  refine .inr ⟨.struct 0, exList, rfl, rfl, nm _ (by decide), ?_⟩
  have p1 : ∀ i, Plain exU (.int .std) (.int i) := fun i => .int (nm _ (by decide)) rfl
  have p2 : ∀ s, Plain exU .string (.str s) := fun s => .str (nm _ (by decide)) rfl
  have p4 : ∀ i s p, Plain exU (.ptr (.struct 0)) p → Plain exU (.struct 0) (.struct [.int i, .str s, p]) := by
    intro i s p hp
    refine .struct (nm _ (by decide)) rfl (by rfl) ?_
    intro k f v hf hv _
    match k, hf, hv with
    | 0, hf, hv => cases hf; cases hv; exact p1 _
    | 1, hf, hv => cases hf; cases hv; exact p2 _
    | 2, hf, hv => cases hf; cases hv; exact hp
    | (k + 3), hf, hv => cases hf
  exact p4 _ _ _ (.ptr (nm _ (by decide)) rfl (p4 _ _ _ (.nilPtr (nm _ (by decide)) rfl)))

/-- The hypotheses hold for a linked list, and marshalling it succeeds. -/
example : MarshalArg exU (.ptr (.struct 0)) (.ptr exList) ∧ AllFlt Fits32 (.ptr exList) ∧ AllStr GoodText (.ptr exList) ∧
    Unjson.appendJSON exU 30 b!">" (some (.ptr (.struct 0), .ptr exList)) =
      some (.done b!">{\"A\":-12,\"b\":\"a\\\"b\",\"next\":{\"A\":3,\"b\":\"\"}}" none) := by
  have key : ∀ {P : Bytes → Prop} {Q : Flt → Prop}, P b!"a\"b" → P [] → AllLeaf P Q (.ptr exList) := by
    intro P Q h1 h2
    refine .ptr (.struct ?_)
    intro x hx
    simp at hx
    rcases hx with rfl | rfl | rfl
    · exact .int
    · exact .str h1
    · refine .ptr (.struct ?_)
      intro x hx
      simp at hx
      rcases hx with rfl | rfl | rfl
      · exact .int
      · exact .str h2
      · exact .nilPtr
  exact ⟨exList_arg, key trivial trivial, key (by unfold GoodText; decide) (by unfold GoodText; decide), eq_of_sameB (by decide +kernel)⟩

/-- **C47 is false** of the code: the text of the string of one backslash is not accepted by `Parse`. -/
theorem C47_false : ∃ r, Unjson.appendJSON exU 30 [] (some (.string, .str b!"\\")) = some (.done r none) ∧
    MarshalArg exU .string (.str b!"\\") ∧ ¬ ∃ d' id t, Parses Doc.empty r d' id t [] := by
  refine ⟨b!"\"\\\\\"", eq_of_sameB (by decide +kernel), .inl ⟨(fun e h => by cases h), ⟨rfl, rfl, rfl⟩, .str ⟨rfl, rfl, rfl⟩ rfl⟩, ?_⟩
  rintro ⟨d', id, t, h⟩
  obtain ⟨pos, hp⟩ := (parses_iff empty_wf).1 ⟨d', id, h⟩
  revert hp
  have : (match treeParse b!"\"\\\\\"" with | .ok _ _ _ => false | _ => true) = true := by decide +kernel
  intro hp
  rw [hp] at this
  cases this

/-- Field names are written as they are: a quote in a field name makes the text invalid. -/
theorem C47_false_raw : ∃ U : Univ, U.EmbedsStructs ∧ U.NoOmitMethod ∧ U.GoFloats ∧ MarshalArg U (.struct 0) (.struct [.bool true]) ∧
    ∃ r, Unjson.appendJSON U 30 [] (some (.struct 0, .struct [.bool true])) = some (.done r none) ∧
      ¬ ∃ d' id t, Parses Doc.empty r d' id t [] := by
  refine ⟨{ exU with fields := fun _ => [fld b!"A" .bool b!"\""] }, ?_, exU_omit, ⟨exU_floats.plain, exU_floats.exp, exU_floats.over, exU_floats.single⟩, .inl ⟨(fun e h => by cases h), ⟨rfl, rfl, rfl⟩, ?_⟩,
    b!"{\"\"\":true}", eq_of_sameB (by decide +kernel), ?_⟩
  · intro j f e hf ha
    simp at hf
    subst hf
    cases ha
  · refine .struct ⟨rfl, rfl, rfl⟩ rfl rfl ?_
    intro i f v hf hv _
    cases i with
    | zero => cases hf; cases hv; exact .bool ⟨rfl, rfl, rfl⟩ rfl
    | succ i => cases hf
  · rintro ⟨d', id, t, h⟩
    obtain ⟨pos, hp⟩ := (parses_iff empty_wf).1 ⟨d', id, h⟩
    have : (match treeParse b!"{\"\"\":true}" with | .ok _ _ _ => false | _ => true) = true := by decide +kernel
    rw [hp] at this
    cases this

/-- A finite float64 beyond the range of float32 is written as `+Inf`, whatever universe: strconv is called with bit
size 32. The text is not JSON. -/
theorem C47_false_float {U : Univ} (hF : U.GoFloats) (hn : NoMarshal U (.float .b64)) (hn' : NoMarshal U (.ptr (.float .b64)))
    (m : Nat) (e : Int) (hm : NumJson.toF32 (.fin m e) = .inf) (fuel : Nat) (hf : 2 ≤ fuel) :
    marshal U fuel (some (.float .b64, .float (.num false (.fin m e)))) = some (.done b!"+Inf" none) ∧
    ∀ d : Doc, d.Wf → ¬ ∃ d' id t tail, Parses d b!"+Inf" d' id t tail := by
  obtain ⟨k, rfl⟩ : ∃ k, fuel = k + 2 := ⟨fuel - 2, by omega⟩
  constructor
  · have h1 : encMeth U (.ptr (.float .b64)) = none := by unfold encMeth; simp [hn'.1, hn'.2.1, hn'.2.2]
    have h2 : encMeth U (.float .b64) = none := by unfold encMeth; simp [hn.1, hn.2.1, hn.2.2]
    unfold marshal Unjson.appendJSON newTypeEncoder
    simp only [Univ.base, h1, newEncoder, h2, Bld.pure, TypeEncoder.encode, if_true, encode, encFloat]
    have := appendFloat_append hF.floatText [] false m e
    rw [this]
    unfold floatText NumJson.appendFloat
    simp only [hF.over _ _ _ _ hm]
    split <;> rfl
  · rintro d hd ⟨d', id, t, r, h⟩
    obtain ⟨pos, hp⟩ := (parses_iff hd).1 ⟨d', id, h⟩
    have : (match treeParse b!"+Inf" with | .ok _ _ _ => false | _ => true) = true := by decide +kernel
    rw [hp] at this
    cases this

/-- A float64 that overflows float32. -/
example : IsFloat f64 6617444900424222 76 ∧ NumJson.toF32 (.fin 6617444900424222 76) = .inf := by
  unfold IsFloat; decide +kernel

end Verif.Props
