import Verif.Proofs.UnRejectD
import Verif.Proofs.UnExampleD
import Verif.Props.UnTotal

/-! # What Unmarshal does with types that have methods (C89) -/

namespace Verif.Props
open Verif Verif.Float Verif.Spec Verif.Njson Verif.Unjson

/-! ## The rules -/

/-- **C89**, `NewTypeDecoder`: a type is refused exactly if it is no pointer, or a pointer without unmarshal methods to something for
which there is no decoder. -/
theorem C89_refused {U : Univ} (hU : U.Ok) {tag : Bytes} {o' : Options} (ho : InForceTag tag o') {t : Ty} (hi : ∀ n i, U.base t ≠ .iface n i)
    {fuel : Nat} {q : Res TypeDecoder} (hq : newTypeDecoder U tag fuel t = q) (hd : q ≠ .diverge) :
    (RefusedArg U o' t → q = .err .invalidType) ∧ (¬ RefusedArg U o' t → ∃ c, q = .ok c) := by
  cases inForceTag_eq ho
  obtain ⟨h1, h2⟩ := newTypeDecoder_cases hU (tag := tag) (fuel := fuel) hi
  cases q with
  | diverge => exact absurd rfl hd
  | err e => obtain ⟨rfl, h⟩ := h2 _ hq; exact ⟨fun _ => rfl, fun hn => absurd h hn⟩
  | ok c => exact ⟨fun h => absurd h (h1 _ hq), fun _ => ⟨c, rfl⟩⟩

/-- **C89**, `Decoder`: a decoder made with any tag key decodes every node of every document into its argument as the rules
say. -/
theorem C89_decoder {U : Univ} {nm : NodeMeth} (hU : U.Reading nm) {tag : Bytes} {o' : Options} (ho : InForceTag tag o')
    {t : Ty} (hi : ∀ n i, U.base t ≠ .iface n i) {v : GV} (hv : HasTy U t v) {fuel : Nat} {c : TypeDecoder} (hc : newTypeDecoder U tag fuel t = .ok c)
    {fuel' : Nat} {h : Heap} {n : Node} {j : JVal} (hn : Tree h n j) {r : Out (Option (Ty × GV))}
    (hr : c.decodeArg U fuel' h n (some (t, v)) = some r) : ∃ r', ReadsArg U nm o' t v j r' ∧ r = r'.map fun y => some (t, y) := by
  cases inForceTag_eq ho
  unfold TypeDecoder.decodeArg at hr
  dsimp only at hr
  cases hq : c.decode U fuel' h n t v with
  | none => rw [hq] at hr; cases hr
  | some r' =>
    rw [hq] at hr
    refine ⟨r', typeDecoder_reads hU.ok hU.embeds hU.methods hU.paired hU.structs hi hc hn hv hq, ?_⟩
    cases r' <;> (cases hr; rfl)

/-- **C89**: every result of `Unmarshal`. -/
theorem C89_exact {U : Univ} {nm : NodeMeth} (hU : U.Reading nm) {t : Ty} (hi : ∀ n i, U.base t ≠ .iface n i) {v : GV} (hv : HasTy U t v)
    (fuel : Nat) {d : Doc} (hd : d.Wf) (s : Bytes) (r : Out (Option (Ty × GV))) (h : unmarshal U fuel d s (some (t, v)) = some r) :
    (RefusedArg U decodeOptions t ∧ r = .done (some (t, v)) (some .invalidType)) ∨
    (¬ RefusedArg U decodeOptions t ∧ (¬ ∃ d' id j tail, Parses d s d' id j tail) ∧ r = .done (some (t, v)) (some .parse)) ∨
    ∃ d' id j tail r', Parses d s d' id j tail ∧ ReadsArg U nm decodeOptions t v j r' ∧ r = r'.map fun y => some (t, y) := by
  have ho : InForceTag [] decodeOptions := ⟨fun _ => rfl, fun h => absurd rfl h, ⟨rfl, rfl, rfl, rfl⟩⟩
  unfold unmarshal at h
  dsimp only at h
  cases hq : newTypeDecoder U [] fuel t with
  | diverge => rw [hq] at h; cases h
  | err e =>
    rw [hq] at h; cases h
    obtain ⟨rfl, hr⟩ := (newTypeDecoder_cases hU.ok hi).2 _ hq
    exact .inl ⟨hr, rfl⟩
  | ok c =>
    rw [hq] at h
    have hnr : ¬ RefusedArg U decodeOptions t := (newTypeDecoder_cases hU.ok hi).1 _ hq
    dsimp only at h
    rcases heap_parse hd s with ⟨d', id, j, tail, hp, n, q1, q2, q3⟩ | ⟨q1, hp, n, out, q2, q3, q4⟩
    · rw [q2] at h
      obtain ⟨r', h1, h2⟩ := C89_decoder hU ho hi hv hq q3 (r := r) (fuel' := fuel) h
      exact .inr (.inr ⟨d', id, j, tail, r', q1, h1, h2⟩)
    · refine .inr (.inl ⟨hnr, q1, ?_⟩)
      rw [q2] at h
      cases out with
      | ok id tail => exact absurd rfl (q4 _ _)
      | crash => exact absurd rfl q3
      | _ => cases h; rfl

/-- **C89**, `UnmarshalFromNode` -/
theorem C89_from_node {U : Univ} {nm : NodeMeth} (hU : U.Reading nm) {t : Ty} (hi : ∀ n i, U.base t ≠ .iface n i) {v : GV} (hv : HasTy U t v)
    (fuel : Nat) {h : Heap} {n : Node} {j : JVal} (hn : Tree h n j) (r : Out (Option (Ty × GV)))
    (hr : unmarshalFromNode U fuel h n (some (t, v)) = some r) :
    (RefusedArg U decodeOptions t ∧ r = .done (some (t, v)) (some .invalidType)) ∨
    ∃ r', ReadsArg U nm decodeOptions t v j r' ∧ r = r'.map fun y => some (t, y) := by
  have ho : InForceTag [] decodeOptions := ⟨fun _ => rfl, fun h => absurd rfl h, ⟨rfl, rfl, rfl, rfl⟩⟩
  unfold unmarshalFromNode at hr
  dsimp only at hr
  cases hq : newTypeDecoder U [] fuel t with
  | diverge => rw [hq] at hr; cases hr
  | err e =>
    rw [hq] at hr; cases hr
    obtain ⟨rfl, hr⟩ := (newTypeDecoder_cases hU.ok hi).2 _ hq
    exact .inl ⟨hr, rfl⟩
  | ok c => rw [hq] at hr; exact .inr (C89_decoder hU ho hi hv hq hn (r := r) (fuel' := fuel) hr)

/-- **C89**: the rules give at most one result, and none for arguments that are refused. -/
theorem C89_one {U : Univ} {nm : NodeMeth} {o : Options} {t : Ty} {v : GV} {j : JVal} {r r' : Out GV} (h : ReadsArg U nm o t v j r) :
    (ReadsArg U nm o t v j r' → r = r') ∧ ¬ RefusedArg U o t := by
  constructor
  · intro h'
    cases h with
    | meth hb hm =>
      cases h' with
      | meth _ hm' => rw [hm] at hm'; cases hm'; rfl
      | ptr _ hm' => rw [hm] at hm'; cases hm'
      | nilNull _ hm' => rw [hm] at hm'; cases hm'
      | nilPtr _ hm' => rw [hm] at hm'; cases hm'
    | ptr hb hm _ hr =>
      cases h' with
      | meth _ hm' => rw [hm] at hm'; cases hm'
      | ptr hb' _ _ hr' => rw [hb] at hb'; cases hb'; rw [reads_unique hr _ hr']
    | nilNull hb hm =>
      cases h' with
      | meth _ hm' => rw [hm] at hm'; cases hm'
      | nilNull => rfl
      | nilPtr _ _ _ hj => exact absurd rfl hj
    | nilPtr hb hm _ hj =>
      cases h' with
      | meth _ hm' => rw [hm] at hm'; cases hm'
      | nilNull => exact absurd rfl hj
      | nilPtr => rfl
  · rintro (hne | ⟨hb', hm', hn⟩)
    · cases h with
      | meth hb => exact hne _ hb
      | ptr hb => exact hne _ hb
      | nilNull hb => exact hne _ hb
      | nilPtr hb => exact hne _ hb
    · cases h with
      | meth hb hm => rw [hm] at hm'; cases hm'
      | ptr hb _ h => rw [hb] at hb'; cases hb'; exact h hn
      | nilNull hb _ h => rw [hb] at hb'; cases hb'; exact h hn
      | nilPtr hb _ h => rw [hb] at hb'; cases hb'; exact h hn

/-- **C89**: `Unmarshal` returns, and so there is a result. -/
theorem C89_total {U : Univ} {nm : NodeMeth} (hU : U.Reading nm) {t : Ty} (hi : ∀ n i, U.base t ≠ .iface n i) {v : GV} (hv : HasTy U t v)
    (hF : ∀ e, U.base t = .ptr e → Finite U decodeOptions e ∧ ∀ t', Comp U e t' → PtrEnds U t') (hr : ¬ RefusedArg U decodeOptions t)
    {d : Doc} (hd : d.Wf) (s : Bytes) {d' : Doc} {id : Nat} {j : JVal} {tail : Bytes} (hp : Parses d s d' id j tail) :
    ∃ N r, ReadsArg U nm decodeOptions t v j r ∧ ∀ fuel, N ≤ fuel → unmarshal U fuel d s (some (t, v)) = some (r.map fun y => some (t, y)) := by
  obtain ⟨N, r, h⟩ := C74_returns hU.embeds v hF hd s
  rcases C89_exact hU hi hv N hd s r (h N (Nat.le_refl _)) with ⟨h1, _⟩ | ⟨_, h1, _⟩ | ⟨d2, id2, j2, tail2, r', h1, h2, h3⟩
  · exact absurd h1 hr
  · exact absurd ⟨_, _, _, _, hp⟩ h1
  · obtain ⟨rfl, rfl⟩ := parses_unique hd hp h1
    subst h3
    exact ⟨N, r', h2, h⟩

/-- **C89**: whatever the methods do, the argument holds a value of its type afterwards. -/
theorem C89_typed {U : Univ} {nm : NodeMeth} (hU : U.Reading nm) {t : Ty} (hi : ∀ n i, U.base t ≠ .iface n i) {v : GV} (hv : HasTy U t v)
    (fuel : Nat) {d : Doc} (hd : d.Wf) (s : Bytes) (y : Option (Ty × GV)) (err : Option UErr)
    (h : unmarshal U fuel d s (some (t, v)) = some (.done y err)) : ∃ z, y = some (t, z) ∧ HasTy U t z := by
  rcases C89_exact hU hi hv fuel hd s _ h with ⟨_, h⟩ | ⟨_, _, h⟩ | ⟨d', id, j, tail, r', h1, h2, h3⟩
  · cases h; exact ⟨v, rfl, hv⟩
  · cases h; exact ⟨v, rfl, hv⟩
  · cases r' with
    | panic => cases h3
    | done z e =>
      cases h3
      refine ⟨z, rfl, ?_⟩
      generalize hr : Out.done z err = r at h2
      cases h2 with
      | meth hb hm => exact callUnmarshal_hasTy hU.methods hv _ _ hr.symm
      | @ptr _ _ _ r hb _ _ hx =>
        cases r with
        | panic => cases hr
        | done w e =>
          cases hr
          cases hv with
          | ptr hb' hv => rw [hb] at hb'; cases hb'; exact .ptr hb (reads_hasTy hU.methods hU.ok hU.embeds hx hv _ _ rfl)
      | nilNull hb => cases hr; exact .nilPtr hb
      | nilPtr => cases hr

/-- **C89**: the result depends on the first value of the text only, whatever the methods do. -/
theorem C89_first_value {U : Univ} {nm : NodeMeth} (hU : U.Reading nm) {t : Ty} (hi : ∀ n i, U.base t ≠ .iface n i) {v : GV} (hv : HasTy U t v)
    (fuel1 fuel2 : Nat) {d1 d2 : Doc} (hd1 : d1.Wf) (hd2 : d2.Wf) (s1 s2 : Bytes) {d1' d2' : Doc} {id1 id2 : Nat} {j : JVal} {tail1 tail2 : Bytes}
    (hp1 : Parses d1 s1 d1' id1 j tail1) (hp2 : Parses d2 s2 d2' id2 j tail2) (r1 r2 : Out (Option (Ty × GV)))
    (h1 : unmarshal U fuel1 d1 s1 (some (t, v)) = some r1) (h2 : unmarshal U fuel2 d2 s2 (some (t, v)) = some r2) : r1 = r2 := by
  rcases C89_exact hU hi hv fuel1 hd1 s1 _ h1 with ⟨a1, rfl⟩ | ⟨_, a1, _⟩ | ⟨d', id, j', tail, r', a1, a2, rfl⟩
  · rcases C89_exact hU hi hv fuel2 hd2 s2 _ h2 with ⟨b1, rfl⟩ | ⟨_, b1, _⟩ | ⟨d', id, j', tail, r', b1, b2, rfl⟩
    · rfl
    · exact absurd ⟨_, _, _, _, hp2⟩ b1
    · exact absurd a1 (C89_one (r' := .panic) b2).2
  · exact absurd ⟨_, _, _, _, hp1⟩ a1
  · obtain ⟨rfl, rfl⟩ := parses_unique hd1 hp1 a1
    rcases C89_exact hU hi hv fuel2 hd2 s2 _ h2 with ⟨b1, rfl⟩ | ⟨_, b1, _⟩ | ⟨d2', id2', j2, tail2', r2', b1, b2, rfl⟩
    · exact absurd b1 (C89_one (r' := .panic) a2).2
    · exact absurd ⟨_, _, _, _, hp2⟩ b1
    · obtain ⟨rfl, rfl⟩ := parses_unique hd2 hp2 b1
      rw [(C89_one a2).1 b2]

/-! ## Methods -/

/-- **C89**, methods of the argument: if the pointer has `UnmarshalJSON` (and no `UnmarshalNodeJSON`), `Unmarshal` calls it once, with the
compact text of the first value; what it leaves and its error are the result, and `Unmarshal` panics when it does. -/
theorem C89_argument_partial {U : Univ} {nm : NodeMeth} (hU : U.Reading nm) {t e : Ty} (hb : U.base t = .ptr e) {v : GV} (hv : HasTy U t v)
    (hm : U.impl t .unmarshaler = false) (hj : U.impl t .jsonUnmarshaler = true)
    (fuel : Nat) {d : Doc} (hd : d.Wf) (s : Bytes) {d' : Doc} {id : Nat} {j : JVal} {tail : Bytes} (hp : Parses d s d' id j tail)
    (r : Out (Option (Ty × GV))) (h : unmarshal U fuel d s (some (t, v)) = some r) :
    r = (called (U.panics .jsonUnmarshaler t v j.ser) (U.unmarshal .jsonUnmarshaler t v j.ser)).map fun y => some (t, y) := by
  have hmeth : unmarshalMeth U t = some .jsonUnmarshaler := by unfold unmarshalMeth; simp [hm, hj]
  have hi : ∀ n i, U.base t ≠ .iface n i := by rw [hb]; intro _ _ h; cases h
  rcases C89_exact hU hi hv fuel hd s r h with ⟨h1, _⟩ | ⟨_, h1, _⟩ | ⟨d2, id2, j2, tail2, r', h1, h2, h3⟩
  · cases h1 with
    | value hne => exact absurd hb (hne _)
    | ptr _ hn => rw [hmeth] at hn; cases hn
  · exact absurd ⟨_, _, _, _, hp⟩ h1
  · obtain ⟨rfl, rfl⟩ := parses_unique hd hp h1
    rw [(C89_one h2).1 (.meth hb hmeth)] at h3
    rw [h3]
    unfold callUnmarshal
    rw [if_neg (by simp), hb]
    rfl

/-- **C89**, methods of elements: an `UnmarshalJSON` method of the type of a variable inside the argument is called with the compact text of the
value for it. Only methods of that type itself count, not those of the pointer to it. -/
theorem C89_inside {U : Univ} {nm : NodeMeth} {o : Options} {t : Ty} (hi : ∀ n i, U.base t ≠ .iface n i) {v : GV} {j : JVal} {r : Out GV}
    (h : Reads U nm o t v j r) :
    (U.impl t .unmarshaler = true → (∀ y, nm t v j = some y → r = called false y) ∧ (nm t v j = none → r = .panic)) ∧
    (U.impl t .unmarshaler = false → U.impl t .jsonUnmarshaler = true →
      r = called (U.panics .jsonUnmarshaler t v j.ser) (U.unmarshal .jsonUnmarshaler t v j.ser)) ∧
    (U.impl t .unmarshaler = false → U.impl t .jsonUnmarshaler = false → U.impl t .textUnmarshaler = true →
      (∀ s, j = .str s → r = called (U.panics .textUnmarshaler t v s) (U.unmarshal .textUnmarshaler t v s)) ∧
      ((∀ s, j ≠ .str s) → r = .done v (some (.typeError (jtyp j) tString)))) := by
  have call : ∀ m, unmarshalMeth U t = some m → (m = .textUnmarshaler → jtyp j = tString) →
      r = methOut U nm m t v j := by
    intro m hm hx
    rw [reads_unique h _ (.meth hm)]
    unfold callUnmarshal
    rw [if_neg (by rintro ⟨h1, h2⟩; exact h2 (hx h1))]
    split
    · exact absurd (by assumption) (hi _ _)
    · exact absurd (by assumption) (hi _ _)
    · rfl
  refine ⟨fun h1 => ?_, fun h1 h2 => ?_, fun h1 h2 h3 => ?_⟩
  · have := call .unmarshaler (by unfold unmarshalMeth; simp [h1]) (by simp)
    unfold methOut at this
    dsimp only at this
    exact ⟨fun y hy => by rw [hy] at this; exact this, fun hy => by rw [hy] at this; exact this⟩
  · exact call .jsonUnmarshaler (by unfold unmarshalMeth; simp [h1, h2]) (by simp)
  · have hm : unmarshalMeth U t = some .textUnmarshaler := by unfold unmarshalMeth; simp [h1, h2, h3]
    refine ⟨?_, fun hj => ?_⟩
    · rintro s rfl
      exact call .textUnmarshaler hm (fun _ => rfl)
    · rw [reads_unique h _ (.meth hm)]
      have hs : jtyp j ≠ tString := by
        intro hs
        cases j <;> first | exact hj _ rfl | (revert hs; simp only [jtyp]; decide)
      unfold callUnmarshal
      rw [if_pos ⟨rfl, hs⟩]

/-! ## Examples -/

theorem exD_time (s : Bytes) : HasTy (exD false) (.ptr (.struct 0)) (.ptr (.struct [.str s])) := by
  refine .ptr (e := .struct 0) rfl (.struct (j := 0) rfl rfl ?_)
  intro i f v hf hv
  cases i with
  | zero => cases hf; cases hv; exact .str rfl
  | succ i => cases i <;> cases hf

/-- The hypotheses hold for a pointer with `UnmarshalJSON`, and the method gets the value without the white space. -/
example : (exD false).Reading exDNode ∧ HasTy (exD false) (.ptr (.struct 0)) (.ptr (.struct [.str []])) ∧
    ¬ RefusedArg (exD false) decodeOptions (.ptr (.struct 0)) ∧
    (exD false).impl (.ptr (.struct 0)) .unmarshaler = false ∧ (exD false).impl (.ptr (.struct 0)) .jsonUnmarshaler = true ∧
    unmarshal (exD false) 30 Doc.empty b!" [1, \"a\" ] 7" (some (.ptr (.struct 0), .ptr (.struct [.str []]))) =
      some (.done (some (.ptr (.struct 0), .ptr (.struct [.str b!"[1,\"a\"]"]))) none) := by
  refine ⟨exD_reading, exD_time _, ?_, by decide, by decide, eq_of_sameX (by decide +kernel)⟩
  rintro (h | ⟨_, h, _⟩)
  · exact h _ rfl
  · revert h; decide

theorem exD_comp0 {t' : Ty} (h : Comp (exD false) (.struct 0) t') : t' = .struct 0 := by
  cases h with
  | refl => rfl
  | ptr hb => cases hb
  | slice hb => cases hb
  | array hb => cases hb
  | map hb => cases hb
  | field hb hf he =>
    cases hb
    rw [show (exD false).fields 0 = [⟨b!"s", [], false, false, .string⟩] from rfl] at hf
    rw [List.mem_singleton.1 hf] at he
    cases he

/-- The hypothesis of `C89_total` that types are finite holds in the example. -/
example : ∀ e, (exD false).base (.ptr (.struct 0)) = .ptr e → Finite (exD false) decodeOptions e ∧ ∀ t', Comp (exD false) e t' → PtrEnds (exD false) t' := by
  intro e he
  cases he
  refine ⟨⟨⟨[.struct 0], fun t' hc => by simp [exD_comp0 hc]⟩, fun t' hc => ?_, fun t' j hc hb => ?_⟩, fun t' hc => ?_⟩
  · rw [exD_comp0 hc]; exact .leaf (by simp [Univ.base])
  · rw [exD_comp0 hc] at hb; cases hb; exact ⟨_, .skip (.inl rfl) .nil⟩
  · rw [exD_comp0 hc]; exact .leaf (by simp [Univ.base])

/-- **C89 (false)**: that unmarshal methods are used wherever a value of their type is read is false. A type whose pointer type has
`UnmarshalJSON`, such as `time.Time`, is read with the method when its address is the argument. It is read without it when it is the type of
a field or of the elements of a slice: the text that the method accepts is an error then, or the elements are dropped without one, and an
object is accepted and ignored. When a field is a nil pointer, the method is called on the nil pointer and the field is not allocated.
`UnmarshalText` gets the text with its escapes. An interface with methods that holds nothing makes `Unmarshal` panic. A struct with a
field of an interface type that can unmarshal but not marshal is refused. -/
theorem C89_false : (exD false).Reading exDNode ∧
    unmarshal (exD false) 30 Doc.empty b!"\"2020\"" (some (.ptr (.struct 0), .ptr (.struct [.str []]))) =
      some (.done (some (.ptr (.struct 0), .ptr (.struct [.str b!"\"2020\""]))) none) ∧
    unmarshal (exD false) 30 Doc.empty b!"{\"T\":\"2020\"}" (some (.ptr (.struct 1), .ptr (.struct [.struct [.str []]]))) =
      some (.done (some (.ptr (.struct 1), .ptr (.struct [.struct [.str []]]))) (some (.typeError tString (tObject ||| tNull)))) ∧
    unmarshal (exD false) 30 Doc.empty b!"{\"L\":[\"2020\"]}" (some (.ptr (.struct 6), .ptr (.struct [.nilSlice]))) =
      some (.done (some (.ptr (.struct 6), .ptr (.struct [.slice [.struct [.str []]] 0]))) none) ∧
    unmarshal (exD false) 30 Doc.empty b!"{\"T\":{\"s\":\"x\"}}" (some (.ptr (.struct 1), .ptr (.struct [.struct [.str []]]))) =
      some (.done (some (.ptr (.struct 1), .ptr (.struct [.struct [.str []]]))) none) ∧
    unmarshal (exD false) 30 Doc.empty b!"{\"P\":\"2020\"}" (some (.ptr (.struct 2), .ptr (.struct [.ptr (.struct [.str []])]))) =
      some (.done (some (.ptr (.struct 2), .ptr (.struct [.ptr (.struct [.str b!"\"2020\""])]))) none) ∧
    unmarshal (exD false) 30 Doc.empty b!"{\"P\":\"2020\"}" (some (.ptr (.struct 2), .ptr (.struct [.nilPtr]))) =
      some (.done (some (.ptr (.struct 2), .ptr (.struct [.nilPtr]))) (some .hook)) ∧
    unmarshal (exD false) 30 Doc.empty b!"\"a\\nb\"" (some (.ptr (.named 0), .ptr (.str []))) =
      some (.done (some (.ptr (.named 0), .ptr (.str b!"a\\nb"))) none) ∧
    unmarshal (exD false) 30 Doc.empty b!"[1]" (some (.ptr (.slice (.named 1)), .ptr .nilSlice)) = some .panic ∧
    unmarshal (exD false) 30 Doc.empty b!"{}" (some (.ptr (.struct 3), .ptr (.struct [.nilIface]))) =
      some (.done (some (.ptr (.struct 3), .ptr (.struct [.nilIface]))) (some .invalidType)) :=
  ⟨exD_reading, eq_of_sameX (by decide +kernel), eq_of_sameX (by decide +kernel), eq_of_sameX (by decide +kernel), eq_of_sameX (by decide +kernel),
    eq_of_sameX (by decide +kernel), eq_of_sameX (by decide +kernel), eq_of_sameX (by decide +kernel), eq_of_isPanic (by decide +kernel),
    eq_of_sameX (by decide +kernel)⟩

/-- Without `StructsPaired` two fields of the same type are read in two ways: for the first the method of the type is called, for the second
it is not. -/
theorem C89_order : ¬ (exD true).StructsPaired ∧
    unmarshal (exD true) 30 Doc.empty b!"{\"A\":{}}" (some (.ptr (.struct 5), .ptr (.struct [.struct [], .struct []]))) =
      some (.done (some (.ptr (.struct 5), .ptr (.struct [.struct [], .struct []]))) (some .hook)) ∧
    unmarshal (exD true) 30 Doc.empty b!"{\"B\":{}}" (some (.ptr (.struct 5), .ptr (.struct [.struct [], .struct []]))) =
      some (.done (some (.ptr (.struct 5), .ptr (.struct [.struct [], .struct []]))) none) := by
  refine ⟨fun h => ?_, eq_of_sameX (by decide +kernel), eq_of_sameX (by decide +kernel)⟩
  exact h (.struct 4) rfl (by decide) (exD_noMarshal true _)

end Verif.Props
