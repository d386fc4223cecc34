import Verif.Proofs.UnAgain
import Verif.Proofs.UnExampleN
import Verif.Props.UnMethDec

/-! # Unmarshal of the same text into the same variable, again (C132) -/

namespace Verif.Props
open Verif Verif.Float Verif.Spec Verif.Njson Verif.Unjson

theorem readsArg_again {U : Univ} {nm : NodeMeth} (hU : U.Reading nm) (hA : MethodsAgain U nm) {o : Options} {t : Ty} {v y : GV} {j : JVal} {e : Option UErr}
    (hn : NamesOnce j) (h : ReadsArg U nm o t v j (.done y e)) : ReadsArg U nm o t y j (.done y e) := by
  generalize hr : Out.done y e = r at h
  cases h with
  | meth hb hm =>
    have := ReadsArg.meth (nm := nm) (o := o) (v := y) (j := j) hb hm
    rw [callUnmarshal_again hA hr.symm] at this
    rw [← hr]; exact this
  | ptr hb hm hd h =>
    obtain ⟨z, rfl, rfl⟩ := map_done hr.symm
    exact .ptr hb hm hd (reads_again hU.ok hU.embeds hA h hn z e rfl)
  | nilNull hb hm hd => cases hr; exact .nilNull hb hm hd
  | nilPtr => cases hr

theorem readsArg_typed {U : Univ} {nm : NodeMeth} (hU : U.Reading nm) {o : Options} {t : Ty} {v y : GV} {j : JVal} {e : Option UErr} (hv : HasTy U t v)
    (h : ReadsArg U nm o t v j (.done y e)) : HasTy U t y := by
  generalize hr : Out.done y e = r at h
  cases h with
  | meth hb hm => exact callUnmarshal_hasTy hU.methods hv _ _ hr.symm
  | ptr hb hm hd h =>
    obtain ⟨z, rfl, rfl⟩ := map_done hr.symm
    rcases hv.inv_ptr hb with h0 | ⟨x, h0, hx⟩
    · cases h0
    · cases h0
      exact .ptr hb (reads_hasTy hU.methods hU.ok hU.embeds h hx _ _ rfl)
  | nilNull hb hm hd => cases hr; exact hv
  | nilPtr => cases hr

/-- **C132**, a `Decoder` made with any tag key: a node in which no object has a name twice, decoded again into the variable, whether there was an error or not. -/
theorem C132_decoder_partial {U : Univ} {nm : NodeMeth} (hU : U.Reading nm) (hA : MethodsAgain U nm) {tag : Bytes} {o' : Options} (ho : InForceTag tag o')
    {t : Ty} (hi : ∀ n i, U.base t ≠ .iface n i) {v y : GV} (hv : HasTy U t v) {fuel : Nat} {c : TypeDecoder} (hc : newTypeDecoder U tag fuel t = .ok c)
    {f1 f2 : Nat} {h1 h2 : Heap} {n1 n2 : Node} {j : JVal} (hn1 : Tree h1 n1 j) (hn2 : Tree h2 n2 j) (hn : NamesOnce j) {e : Option UErr}
    (hr1 : c.decodeArg U f1 h1 n1 (some (t, v)) = some (.done (some (t, y)) e)) {r : Out (Option (Ty × GV))}
    (hr2 : c.decodeArg U f2 h2 n2 (some (t, y)) = some r) : r = .done (some (t, y)) e := by
  obtain ⟨q1, k1, hq⟩ := C89_decoder hU ho hi hv hc hn1 hr1
  cases q1 with
  | panic => cases hq
  | done z e' =>
    cases hq
    obtain ⟨q2, k2, rfl⟩ := C89_decoder hU ho hi (readsArg_typed hU hv k1) hc hn2 hr2
    rw [← (C89_one (readsArg_again hU hA hn k1)).1 k2]
    rfl

/-- **C132**: the second of two calls of `Unmarshal` with the same text and the same variable returns what the first one returned, an error or none, and leaves the
variable as it is, if no object of the text has a name twice. -/
theorem C132_unmarshal_partial {U : Univ} {nm : NodeMeth} (hU : U.Reading nm) (hA : MethodsAgain U nm) {t : Ty} (hi : ∀ n i, U.base t ≠ .iface n i)
    {v : GV} (hv : HasTy U t v) {f1 f2 : Nat} {d1 d2 : Doc} (hd1 : d1.Wf) (hd2 : d2.Wf) {s : Bytes}
    (hn : ∀ d' id j tail, Parses d1 s d' id j tail → NamesOnce j) {w : Option (Ty × GV)} {e : Option UErr}
    (h1 : unmarshal U f1 d1 s (some (t, v)) = some (.done w e)) {r : Out (Option (Ty × GV))} (h2 : unmarshal U f2 d2 s w = some r) : r = .done w e := by
  have hp : ∀ {d' id j tail}, Parses d1 s d' id j tail → ∀ {d'' id' j' tail'}, Parses d2 s d'' id' j' tail' → j' = j := by
    intro d' id j tail h d'' id' j' tail' h'
    obtain ⟨p, h⟩ := (parses_iff hd1).1 ⟨d', id, h⟩
    obtain ⟨q, h'⟩ := (parses_iff hd2).1 ⟨d'', id', h'⟩
    rw [h] at h'; cases h'; rfl
  have hq : (∃ d' id j tail, Parses d1 s d' id j tail) ↔ ∃ d' id j tail, Parses d2 s d' id j tail := by
    constructor
    · rintro ⟨d', id, j, tail, h⟩
      obtain ⟨d'', id', h⟩ := (parses_iff hd2).2 ((parses_iff hd1).1 ⟨d', id, h⟩)
      exact ⟨_, _, _, _, h⟩
    · rintro ⟨d', id, j, tail, h⟩
      obtain ⟨d'', id', h⟩ := (parses_iff hd1).2 ((parses_iff hd2).1 ⟨d', id, h⟩)
      exact ⟨_, _, _, _, h⟩
  rcases C89_exact hU hi hv f1 hd1 s _ h1 with ⟨k1, k⟩ | ⟨k1, k2, k⟩ | ⟨_, _, _, _, q1, k1, k2, k⟩
  · cases k
    rcases C89_exact hU hi hv f2 hd2 s _ h2 with ⟨_, rfl⟩ | ⟨l, _⟩ | ⟨_, _, _, _, _, _, l2, _⟩
    · rfl
    · exact absurd k1 l
    · exact absurd k1 (C89_one (r' := .panic) l2).2
  · cases k
    rcases C89_exact hU hi hv f2 hd2 s _ h2 with ⟨l, _⟩ | ⟨_, _, rfl⟩ | ⟨_, _, _, _, _, l, _, _⟩
    · exact absurd l k1
    · rfl
    · exact absurd (hq.2 ⟨_, _, _, _, l⟩) k2
  · cases q1 with
    | panic => cases k
    | done z e' =>
      cases k
      have hy := readsArg_typed hU hv k2
      rcases C89_exact hU hi hy f2 hd2 s _ h2 with ⟨l, _⟩ | ⟨_, l, _⟩ | ⟨_, _, _, _, q2, l1, l2, rfl⟩
      · exact absurd l (C89_one (r' := .panic) k2).2
      · exact absurd (hq.1 ⟨_, _, _, _, k1⟩) l
      · cases hp k1 l1
        rw [← (C89_one (readsArg_again hU hA (hn _ _ _ _ k1) k2)).1 l2]
        rfl

/-! ### Examples -/

theorem exN_again : MethodsAgain exN exNNode := by
  have key : ∀ t v s, exNUnmarshal t (exNUnmarshal t v s).1 s = exNUnmarshal t v s := by
    intro t v s
    cases v with
    | ptr x =>
      by_cases h1 : t = .ptr (.struct 0)
      · subst h1; rfl
      · by_cases h2 : t = .ptr (.named 1)
        · subst h2; rfl
        · simp [exNUnmarshal, h1, h2]
    | _ => rfl
  have hcall : ∀ m t v s y e, called (exN.panics m t v s) (exN.unmarshal m t v s) = .done y e → called (exN.panics m t y s) (exN.unmarshal m t y s) = .done y e := by
    intro m t v s y e h
    cases hp : exN.panics m t v s with
    | true => rw [hp] at h; cases h
    | false =>
      rw [hp] at h
      have hy : y = (exN.unmarshal m t v s).1 := by cases h; rfl
      have hq : exN.panics m t y s = false := by
        rw [hy]
        show (match (exNUnmarshal t v s).1 with | .nilPtr => decide (t = .ptr (.struct 0)) | _ => false) = false
        cases v with
        | ptr x =>
          by_cases h1 : t = .ptr (.struct 0)
          · subst h1; rfl
          · by_cases h2 : t = .ptr (.named 1)
            · subst h2; rfl
            · simp [exNUnmarshal, h1, h2]
        | nilPtr => exact hp
        | _ => rfl
      have hk : exN.unmarshal m t (exN.unmarshal m t v s).1 s = exN.unmarshal m t v s := key t v s
      rw [hq, hy, hk, h, hy]
  intro m t v j y e h
  cases m with
  | unmarshaler => cases h; rfl
  | textUnmarshaler => exact hcall _ _ _ _ _ _ h
  | _ => exact hcall _ _ _ _ _ _ h

/-- With a method that is called: a field `P` that is a pointer to a type with `UnmarshalJSON`. -/
example : exN.Reading exNNode ∧ MethodsAgain exN exNNode ∧ HasTy exN (.ptr (.struct 1)) (.ptr (.struct [.ptr (.struct [.str []])])) ∧
    unmarshal exN 30 Doc.empty b!"{\"P\":[7]}" (some (.ptr (.struct 1), .ptr (.struct [.ptr (.struct [.str []])]))) =
      some (.done (some (.ptr (.struct 1), .ptr (.struct [.ptr (.struct [.str b!"[7]"])]))) none) ∧
    unmarshal exN 30 Doc.empty b!"{\"P\":[7]}" (some (.ptr (.struct 1), .ptr (.struct [.ptr (.struct [.str b!"[7]"])]))) =
      some (.done (some (.ptr (.struct 1), .ptr (.struct [.ptr (.struct [.str b!"[7]"])]))) none) := by
  refine ⟨exN_reading, exN_again, ?_, eq_of_sameX (by decide +kernel), eq_of_sameX (by decide +kernel)⟩
  refine .ptr rfl (.struct rfl rfl ?_)
  intro i f v hf hv
  cases i with
  | succ i => cases i <;> cases hf
  | zero =>
    cases hf; cases hv
    refine .ptr (e := .struct 0) rfl (.struct (j := 0) rfl rfl ?_)
    intro i f v hf hv
    cases i with
    | zero => cases hf; cases hv; exact .str rfl
    | succ i => cases i <;> cases hf

/-- Struct type 0 is `struct { L []T1 }`, 1 is `struct { X, Y int }`; no type has methods. -/
def exL : Univ :=
  { exU with
    fields := fun i => match i with | 0 => [fld b!"L" (.slice (.struct 1))] | 1 => [fld b!"X" (.int .std), fld b!"Y" (.int .std)] | _ => []
    under := fun _ => .string
    zeroStruct := fun i => match i with | 0 => .struct [.nilSlice] | 1 => .struct [.int 0, .int 0] | _ => .struct []
    zeroNamed := fun _ => .str []
    impl := fun _ _ => false }

/-- The variable after `{"L":[{"X":1}],"L":[{"Y":2},{}]}`, for the first or the second time. -/
def exLV (x : Int) : GV := .struct [.slice [.struct [.int x, .int 2], .struct [.int 0, .int 0]] 2]

/-- The full claim is false: if a name is there twice, the second slice may be longer than the first. Then the second one is made new when the text
is read for the first time, but not when it is read for the second time, and there the elements of the first slice show through. -/
theorem C132_false :
    unmarshal exL 30 Doc.empty b!"{\"L\":[{\"X\":1}],\"L\":[{\"Y\":2},{}]}" (some (.ptr (.struct 0), .ptr (exL.zero (.struct 0)))) =
      some (.done (some (.ptr (.struct 0), .ptr (exLV 0))) none) ∧
    unmarshal exL 30 Doc.empty b!"{\"L\":[{\"X\":1}],\"L\":[{\"Y\":2},{}]}" (some (.ptr (.struct 0), .ptr (exLV 0))) =
      some (.done (some (.ptr (.struct 0), .ptr (exLV 1))) none) ∧ exLV 0 ≠ exLV 1 :=
  ⟨eq_of_sameX (by decide +kernel), eq_of_sameX (by decide +kernel), by intro h; simp [exLV] at h⟩

theorem exL_reading : exL.Reading exNNode where
  ok := {
    under_base := by intro i j h; cases h
    under_struct := by intro i j h; cases h
    zero_struct := by
      intro i
      unfold exL
      dsimp only
      split <;> simp [fld, Univ.zero]
    zero_named := by intro i; rfl }
  embeds := by
    intro j f e hf ha hb
    exfalso
    have : f.anon = false := by
      unfold exL at hf
      dsimp only at hf
      split at hf <;> simp at hf
      · rw [hf]; rfl
      · rcases hf with rfl | rfl <;> rfl
    rw [this] at ha; cases ha
  methods := {
    tree := fun _ _ _ _ _ _ => rfl
    typed_node := fun _ _ _ _ h hr => by cases hr; exact h
    typed := by intro m t v s hv; exact hv }
  paired := by
    intro h t s hu
    refine absurd ?_ hu
    simp [unmarshalMeth, exL]
  structs := by intro t _ hu; refine absurd ?_ hu; simp [unmarshalMeth, exL]

/-- All other hypotheses are met by it, and the claim is true for it with each name once. -/
example : exL.Reading exNNode ∧ MethodsAgain exL exNNode ∧ NamesOnce (.obj [(b!"L", .arr [.obj [(b!"Y", .num b!"2")], .obj []])]) ∧
    unmarshal exL 30 Doc.empty b!"{\"L\":[{\"Y\":2},{}]}" (some (.ptr (.struct 0), .ptr (exL.zero (.struct 0)))) =
      some (.done (some (.ptr (.struct 0), .ptr (exLV 0))) none) ∧
    unmarshal exL 30 Doc.empty b!"{\"L\":[{\"Y\":2},{}]}" (some (.ptr (.struct 0), .ptr (exLV 0))) =
      some (.done (some (.ptr (.struct 0), .ptr (exLV 0))) none) := by
  refine ⟨exL_reading, ?_, ?_, eq_of_sameX (by decide +kernel), eq_of_sameX (by decide +kernel)⟩
  · intro m t v j y e h
    cases m <;> (cases h; rfl)
  · refine .obj (by simp) ?_
    intro m hm
    simp at hm; subst hm
    refine .arr ?_
    intro x hx
    simp at hx
    rcases hx with rfl | rfl
    · exact .obj (by simp) (by intro m hm; simp at hm; subst hm; exact .num)
    · exact .obj (by simp) (by intro m hm; cases hm)

end Verif.Props
