import Verif.Proofs.UnNil
import Verif.Proofs.UnExampleN
import Verif.Props.UnMeth
import Verif.Props.UnMethDec

/-! # Nil pointers in what is written (C122) and read (C123) -/

namespace Verif.Props
open Verif Verif.Float Verif.Spec Verif.Njson Verif.Unjson

/-! ## Writing -/

/-- **C122** (part): the fields of a struct that are nil pointers. `Marshal` writes the members one by one, in the order of the fields
(`parts`; `none` stands for a field that is left out). A nil pointer whose type has no marshal method is written as `null`; with `omitempty`, when there
is no omit method either, it is left out. Missing: pointers with such methods, see `C122_panics` and `C122_place`. -/
theorem C122_struct_partial {U : Univ} (hU : U.Program) {t : Ty} {j : Nat} (hb : U.base t = .struct j) (hm : marshalMeth U (.ptr t) = none)
    (hm' : marshalMeth U t = none) {fs : List GV} (hv : HasTy U t (.struct fs)) (fuel : Nat) (s : Bytes)
    (h : marshal U fuel (some (t, .struct fs)) = some (.done s none)) {cs : List Cand} (hc : Cands U defaultOptions (U.fields j) 0 [] cs) :
    ∃ parts : List (Option Bytes), parts.length = (resolve [] cs).length ∧ s = b!"{" ++ commas (parts.filterMap id) ++ b!"}" ∧
      ∀ (i : Nat) c e, (resolve [] cs)[i]? = some c → sub (.struct fs) c.index = some .nilPtr → U.base c.typ = .ptr e →
        (c.hint.omitempty = false → marshalMeth U c.typ = none → parts[i]? = some (some (b!"\"" ++ c.key ++ b!"\":null"))) ∧
        (c.hint.omitempty = true → NoOmit U b!"Omit" c.typ → parts[i]? = some none) := by
  obtain ⟨w, h1, h2⟩ := C87_exact hU hv fuel [] _ h
  have hw : w = .ok s := by
    cases w with
    | ok s' => unfold Agrees at h2; cases h2; rfl
    | error f => cases f <;> unfold Agrees at h2 <;> [(obtain ⟨b, h2⟩ := h2; cases h2); cases h2]
  subst hw
  have hd : ∀ e, U.base t ≠ .ptr e := by rw [hb]; intro e h; cases h
  generalize hq : Except.ok s = w at h1
  cases h1 with
  | invalid => cases hq
  | ptrInvalid h => exact absurd h (hd _)
  | meth _ h => rw [hm] at h; cases h
  | value _ _ _ hw =>
    cases hw with
    | meth h => unfold via at h; rw [if_neg (by simp), hm'] at h; cases h
    | struct _ hb' hc' hf =>
      rw [hb] at hb'; cases hb'
      cases cands_det hc hc'
      obtain ⟨ss, rfl, rfl⟩ := except_map_ok hq.symm
      obtain ⟨ps, q1, q2, q3⟩ := wFields_parts hf rfl
      refine ⟨ps, q1, by rw [q2], ?_⟩
      intro i c e hi hx hp
      obtain ⟨b, r1, r2, r3⟩ := q3 i c _ hi hx
      constructor
      · intro ho hn
        cases omitsM_one r1 (.keep ho)
        obtain ⟨s, r4, r5⟩ := r3 rfl
        rw [r5]
        generalize hr : Except.ok s = w at r4
        cases r4 with
        | meth h => unfold via at h; rw [hn] at h; split at h <;> cases h
        | nilPtr => cases hr; simp
      · intro ho hn
        have : OmitsM U defaultOptions (addrAt false c.index) c .nilPtr (some true) :=
          .value ho (.inl (by rw [hp]; intro j h; cases h)) (.plain hn (by rw [hp]; intro n e h; cases h) (by rw [hp]; intro n i h; cases h))
        cases omitsM_one r1 this
        exact r2 rfl

/-- **C122**, methods with value receivers: if somewhere in the argument a nil pointer is to be written whose element type has a marshal method, or a
nil pointer with `omitempty` whose element type has an omit method, `Marshal` does not succeed: the call of the method panics, unless there
is an error before. -/
theorem C122_panics {U : Univ} (hU : U.Program) (hG : U.GoMethods) {t : Ty} {v : GV} (hv : HasTy U t v) (hn : NilArg U defaultOptions t v)
    (fuel : Nat) (out : Bytes) (r : Out Bytes) (h : Unjson.appendJSON U fuel out (some (t, v)) = some r) : r = .panic ∨ ∃ b e, r = .done b (some e) := by
  obtain ⟨w, h1, h2⟩ := C87_exact hU hv fuel out r h
  cases w with
  | ok s => exact absurd rfl (nilCall_fails hG hn h1 s)
  | error f =>
    cases f with
    | panic => exact .inl h2
    | err e => obtain ⟨b, h2⟩ := h2; exact .inr ⟨b, e, h2⟩

/-- **C122**, at every place that is written: what stands for a nil pointer is `null` if no marshal method is used for its type. Otherwise it is what the
method does when it is called on the nil pointer: its text, its error or its panic. -/
theorem C122_place {U : Univ} {c a : Bool} {o : Options} {h : Hint} {t e : Ty} (hb : U.base t = .ptr e) {w : Except Fail Bytes}
    (hw : Writes U c a o h t .nilPtr w) : (via U c h t = none → w = .ok b!"null") ∧
      (∀ m, via U c h t = some m → U.impl t m = true → w = methText U m t .nilPtr) := by
  cases hw with
  | meth h1 =>
    refine ⟨fun h => (by rw [h] at h1; cases h1), fun m hm hi => ?_⟩
    rw [h1] at hm; cases hm
    unfold callMeth; rw [hb, hi]; rfl
  | nilPtr h1 => exact ⟨fun _ => rfl, fun m hm => by rw [h1] at hm; cases hm⟩

theorem exN_one {j : Nat} {f : Field} (hf : exN.fields j = [f]) {x : GV} (hv : HasTy exN f.typ x) : HasTy exN (.struct j) (.struct [x]) := by
  refine .struct (j := j) rfl (by rw [hf]; rfl) ?_
  intro i g y hg hy
  cases i with
  | zero => rw [hf] at hg; cases hg; cases hy; exact hv
  | succ i => cases i <;> cases hy

/-- The hypotheses of both theorems hold: struct type 2 has a field that is a nil pointer, and a slice has a nil pointer whose element type
has `MarshalJSON`. -/
example : exN.Program ∧ exN.GoMethods ∧ marshalMeth exN (.ptr (.struct 2)) = none ∧ marshalMeth exN (.struct 2) = none ∧
    HasTy exN (.struct 2) (.struct [.nilPtr]) ∧ marshal exN 30 (some (.struct 2, .struct [.nilPtr])) = some (.done b!"{\"N\":null}" none) ∧
    marshal exN 30 (some (.struct 4, .struct [.nilPtr])) = some (.done b!"{}" none) ∧
    HasTy exN (.slice (.ptr (.struct 0))) (.slice [.nilPtr] 1) ∧ NilArg exN defaultOptions (.slice (.ptr (.struct 0))) (.slice [.nilPtr] 1) := by
  refine ⟨exN_program, exN_methods, by decide, by decide, exN_one (f := fld b!"N" (.ptr (.int .std))) rfl (.nilPtr (e := .int .std) rfl),
    eq_of_sameB (by decide +kernel), eq_of_sameB (by decide +kernel), ?_, ?_⟩
  · exact .slice (e := .ptr (.struct 0)) rfl (by decide) (by intro x hx; rw [List.mem_singleton.1 hx]; exact .nilPtr (e := .struct 0) rfl)
  · refine .value (by intro e h; cases h) (by decide) (.slice (e := .ptr (.struct 0)) (x := .nilPtr) (by decide) rfl (by simp) ?_)
    exact .meth (m := .jsonMarshaler) ⟨(by intro e h; cases h), (by intro n i h; cases h)⟩ (by decide) (by decide)

/-- **C122 (false)**: a nil pointer to a type with `MarshalJSON`, such as `*time.Time`, makes `Marshal` panic, in a field as well as in a slice. A nil
pointer field with `omitempty` to a type with an `Omit` method panics, too. If the receivers are pointers, their text is written instead of `null`. A nil
pointer in an `interface{}` panics whatever its type. -/
theorem C122_false : exN.Program ∧ exN.GoMethods ∧
    marshal exN 30 (some (.struct 1, .struct [.nilPtr])) = some .panic ∧
    marshal exN 30 (some (.slice (.ptr (.struct 0)), .slice [.nilPtr] 1)) = some .panic ∧
    marshal exN 30 (some (.struct 1, .struct [.ptr (.struct [.str []])])) = some (.done b!"{\"P\":\"2020\"}" none) ∧
    marshal exN 30 (some (.struct 3, .struct [.nilPtr])) = some .panic ∧
    marshal exN 30 (some (.struct 3, .struct [.ptr (.str b!"x")])) = some (.done b!"{}" none) ∧
    marshal exN 30 (some (.struct 5, .struct [.nilPtr])) = some (.done b!"{\"R\":\"nil\"}" none) ∧
    marshal exN 30 (some (.slice .any, .slice [.iface (.ptr (.int .std)) .nilPtr] 1)) = some .panic :=
  ⟨exN_program, exN_methods, eq_of_isPanic (by decide +kernel), eq_of_isPanic (by decide +kernel), eq_of_sameB (by decide +kernel),
    eq_of_isPanic (by decide +kernel), eq_of_sameB (by decide +kernel), eq_of_sameB (by decide +kernel), eq_of_isPanic (by decide +kernel)⟩

/-! ## Reading -/

/-- **C123**, at every place that is read: a pointer whose type has no unmarshal method is allocated, unless the value is `null`, which makes it
nil; a nil pointer whose type has such a method stays nil. -/
theorem C123_place {U : Univ} (hU : U.Ok) {nm : NodeMeth} (hG : U.GoUnmarshal nm) {o : Options} {t e : Ty} (hb : U.base t = .ptr e) {v : GV} {j : JVal} {y : GV}
    {err : Option UErr} (h : Reads U nm o t v j (.done y err)) :
    (unmarshalMeth U t = none → (j = .null → y = .nilPtr ∧ err = none) ∧ (j ≠ .null → ∃ x, y = .ptr x)) ∧
    (∀ m, unmarshalMeth U t = some m → v = .nilPtr → y = .nilPtr) :=
  ⟨fun hm => reads_ptr hU hb h hm, fun _ hm hv => by subst hv; exact reads_nil_meth hG hb h hm⟩

theorem C123_members {U : Univ} {nm : NodeMeth} (hU : U.Reading nm) {t e : Ty} (hb : U.base t = .ptr e) {j : Nat} (hs : U.base e = .struct j)
    (hm : unmarshalMeth U t = none) (hm' : unmarshalMeth U e = none) {x : GV} (hv : HasTy U t (.ptr x)) (fuel : Nat) {d : Doc} (hd : d.Wf) (s : Bytes)
    {d' : Doc} {id : Nat} {ms : List (Bytes × JVal)} {tail : Bytes} (hp : Parses d s d' id (.obj ms) tail) {z : GV} {err : Option UErr}
    (h : unmarshal U fuel d s (some (t, .ptr x)) = some (.done (some (t, z)) err)) (hr : ¬ RefusedArg U decodeOptions t)
    {cs : List Cand} (hc : Cands U decodeOptions (U.fields j) 0 [] cs) :
    ∃ y, z = .ptr y ∧ ReadMembers U nm decodeOptions (resolve [] cs) ms x (.done y err) := by
  have hi : ∀ n i, U.base t ≠ .iface n i := by rw [hb]; intro _ _ h; cases h
  rcases C89_exact hU hi hv fuel hd s _ h with ⟨h1, _⟩ | ⟨_, h1, _⟩ | ⟨d2, id2, j2, tail2, r', h1, h2, h3⟩
  · exact absurd h1 hr
  · exact absurd ⟨_, _, _, _, hp⟩ h1
  · obtain ⟨rfl, rfl⟩ := parses_unique hd hp h1
    cases h2 with
    | meth _ h => rw [hm] at h; cases h
    | @ptr _ _ _ r hb' _ _ h2 =>
      rw [hb] at hb'; cases hb'
      cases r with
      | panic => cases h3
      | done y e =>
        cases h3
        refine ⟨y, rfl, ?_⟩
        generalize hq : Out.done y err = r at h2
        cases h2 with
        | meth h => rw [hm'] at h; cases h
        | plain _ h2 =>
          cases h2 with
          | struct hb' hc' h2 =>
            rw [hs] at hb'; cases hb'
            cases cands_det hc hc'
            exact h2
          | mismatch h1 _ h2 => rw [hs] at h1; cases h1; simp only [jtyp] at h2; exact absurd h2 (by decide)
          | map hb' => rw [hs] at hb'; cases hb'
          | any => cases hs
          | anyErr hb' => rw [hs] at hb'; cases hb'
          | anyPanic hb' => rw [hs] at hb'; cases hb'
          | ptr hb' => rw [hs] at hb'; cases hb'
          | ptrNew hb' => rw [hs] at hb'; cases hb'

/-- **C123** (part): a field of a pointer type without unmarshal methods, after `Unmarshal` of an object that has a member for it without error: the last
such member decides; it is nil if this is `null` and not nil otherwise. Missing: pointer types with unmarshal methods (`C123_never`). -/
theorem C123_field_partial {U : Univ} {nm : NodeMeth} (hU : U.Reading nm) {t e : Ty} (hb : U.base t = .ptr e) {j : Nat} (hs : U.base e = .struct j)
    (hm : unmarshalMeth U t = none) (hm' : unmarshalMeth U e = none) {x : GV} (hv : HasTy U t (.ptr x)) (fuel : Nat) {d : Doc} (hd : d.Wf) (s : Bytes)
    {d' : Doc} {id : Nat} {ms ms' : List (Bytes × JVal)} {key : Bytes} {val : JVal} {tail : Bytes} (hp : Parses d s d' id (.obj (ms ++ (key, val) :: ms')) tail)
    (hk : key ∉ ms'.map Prod.fst) {z : GV} (h : unmarshal U fuel d s (some (t, .ptr x)) = some (.done (some (t, z)) none))
    {cs : List Cand} (hc : Cands U decodeOptions (U.fields j) 0 [] cs) {c : Cand} (hf : (resolve [] cs).find? (fun c => c.key = key) = some c)
    {el : Ty} (hcb : U.base c.typ = .ptr el) (hcm : unmarshalMeth U c.typ = none) {old : GV} (ho : sub x c.index = some old) :
    ∃ y, z = .ptr y ∧ (val = .null → sub y c.index = some .nilPtr) ∧ (val ≠ .null → ∃ w, sub y c.index = some (.ptr w)) := by
  have hr : ¬ RefusedArg U decodeOptions t := by
    intro hr
    have hi : ∀ n i, U.base t ≠ .iface n i := by rw [hb]; intro _ _ h; cases h
    rcases C89_exact hU hi hv fuel hd s _ h with ⟨_, h1⟩ | ⟨h1, _, _⟩ | ⟨_, _, _, _, r', _, h2, _⟩
    · cases h1
    · exact h1 hr
    · exact (C89_one (r' := .panic) h2).2 hr
  obtain ⟨y, rfl, hy⟩ := C123_members hU hb hs hm hm' hv fuel hd s hp h hr hc
  exact ⟨y, rfl, readMembers_last hU.ok (resolve_apart hU.ok hU.embeds hc) hf hcb hcm hk hy ho⟩

/-- **C123**, pointer types with unmarshal methods: a nil pointer field of such a type is nil after `Unmarshal`, whatever the text is and whatever the
method does, if `Unmarshal` returns at all. -/
theorem C123_never {U : Univ} {nm : NodeMeth} (hU : U.Reading nm) (hG : U.GoUnmarshal nm) {t e : Ty} (hb : U.base t = .ptr e) {j : Nat} (hs : U.base e = .struct j)
    (hm : unmarshalMeth U t = none) (hm' : unmarshalMeth U e = none) {x : GV} (hv : HasTy U t (.ptr x)) (fuel : Nat) {d : Doc} (hd : d.Wf) (s : Bytes)
    {z : GV} {err : Option UErr} (h : unmarshal U fuel d s (some (t, .ptr x)) = some (.done (some (t, z)) err))
    {d' : Doc} {id : Nat} {ms : List (Bytes × JVal)} {tail : Bytes} (hp : Parses d s d' id (.obj ms) tail)
    {cs : List Cand} (hc : Cands U decodeOptions (U.fields j) 0 [] cs) {key : Bytes} {c : Cand} (hf : (resolve [] cs).find? (fun c => c.key = key) = some c)
    {el : Ty} (hcb : U.base c.typ = .ptr el) {m : Meth} (hcm : unmarshalMeth U c.typ = some m) (ho : sub x c.index = some .nilPtr) :
    ∃ y, z = .ptr y ∧ sub y c.index = some .nilPtr := by
  by_cases hr : RefusedArg U decodeOptions t
  · have hi : ∀ n i, U.base t ≠ .iface n i := by rw [hb]; intro _ _ h; cases h
    rcases C89_exact hU hi hv fuel hd s _ h with ⟨_, h1⟩ | ⟨h1, _, _⟩ | ⟨_, _, _, _, r', _, h2, _⟩
    · cases h1; exact ⟨x, rfl, ho⟩
    · exact absurd hr h1
    · exact absurd hr (C89_one (r' := .panic) h2).2
  · obtain ⟨y, rfl, hy⟩ := C123_members hU hb hs hm hm' hv fuel hd s hp h hr hc
    exact ⟨y, rfl, readMembers_kept hG (resolve_apart hU.ok hU.embeds hc) hf hcb hcm hy ho⟩

/-- **C123**, value receivers: reading anything into a nil pointer panics when the method that is used is one of the element type. -/
theorem C123_panics {U : Univ} {nm : NodeMeth} (hG : U.GoMethods) (hG' : U.GoUnmarshal nm) {o : Options} {e : Ty} (hd : Direct U e) {m : Meth}
    (hm : unmarshalMeth U (.ptr e) = some m) (hi : U.impl e m = true) {j : JVal} {r : Out GV} (h : Reads U nm o (.ptr e) .nilPtr j r) :
    r = .panic ∨ ∃ err, m = .textUnmarshaler ∧ r = .done .nilPtr (some err) := by
  cases h with
  | plain h => rw [hm] at h; cases h
  | meth h =>
    rw [hm] at h; cases h
    unfold callUnmarshal
    split
    · rename_i h; exact .inr ⟨_, h.1, rfl⟩
    · left
      show methOut U nm m (.ptr e) .nilPtr j = .panic
      unfold methOut called
      split
      · rw [hG'.nil_node e j hd.1 hi]
      · rw [hG.nil e _ _ hd.1 hi]; rfl
      · rw [hG.nil e _ _ hd.1 hi]; rfl

/-- The hypotheses hold for a field that is a pointer to an integer, and for one that is a pointer with `UnmarshalText` that accepts nil. -/
example : exN.Reading exNNode ∧ exN.GoUnmarshal exNNode ∧ unmarshalMeth exN (.ptr (.struct 2)) = none ∧ unmarshalMeth exN (.struct 2) = none ∧
    unmarshal exN 30 Doc.empty b!"{\"N\":null,\"N\":7}" (some (.ptr (.struct 2), .ptr (.struct [.nilPtr]))) =
      some (.done (some (.ptr (.struct 2), .ptr (.struct [.ptr (.int 7)]))) none) ∧
    Cands exN decodeOptions (exN.fields 2) 0 [] [⟨b!"N", [0], .ptr (.int .std), Hint.none⟩] ∧
    unmarshalMeth exN (.ptr (.named 1)) = some .textUnmarshaler ∧
    unmarshal exN 30 Doc.empty b!"{\"R\":\"x\"}" (some (.ptr (.struct 5), .ptr (.struct [.nilPtr]))) =
      some (.done (some (.ptr (.struct 5), .ptr (.struct [.nilPtr]))) none) :=
  ⟨exN_reading, exN_unmarshal, by decide, by decide, eq_of_sameX (by decide +kernel), .field (f := fld b!"N" (.ptr (.int .std))) rfl (by decide) rfl .nil,
    by decide, eq_of_sameX (by decide +kernel)⟩

/-- **C123 (false)**: a nil pointer to a type such as `time.Time` in a field, in a new element of a slice, or behind the pointer that is the argument, is not
allocated. `Unmarshal` panics when the method does, also for `null`; when it does not, the field stays nil and no error is reported. What `Marshal`
writes for a struct with such a field cannot be read back into a new one. -/
theorem C123_false : exN.Reading exNNode ∧ exN.GoUnmarshal exNNode ∧
    marshal exN 30 (some (.struct 1, .struct [.ptr (.struct [.str []])])) = some (.done b!"{\"P\":\"2020\"}" none) ∧
    unmarshal exN 30 Doc.empty b!"{\"P\":\"2020\"}" (some (.ptr (.struct 1), .ptr (.struct [.nilPtr]))) = some .panic ∧
    unmarshal exN 30 Doc.empty b!"{\"P\":null}" (some (.ptr (.struct 1), .ptr (.struct [.nilPtr]))) = some .panic ∧
    unmarshal exN 30 Doc.empty b!"{\"P\":\"2020\"}" (some (.ptr (.struct 1), .ptr (.struct [.ptr (.struct [.str []])]))) =
      some (.done (some (.ptr (.struct 1), .ptr (.struct [.ptr (.struct [.str b!"\"2020\""])]))) none) ∧
    unmarshal exN 30 Doc.empty b!"[\"2020\"]" (some (.ptr (.slice (.ptr (.struct 0))), .ptr .nilSlice)) = some .panic ∧
    unmarshal exN 30 Doc.empty b!"\"2020\"" (some (.ptr (.ptr (.struct 0)), .ptr .nilPtr)) = some .panic ∧
    unmarshal exN 30 Doc.empty b!"{\"R\":\"x\"}" (some (.ptr (.struct 5), .ptr (.struct [.nilPtr]))) =
      some (.done (some (.ptr (.struct 5), .ptr (.struct [.nilPtr]))) none) :=
  ⟨exN_reading, exN_unmarshal, eq_of_sameB (by decide +kernel), eq_of_isPanic (by decide +kernel), eq_of_isPanic (by decide +kernel),
    eq_of_sameX (by decide +kernel), eq_of_isPanic (by decide +kernel), eq_of_isPanic (by decide +kernel), eq_of_sameX (by decide +kernel)⟩

end Verif.Props
