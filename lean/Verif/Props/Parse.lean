import Verif.Proofs.Serial

/-!
# Properties C09–C17: `Document.Parse`

Throughout, `d : Doc` is an arbitrary document value (any earlier use, any spare capacity) and `s` an
arbitrary byte string.
-/

namespace Verif.Props
open Verif Verif.Spec Verif.Njson

/-- Parsing `s` into `d` succeeds: new document `d'`, node id `id` with tree `t`, tail `r`. -/
def Parses (d : Doc) (s : Bytes) (d' : Doc) (id : Nat) (t : JVal) (r : Bytes) : Prop :=
  d.parse s = (d', .ok id r) ∧ Reps d'.cont t id

theorem parses_iff {d : Doc} (hwf : d.Wf) {s : Bytes} {t : JVal} {r : Bytes} :
    (∃ d' id, Parses d s d' id t r) ↔ ∃ pos, treeParse s = .ok t pos r := by
  constructor
  · rintro ⟨d', id, h1, h2⟩
    rcases parse_cases hwf s with ⟨t', pos, r', d1, e1, e2, _, _, e3⟩ | ⟨typ, d1, e1, e2, _⟩ | ⟨_, _, _, _, d1, e1, e2, _⟩
    · rw [e2] at h1
      simp at h1
      obtain ⟨rfl, rfl, rfl⟩ := h1
      have := view_reps (view_length hwf) e3
      rw [reps_unique h2 this]
      exact ⟨pos, e1⟩
    · rw [e2] at h1; simp at h1
    · rw [e2] at h1; simp at h1
  · rintro ⟨pos, h⟩
    rcases parse_cases hwf s with ⟨t', pos, r', d1, e1, e2, _, _, e3⟩ | ⟨typ, d1, e1, e2, _⟩ | ⟨_, _, _, _, d1, e1, e2, _⟩
    · rw [e1] at h
      simp at h
      obtain ⟨rfl, rfl, rfl⟩ := h
      exact ⟨d1, _, e2, view_reps (view_length hwf) e3⟩
    · rw [e1] at h; simp at h
    · rw [e1] at h; simp at h

/-- the three possible outcomes, by the tree parser's verdict -/
theorem parse_ok {d : Doc} (hwf : d.Wf) {s : Bytes} {d' : Doc} {id : Nat} {r : Bytes} (h : d.parse s = (d', .ok id r)) :
    ∃ t pos, treeParse s = .ok t pos r ∧ id = d.len ∧ d'.Wf ∧ d'.rev = d.rev ∧ d'.view = d.view ++ rootHead (flat d.len t) := by
  rcases parse_cases hwf s with ⟨t', pos, r', d1, e1, e2, e3, e4, e5⟩ | ⟨typ, d1, e1, e2, _⟩ | ⟨_, _, _, _, d1, e1, e2, _⟩
  · rw [e2] at h
    simp at h
    obtain ⟨rfl, rfl, rfl⟩ := h
    exact ⟨t', pos, e1, rfl, e3, e4, e5⟩
  · rw [e2] at h; simp at h
  · rw [e2] at h; simp at h

theorem parse_eof {d : Doc} (hwf : d.Wf) {s : Bytes} {d' : Doc} {typ : Typ} {r : Bytes} (h : d.parse s = (d', .eof typ r)) :
    treeParse s = .err (.eof typ) ∧ r = s ∧ d'.Wf ∧ d'.rev = d.rev ∧ d'.len = d.len ∧ d'.view = d.view := by
  rcases parse_cases hwf s with ⟨t', pos, r', d1, e1, e2, e3, e4, e5⟩ | ⟨typ, d1, e1, e2, e3⟩ | ⟨_, _, _, _, d1, e1, e2, _⟩
  · rw [e2] at h; simp at h
  · rw [e2] at h
    simp at h
    obtain ⟨rfl, rfl, rfl⟩ := h
    exact ⟨e1, rfl, e3⟩
  · rw [e2] at h; simp at h

theorem parse_err {d : Doc} (hwf : d.Wf) {s : Bytes} {d' : Doc} {pos : Nat} {typ : Typ} {got : Got} {want : Want} {r : Bytes}
    (h : d.parse s = (d', .err pos typ got want r)) :
    treeParse s = .err (.abort pos typ got want) ∧ r = [] ∧ d'.Wf ∧ d'.rev = d.rev ∧ d'.len = d.len ∧ d'.view = d.view := by
  rcases parse_cases hwf s with ⟨t', pos, r', d1, e1, e2, e3, e4, e5⟩ | ⟨typ, d1, e1, e2, e3⟩ | ⟨_, _, _, _, d1, e1, e2, e3⟩
  · rw [e2] at h; simp at h
  · rw [e2] at h; simp at h
  · rw [e2] at h
    simp at h
    obtain ⟨rfl, rfl, rfl, rfl, rfl, rfl⟩ := h
    exact ⟨e1, rfl, e3⟩

theorem eta {α β : Type} {p : α × β} {b : β} (h : p.2 = b) : p = (p.1, b) := by rw [← h]

/-- a document with reused, dirty capacity, to show the theorems apply to it -/
def dirty : Doc :=
  ⟨[⟨tNull, true, b!"null", .nil⟩, ⟨tArray, true, [], ⟨[⟨5, b!"x"⟩, ⟨6, b!"y"⟩], 2⟩⟩, ⟨tString, false, b!"q", ⟨[⟨1, []⟩], 1⟩⟩], 1, 7⟩

theorem dirty_wf : dirty.Wf := by unfold Doc.Wf; decide
theorem empty_wf : Doc.empty.Wf := Nat.le_refl _

/-! ## C11 -/

/-- **C11**: `Parse` succeeds with tree `t` and tail `r` exactly when the input is white space, a text of `t`
in the grammar `LenientValue`, and `r` (which must start with a delimiter if `t` is a number). -/
theorem C11_language (d : Doc) (hwf : d.Wf) (s : Bytes) (t : JVal) (r : Bytes) :
    (∃ d' id, Parses d s d' id t r) ↔
    ∃ w v, s = w ++ v ++ r ∧ IsWs w ∧ LenientValue v t ∧ NumFollow t r := by
  rw [parses_iff hwf]
  constructor
  · rintro ⟨pos, h⟩
    obtain ⟨w, v, h1, h2, h3, h4, _⟩ := treeParse_ok_iff.1 h
    exact ⟨w, v, h1, h2, h3, h4⟩
  · rintro ⟨w, v, h1, h2, h3, h4⟩
    exact ⟨_, treeParse_ok_iff.2 ⟨w, v, h1, h2, h3, h4, rfl⟩⟩

-- a text with white space, nesting, an escaped quote and a tail
example : (dirty.parse b!" {\"a\" : [1,-2e] ,\"b\":\"\\\"x\"}tail").2 = .ok 1 b!"tail" := by decide +kernel
-- two texts outside the language
example : (dirty.parse b!"[1,]").2 = .err 3 tAnyValue (.byte 93) (.str b!"any value") [] := by decide +kernel
example : (dirty.parse b!"[1").2 = .eof tArray b!"[1" := by decide +kernel

theorem allRaw_mono {S K N S' K' N' : Bytes → Prop} (hS : ∀ s, S s → S' s) (hK : ∀ s, K s → K' s) (hN : ∀ s, N s → N' s) :
    (∀ t : JVal, AllRaw S K N t → AllRaw S' K' N' t) ∧
    (∀ xs, AllRawElems S K N xs → AllRawElems S' K' N' xs) ∧
    (∀ ms, AllRawMembers S K N ms → AllRawMembers S' K' N' ms) := by
  apply jval_ind <;> simp only [AllRaw, AllRawElems, AllRawMembers] <;> grind

/-! ## C10 -/

/-- The condition under which the parser reads an RFC 8259 string body correctly: it contains an escaped
quote or does not end in a backslash. -/
def StringsEndWell : JVal → Prop := AllRaw GoodEnd (fun _ => True) (fun _ => True)

/-- **C10 (partial)**: every RFC 8259 text whose string values end well is accepted, with the tree it denotes,
and only trailing white space is left over. Missing: texts with a string value that has no escaped quote and
ends in an escaped backslash, for which the property is false (`C10_false`). -/
theorem C10_rfc_accepted_partial (d : Doc) (hwf : d.Wf) (s : Bytes) (t : JVal) (h : RfcText s t) (hg : StringsEndWell t) :
    ∃ d' id r, Parses d s d' id t r ∧ IsWs r := by
  obtain ⟨w, v, w', rfl, hw, hv, hw'⟩ := h
  have hl : LenientValue v t := gval_mono (fun s h => escBody_lenient (rfcBody_escBody h.1) h.2)
    (fun s h => rfcBody_escBody h.1) (fun s h => rfcNumber_lenient h.1) (gval_and hv hg)
  have hn : NumFollow t w' := by
    cases t with
    | num raw =>
      cases w' with
      | nil => exact Or.inl rfl
      | cons b r =>
        refine Or.inr ⟨b, r, rfl, ?_⟩
        have := hw' b (by simp)
        unfold NumberEnd
        rcases this with h | h | h | h <;> simp [h]
    | _ => trivial
  obtain ⟨d', id, hp⟩ := (C11_language d hwf _ t w').2 ⟨w, v, rfl, hw, hl, hn⟩
  exact ⟨d', id, w', hp, hw'⟩

/-- **C10**, exactly: the strings end well whenever `Parse` returns the tree that the text denotes. -/
theorem C10_exact (d : Doc) (hwf : d.Wf) (s : Bytes) (t : JVal) (h : RfcText s t) : (∃ d' id r, Parses d s d' id t r) ↔ StringsEndWell t := by
  constructor
  · rintro ⟨d', id, r, hp⟩
    obtain ⟨w, v, _, _, h3, _⟩ := (C11_language d hwf _ t r).1 ⟨d', id, hp⟩
    refine (allRaw_mono (fun s hs => ?_) (fun _ _ => trivial) (fun _ _ => trivial)).1 t (gval_allRaw h3)
    rcases hs with ⟨_, hs⟩ | ⟨p, q, hs, _⟩
    · exact Or.inr hs
    · left; rw [hs]; simp
  · intro hg
    obtain ⟨d', id, r, hp, _⟩ := C10_rfc_accepted_partial d hwf s t h hg
    exact ⟨d', id, r, hp⟩

/-- The RFC text `"\\"` (a string holding one backslash) is an RFC text … -/
theorem rfc_backslash : RfcText b!"\"\\\\\"" (.str b!"\\\\") := by
  refine ⟨[], b!"\"\\\\\"", [], by decide, IsWs.nil, ?_, IsWs.nil⟩
  exact GVal.str (raw := b!"\\\\") (.short (e := 92) (v := 92) (by decide) .nil)

/-- **C10 is false** of the code: `Parse` reports UnexpectedEOF on `"\\"` in every document. -/
theorem C10_false : ¬ ∀ (d : Doc), d.Wf → ∀ s t, RfcText s t → ∃ d' id r, Parses d s d' id t r := by
  intro h
  obtain ⟨d', id, r, h1, _⟩ := h Doc.empty empty_wf _ _ rfc_backslash
  have : (Doc.empty.parse b!"\"\\\\\"").2 = .eof tString b!"\"\\\\\"" := by decide +kernel
  rw [h1] at this
  exact absurd this (by simp)

/-- Worse, an RFC text can be accepted with the wrong tree: `["\\",",1,",",2"]` denotes three strings and
`Parse` returns four elements. -/
theorem C10_wrong_tree :
    ∃ t, RfcText b!"[\"\\\\\",\",1,\",\",2\"]" t ∧ t = .arr [.str b!"\\\\", .str b!",1,", .str b!",2"] ∧
    ∃ d' id t', Parses Doc.empty b!"[\"\\\\\",\",1,\",\",2\"]" d' id t' [] ∧ t' ≠ t := by
  refine ⟨_, ⟨[], _, [], (List.append_nil _).symm, IsWs.nil, ?_, IsWs.nil⟩, rfl, ?_⟩
  · have plain : ∀ l : List Char, (∀ c ∈ l, Unescapable c) → RfcBody (l.flatMap enc) := by
      intro l hl
      induction l with
      | nil => exact .nil
      | cons c l ih =>
        rw [List.flatMap_cons]
        exact .char c (hl c (by simp)) (ih fun x hx => hl x (by simp [hx]))
    have p1 : RfcBody b!",1," := plain [',', '1', ','] (by unfold Unescapable; decide)
    have p2 : RfcBody b!",2" := plain [',', '2'] (by unfold Unescapable; decide)
    exact GVal.arr (w := []) (body := b!"\"\\\\\",\",1,\",\",2\"") IsWs.nil
      (.cons (v := b!"\"\\\\\"") (w := []) (w' := []) (body := b!"\",1,\",\",2\"") (.str (raw := b!"\\\\") (.short (e := 92) (v := 92) (by decide) .nil)) IsWs.nil IsWs.nil
        (.cons (v := b!"\",1,\"") (w := []) (w' := []) (body := b!"\",2\"") (.str (raw := b!",1,") p1) IsWs.nil IsWs.nil
          (.one (v := b!"\",2\"") (w := []) (.str (raw := b!",2") p2) IsWs.nil)))
  · have : (Doc.empty.parse b!"[\"\\\\\",\",1,\",\",2\"]").2 = .ok 0 [] := by decide +kernel
    obtain ⟨t, pos, h1, h2, h3, h4, h5⟩ := parse_ok empty_wf (Prod.ext (by rfl) this)
    refine ⟨_, _, t, ⟨Prod.ext (by rfl) this, view_reps (view_length empty_wf) h5⟩, ?_⟩
    rintro rfl
    have h6 := view_reps (view_length empty_wf) h5
    obtain ⟨vs, h7, h8⟩ := h6
    obtain ⟨_, _, rfl, _, _, _, rfl, _, h9⟩ := h8
    obtain ⟨_, _, rfl, _, h10⟩ := h9
    have : ((Doc.empty.parse b!"[\"\\\\\",\",1,\",\",2\"]").1.cont 0).map (fun c => c.vals.length) = some 4 := by decide +kernel
    have h7' := congrArg (Option.map (fun c : Cont => c.vals.length)) h7
    simp only [RepsElems] at h10
    subst h10
    exact absurd (this.symm.trans h7') (by simp)

-- the hypotheses of the partial theorem hold of a text with nesting, an escape and white space
example : RfcText b!" [1, \"a\\n\"] " (.arr [.num b!"1", .str b!"a\\n"]) ∧ StringsEndWell (.arr [.num b!"1", .str b!"a\\n"]) := by
  refine ⟨⟨b!" ", b!"[1, \"a\\n\"]", b!" ", by decide, by unfold IsWs; decide, ?_, by unfold IsWs; decide⟩, ?_⟩
  · refine GVal.arr (w := []) (body := b!"1, \"a\\n\"") IsWs.nil
      (.cons (v := b!"1") (w := []) (w' := b!" ") (body := b!"\"a\\n\"") (.num ?_) IsWs.nil (by unfold IsWs; decide)
        (.one (v := b!"\"a\\n\"") (w := []) (.str (raw := b!"a\\n") ?_) IsWs.nil))
    · refine ⟨[], b!"1", [], [], by decide, Or.inl rfl, Or.inr ⟨⟨by decide, ?_⟩, by decide⟩, Or.inl rfl, Or.inl rfl⟩
      unfold IsDigitByte; decide
    · exact .char 'a' (by unfold Unescapable; decide) (.short (e := 110) (v := 10) (by decide) .nil)
  · refine ⟨trivial, ?_, trivial⟩
    right; decide

/-! ## C09 -/

/-- **C09**: if `Parse` accepts `s` with tree `t`, the serialisation of the returned node parses, in any
document, to the same tree with an empty tail; and that is a fixed point: its serialisation is the same bytes. -/
theorem C09_reparse_stable (d : Doc) (hwf : d.Wf) (s : Bytes) (d' : Doc) (id : Nat) (t : JVal) (r : Bytes)
    (h : Parses d s d' id t r) (fuel : Nat) (hf : t.size ≤ fuel) :
    ∃ j, appendJSON d'.get fuel [] id = some (j, false) ∧
      ∀ e : Doc, e.Wf → ∃ e' id', Parses e j e' id' t [] ∧ appendJSON e'.get fuel [] id' = some (j, false) := by
  obtain ⟨w, v, _, _, hv, _⟩ := (C11_language d hwf s t r).1 ⟨d', id, h⟩
  refine ⟨t.ser, by simpa using appendJSON_reps h.2 hf [], fun e hwe => ?_⟩
  have := treeParse_ser (gval_allRaw hv)
  obtain ⟨e', id', hp⟩ := (parses_iff hwe).2 ⟨_, this⟩
  exact ⟨e', id', hp, by simpa using appendJSON_reps hp.2 hf []⟩

example : (let p := dirty.parse b!"[ 1 , {\"k\":\"\\\"\"} ]x"; (p.2, appendJSON p.1.get 5 [] 1)) =
    (.ok 1 b!"x", some (b!"[1,{\"k\":\"\\\"\"}]", false)) := by decide +kernel

/-! ## C12, C13 -/

theorem relV_treeParse (s x : Bytes) : RelV x (treeParse s) (treeParse (s ++ x)) :=
  (ext_all (2 * s.length + 2) x (2 * (s ++ x).length + 2) (by simp; omega)).1 0 s

/-- **C12**: the input is the consumed text followed by the tail, and unless the value is a number touching
the end of the input, any further text is simply added to the tail. -/
theorem C12_suffix_stable (d : Doc) (hwf : d.Wf) (s : Bytes) (d' : Doc) (id : Nat) (t : JVal) (r : Bytes)
    (h : Parses d s d' id t r) :
    (∃ consumed, s = consumed ++ r ∧ consumed ≠ []) ∧
    ∀ x, (r ≠ [] ∨ ∀ raw, t ≠ .num raw) → ∃ d'' , Parses d (s ++ x) d'' id t (r ++ x) := by
  obtain ⟨pos, htp⟩ := (parses_iff hwf).1 ⟨d', id, h⟩
  obtain ⟨t', pos', e1, e2, _⟩ := parse_ok hwf h.1
  constructor
  · have := (spec_all (2 * s.length + 2)).1 0 s
    rw [show tVal (2 * s.length + 2) 0 s = treeParse s from rfl, htp] at this
    obtain ⟨w, v, h1, _, _, _, _, h2⟩ := this
    exact ⟨w ++ v, h1, by simp [h2]⟩
  · intro x hx
    have hr := relV_treeParse s x
    rw [htp] at hr
    have hx' : x = [] ∨ r ≠ [] ∨ ¬ isNum t := by
      rcases hx with hx | hx
      · exact Or.inr (Or.inl hx)
      · refine Or.inr (Or.inr fun hn => ?_)
        cases t with
        | num raw => exact hx raw rfl
        | _ => exact hn
    obtain ⟨d'', id'', hp⟩ := (parses_iff hwf).2 ⟨pos, hr hx'⟩
    obtain ⟨_, _, _, e3, _⟩ := parse_ok hwf hp.1
    rw [e3, ← e2] at hp
    exact ⟨d'', hp⟩

-- the exception is real: a number at the end of the input is extended by more text
example : (dirty.parse b!"[]").2 = .ok 1 [] ∧ (dirty.parse b!"[]12").2 = .ok 1 b!"12" ∧
    (dirty.parse b!"1").2 = .ok 1 [] ∧ (dirty.parse b!"12").2 = .ok 1 [] := by decide +kernel

/-- **C13**: a ParseError is the same for every continuation of the input. -/
theorem C13_error_final (d : Doc) (hwf : d.Wf) (s : Bytes) (pos : Nat) (typ : Typ) (got : Got) (want : Want) (r : Bytes)
    (h : (d.parse s).2 = .err pos typ got want r) (x : Bytes) : (d.parse (s ++ x)).2 = .err pos typ got want [] := by
  obtain ⟨e1, _⟩ := parse_err hwf (eta h)
  have hr := relV_treeParse s x
  rw [e1] at hr
  simp only [RelV] at hr
  rcases parse_cases hwf (s ++ x) with ⟨_, _, _, d1, e1, e2, _⟩ | ⟨_, d1, e1, e2, _⟩ | ⟨_, _, _, _, d1, e1, e2, _⟩
  · rw [hr] at e1; simp at e1
  · rw [hr] at e1; simp at e1
  · rw [hr] at e1
    simp at e1
    obtain ⟨rfl, rfl, rfl, rfl⟩ := e1
    rw [e2]

example : (dirty.parse b!"{\"a\" 1").2 = .err 5 tObject (.byte 49) (.oneOf [58]) [] := by decide +kernel

/-! ## C14 -/

/-- **C14 (partial)**: UnexpectedEOF hands the input back, and there is a continuation that makes the parse
succeed — unless the input ends in a mistyped beginning of `true`, `false` or `null` (`BadEnd`), the one case
in which the property is false (`C14_false`). -/
theorem C14_eof_partial (d : Doc) (hwf : d.Wf) (s : Bytes) (typ : Typ) (r : Bytes) (h : (d.parse s).2 = .eof typ r) :
    r = s ∧ (BadEnd typ s ∨ ∃ x d' id t, Parses d (s ++ x) d' id t []) := by
  obtain ⟨e1, e2, _⟩ := parse_eof hwf (eta h)
  refine ⟨e2, ?_⟩
  have := (spec_all (2 * s.length + 2)).1 0 s
  rw [show tVal (2 * s.length + 2) 0 s = treeParse s from rfl, e1] at this
  rcases this with hb | ⟨x, w, v, t, h1, h2, h3, h4⟩
  · exact Or.inl hb
  · right
    obtain ⟨d', id, hp⟩ := (C11_language d hwf (s ++ x) t []).2 ⟨w, v, by simp [h1], h2, h3, h4 []⟩
    exact ⟨x, d', id, t, hp⟩

/-- **C14 is false**: `fx` is reported as UnexpectedEOF but no continuation is ever accepted. -/
theorem C14_false : ¬ ∀ (d : Doc), d.Wf → ∀ s typ r, (d.parse s).2 = .eof typ r →
    ∃ x d' id t r', Parses d (s ++ x) d' id t r' := by
  intro h
  obtain ⟨x, d', id, t, r', hp⟩ := h Doc.empty empty_wf b!"fx" tBoolean b!"fx" (by decide +kernel)
  obtain ⟨w, v, h1, h2, h3, _⟩ := (C11_language _ empty_wf _ _ _).1 ⟨d', id, hp⟩
  have hx : b!"fx" ++ x = (102 : UInt8) :: 120 :: x := rfl
  rw [hx] at h1
  cases w with
  | cons b w =>
    simp at h1
    have := h2 b (by simp)
    rw [← h1.1] at this
    simp at this
  | nil =>
    cases h3 with
    | null => simp at h1
    | true => simp at h1
    | false => simp at h1
    | num hn =>
      obtain ⟨⟨c, q, rfl, hc⟩, _⟩ := hn
      simp at h1
      rw [← h1.1] at hc
      simp [IsDigitByte] at hc
    | str _ => simp at h1
    | arr0 _ => simp at h1
    | arr _ _ => simp at h1
    | obj0 _ => simp at h1
    | obj _ _ => simp at h1

example : (dirty.parse b!"{\"a\":[tru").2 = .eof tBoolean b!"{\"a\":[tru" ∧ (dirty.parse b!"{\"a\":[true]}").2 = .ok 1 [] := by
  decide +kernel

/-! ## C15 -/

/-- **C15**: a ParseError's position is inside the input and the returned tail is empty (the returned node is
the zero node by construction: the outcome carries none). -/
theorem C15_error_position (d : Doc) (hwf : d.Wf) (s : Bytes) (pos : Nat) (typ : Typ) (got : Got) (want : Want) (r : Bytes)
    (h : (d.parse s).2 = .err pos typ got want r) : pos < s.length ∧ r = [] := by
  obtain ⟨e1, e2, _⟩ := parse_err hwf (eta h)
  refine ⟨?_, e2⟩
  have := (spec_all (2 * s.length + 2)).1 0 s
  rw [show tVal (2 * s.length + 2) 0 s = treeParse s from rfl, e1] at this
  simp only [SpecVal] at this
  omega

/-! ## C16 -/

/-- **C16**: `Parse` never crashes (no nil dereference, no unbounded recursion), and on success the new node
gets the previous node count as id and every child id of a new node lies strictly between the node and the
new node count. -/
theorem C16_parse_total (d : Doc) (hwf : d.Wf) (s : Bytes) :
    (d.parse s).2 ≠ .crash ∧
    ∀ d' id r, d.parse s = (d', .ok id r) → id = d.len ∧ d.len < d'.len ∧ d'.Wf ∧
      ∀ i c, d.len ≤ i → d'.cont i = some c → ∀ v ∈ c.vals, i < v.id ∧ v.id < d'.len := by
  constructor
  · rcases parse_cases hwf s with ⟨_, _, _, d1, e1, e2, _⟩ | ⟨_, d1, e1, e2, _⟩ | ⟨_, _, _, _, d1, e1, e2, _⟩ <;>
      (rw [e2]; simp)
  · intro d' id r h
    obtain ⟨t, pos, h1, h2, h3, h4, h5⟩ := parse_ok hwf h
    have hl : d'.len = d.len + t.size := by
      rw [← view_length h3, h5, List.length_append, view_length hwf, rootHead_length, flat_length]
    have := size_pos t
    refine ⟨h2, by omega, h3, fun i c hi hc v hv => ?_⟩
    have := view_range (view_length hwf) h5 hi hc v hv
    omega

example : (dirty.parse b!"[[1],2]").2 = .ok 1 [] ∧ ((dirty.parse b!"[[1],2]").1.cont 1) = some ⟨tArray, [], [⟨2, []⟩, ⟨4, []⟩]⟩ := by
  decide +kernel

/-! ## C17 -/

/-- **C17**: whatever the outcome, every node that existed before reads exactly as before; on failure the node
count is unchanged; the revision never changes. -/
theorem C17_parse_frame (d : Doc) (hwf : d.Wf) (s : Bytes) :
    (∀ id, id < d.len → (d.parse s).1.cont id = d.cont id) ∧
    ((∀ id r, (d.parse s).2 ≠ .ok id r) → (d.parse s).1.len = d.len) ∧
    (d.parse s).1.rev = d.rev := by
  rcases parse_cases hwf s with ⟨t, _, _, d1, e1, e2, e3, e4, e5⟩ | ⟨_, d1, e1, e2, e3, e4, e5, e6⟩ | ⟨_, _, _, _, d1, e1, e2, e3, e4, e5, e6⟩
  · rw [e2]
    refine ⟨fun id hid => ?_, fun h => absurd rfl (h _ _), e4⟩
    rw [cont_eq_view, cont_eq_view, e5, List.getElem?_append_left (by rw [view_length hwf]; exact hid)]
  · rw [e2]
    exact ⟨fun id hid => by rw [cont_eq_view, cont_eq_view, e6], fun _ => e5, e4⟩
  · rw [e2]
    exact ⟨fun id hid => by rw [cont_eq_view, cont_eq_view, e6], fun _ => e5, e4⟩

example : (dirty.parse b!"[1,[").1.cont 0 = some ⟨tNull, b!"null", []⟩ ∧ dirty.cont 0 = some ⟨tNull, b!"null", []⟩ := by decide +kernel

end Verif.Props
