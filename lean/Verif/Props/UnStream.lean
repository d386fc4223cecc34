import Verif.Proofs.UnLine
import Verif.Props.UnRound

/-! # Line delimited streams (C56) -/

namespace Verif.Props
open Verif Verif.Float Verif.Spec Verif.Njson Verif.Unjson Verif.UnStream

/-- **C56**, reading: whatever the size of the buffer and the pieces in which the reader delivers a content made of
lines, the calls of `Decode` decode the lines one by one, each on its own, and then return `io.EOF`. -/
theorem C56_reads {U : Univ} {fuel : Nat} {src : Src} {c : Bytes} {ls : List Bytes} (hL : Lines c ls) (hD : Delivers src c) (hN : NoStall src)
    {size : Nat} (hs : 2 ≤ size) (dec : Option TypeDecoder) (xs : List (Option (Ty × GV))) (rs : List (Out (Option (Ty × GV))))
    (h : { LineDec.new size src with dec := dec }.run U fuel xs = some rs) :
    rs.length = xs.length ∧ ∀ (i : Nat) x r, xs[i]? = some x → rs[i]? = some r →
      (∀ l, ls[i]? = some l → LineResult U fuel dec l x r) ∧ (ls[i]? = none → r = .done x (some .eof)) :=
  run_lines xs _ c ls rs ⟨hs, Nat.zero_le _, hN, .inl ⟨rfl, c, hD, rfl⟩⟩ hL empty_wf h

/-- The text that a call of `Encode` writes, if it succeeds. -/
def textOf (U : Univ) (fuel : Nat) (enc : Option TypeEncoder) (x : Option (Ty × GV)) : Option Bytes :=
  match LineEnc.text U fuel enc x with
  | some (.done text none) => some text
  | _ => none

/-- **C56**, writing: the calls of `Encode` write the texts of the values, each followed by a newline; a call that fails writes nothing. -/
theorem C56_writes {U : Univ} {fuel : Nat} : ∀ (xs : List (Option (Ty × GV))) (e : LineEnc) (outs : List (Out Unit)) (e' : LineEnc),
    e.run U fuel xs = some (outs, e') →
    e'.out = e.out ++ (xs.filterMap (textOf U fuel e.enc)).flatMap (· ++ [10]) ∧ e'.enc = e.enc ∧ outs.length = xs.length ∧
    ∀ (i : Nat) x, xs[i]? = some x → (outs[i]? = some (.done () none) ↔ textOf U fuel e.enc x ≠ none) := by
  intro xs
  induction xs with
  | nil => intro e outs e' h; cases h; simp
  | cons x xs ih =>
    intro e outs e' h
    unfold LineEnc.run at h
    cases hq : e.encode U fuel x with
    | none => rw [hq] at h; cases h
    | some p =>
      obtain ⟨r, e1⟩ := p
      rw [hq] at h
      simp only at h
      cases hr : e1.run U fuel xs with
      | none => rw [hr] at h; cases h
      | some p =>
        obtain ⟨rs, e2⟩ := p
        rw [hr] at h
        cases h
        obtain ⟨g1, g2, g3, g4⟩ := ih e1 rs e' hr
        unfold LineEnc.encode at hq
        have key : e1.enc = e.enc ∧ e1.out = e.out ++ ((textOf U fuel e.enc x).toList).flatMap (· ++ [10]) ∧
            (r = .done () none ↔ textOf U fuel e.enc x ≠ none) := by
          unfold textOf
          cases ht : LineEnc.text U fuel e.enc x with
          | none => rw [ht] at hq; cases hq
          | some o =>
            rw [ht] at hq
            cases o with
            | panic => cases hq; simp
            | done text err =>
              cases err with
              | none => cases hq; simp
              | some err => cases hq; simp
        obtain ⟨k1, k2, k3⟩ := key
        rw [k1] at g1 g2 g4
        refine ⟨?_, g2, by simp [g3], ?_⟩
        · rw [g1, k2, List.filterMap_cons]
          cases textOf U fuel e.enc x <;> simp
        · intro i y hy
          cases i with
          | zero => cases hy; simpa using k3
          | succ i => simpa using g4 i y hy

theorem lines_texts : ∀ ts : List Bytes, (∀ t ∈ ts, 10 ∉ t) → Lines (ts.flatMap (· ++ [10])) (ts.map strip) := by
  intro ts
  induction ts with
  | nil => intro _; exact .nil
  | cons t ts ih =>
    intro h
    have h1 := h t (by simp)
    have h2 := ih fun t ht => h t (by simp [ht])
    simp only [List.flatMap_cons, List.map_cons, List.append_assoc, List.singleton_append]
    by_cases hc : t.getLast? = some 13
    · obtain ⟨a, rfl⟩ := List.getLast?_eq_some_iff.1 hc
      have : strip (a ++ [13]) = a := by unfold strip; simp
      rw [this]
      have := Lines.crlf (l := a) (by simp only [List.mem_append, not_or] at h1; exact h1.1) h2
      simpa using this
    · have : strip t = t := by unfold strip; rw [if_neg hc]
      rw [this]
      exact .lf h1 hc h2

/-- **C56**: what `LineEncoder` writes for a sequence of values whose texts contain no newline is read back line by line:
the i-th call of `Decode` decodes the i-th text by itself, for every size of the buffer and every way the reader splits the
stream, and after the last text `io.EOF` is returned. -/
theorem C56_stream {U : Univ} {fuel fuel' : Nat} (enc : Option TypeEncoder) (dec : Option TypeDecoder) (vs : List (Option (Ty × GV)))
    (outs : List (Out Unit)) (e : LineEnc) (hw : LineEnc.run U fuel ⟨enc, []⟩ vs = some (outs, e))
    (hnl : ∀ t ∈ vs.filterMap (textOf U fuel enc), 10 ∉ t) {src : Src} (hD : Delivers src e.out) (hN : NoStall src) {size : Nat} (hs : 2 ≤ size)
    (xs : List (Option (Ty × GV))) (rs : List (Out (Option (Ty × GV)))) (h : { LineDec.new size src with dec := dec }.run U fuel' xs = some rs) :
    rs.length = xs.length ∧ ∀ (i : Nat) x r, xs[i]? = some x → rs[i]? = some r →
      (∀ t, (vs.filterMap (textOf U fuel enc))[i]? = some t → LineResult U fuel' dec t x r) ∧
      ((vs.filterMap (textOf U fuel enc))[i]? = none → r = .done x (some .eof)) := by
  obtain ⟨g1, _⟩ := C56_writes vs _ _ _ hw
  simp only [List.nil_append] at g1
  rw [g1] at hD
  obtain ⟨h1, h2⟩ := C56_reads (lines_texts _ hnl) hD hN hs dec xs rs h
  refine ⟨h1, fun i x r hx hr => ⟨fun t ht => ?_, fun hn => ?_⟩⟩
  · exact lineResult_strip.1 ((h2 i x r hx hr).1 _ (by rw [List.getElem?_map, ht]; rfl))
  · exact (h2 i x r hx hr).2 (by rw [List.getElem?_map, hn]; rfl)

/-! ## The texts of values without marshal methods contain no newline -/

/-- No control characters -/
def NoCtl (s : Bytes) : Prop := ∀ b ∈ s, 32 ≤ b.toNat

theorem enc_noCtl {c : Char} (h : 32 ≤ c.toNat) : NoCtl (enc c) := by
  rw [← encodeRune_char]
  have hc := char_cases c
  generalize c.toNat = n at h hc
  unfold NoCtl encodeRune
  intro b hb
  split at hb
  · simp at hb; subst hb; simp; omega
  · split at hb
    · simp at hb; rcases hb with rfl | rfl <;> simp <;> omega
    · split at hb
      · simp at hb; rcases hb with rfl | rfl | rfl <;> decide
      · split at hb
        · simp at hb; rcases hb with rfl | rfl | rfl <;> simp <;> omega
        · simp at hb; rcases hb with rfl | rfl | rfl | rfl <;> simp <;> omega

theorem NoCtl.append {a b : Bytes} (ha : NoCtl a) (hb : NoCtl b) : NoCtl (a ++ b) := by
  intro x hx
  rcases List.mem_append.1 hx with h | h
  · exact ha x h
  · exact hb x h

theorem rfcBody_noCtl {s : Bytes} (h : RfcBody s) : NoCtl s := by
  induction h with
  | nil => intro b hb; cases hb
  | char c h1 _ ih => exact (enc_noCtl h1.1).append ih
  | @short e v s h1 _ ih =>
    have : NoCtl [92, e] := by
      simp only [shortEscapes, List.mem_cons, Prod.mk.injEq, List.not_mem_nil, or_false] at h1
      intro b hb
      simp at hb
      rcases hb with rfl | rfl
      · decide
      · rcases h1 with h | h | h | h | h | h | h | h <;> (rw [h.1]; decide)
    exact this.append ih
  | @hex h n s h1 _ ih =>
    have key : ∀ b : UInt8, ∀ v, hexVal b = some v → 32 ≤ b.toNat := by
      intro b v hv
      unfold hexVal at hv
      simp only at hv
      split at hv
      · omega
      · split at hv
        · omega
        · split at hv
          · omega
          · cases hv
    have : NoCtl (92 :: 117 :: h) := by
      cases h1 with
      | mk ha hb hc hd =>
        intro b hb'
        simp at hb'
        rcases hb' with rfl | rfl | rfl | rfl | rfl | rfl
        · decide
        · decide
        · exact key _ _ ha
        · exact key _ _ hb
        · exact key _ _ hc
        · exact key _ _ hd
    exact this.append ih

theorem rfcNumber_noCtl {s : Bytes} (h : RfcNumber s) : NoCtl s := by
  obtain ⟨m, i, f, e, rfl, hm, hi, hf, he⟩ := h
  have hdig : ∀ {d}, Digits d → NoCtl d := fun hd b hb => by have := hd.2 b hb; unfold IsDigitByte at this; omega
  refine ((NoCtl.append ?_ ?_).append ?_).append ?_
  · rcases hm with rfl | rfl <;> (unfold NoCtl; decide)
  · rcases hi with rfl | ⟨hi, _⟩
    · unfold NoCtl; decide
    · exact hdig hi
  · rcases hf with rfl | ⟨d, rfl, hd⟩
    · unfold NoCtl; decide
    · exact NoCtl.append (a := [46]) (by unfold NoCtl; decide) (hdig hd)
  · rcases he with rfl | ⟨x, sg, d, rfl, hx, hsg, hd⟩
    · unfold NoCtl; decide
    · refine NoCtl.append (a := [x]) ?_ (NoCtl.append ?_ (hdig hd))
      · rcases hx with rfl | rfl <;> (unfold NoCtl; decide)
      · rcases hsg with rfl | rfl | rfl <;> (unfold NoCtl; decide)

theorem ser_noCtl : (∀ j : JVal, AllRaw NoCtl NoCtl NoCtl j → NoCtl j.ser) ∧ (∀ xs, AllRawElems NoCtl NoCtl NoCtl xs → NoCtl (serElems xs)) ∧
    (∀ ms, AllRawMembers NoCtl NoCtl NoCtl ms → NoCtl (serMembers ms)) := by
  have c1 : NoCtl b!"null" := by unfold NoCtl; decide
  have c2 : NoCtl b!"true" := by unfold NoCtl; decide
  have c3 : NoCtl b!"false" := by unfold NoCtl; decide
  have c4 : NoCtl [] := by unfold NoCtl; decide
  have c5 : NoCtl [34] := by unfold NoCtl; decide
  have c6 : NoCtl [91] := by unfold NoCtl; decide
  have c7 : NoCtl [93] := by unfold NoCtl; decide
  have c8 : NoCtl [123] := by unfold NoCtl; decide
  have c9 : NoCtl [125] := by unfold NoCtl; decide
  have c10 : NoCtl [44] := by unfold NoCtl; decide
  have c11 : NoCtl [34, 58] := by unfold NoCtl; decide
  apply jval_ind
  · intro _; exact c1
  · intro b _; cases b
    · exact c3
    · exact c2
  · intro raw h; exact h
  · intro raw h; exact (c5.append h).append c5
  · intro xs ih h; exact (c6.append (ih h)).append c7
  · intro ms ih h; exact (c8.append (ih h)).append c9
  · intro _; exact c4
  · intro x xs ih1 ih2 h
    cases xs with
    | nil => exact ih1 h.1
    | cons y ys => exact ((ih1 h.1).append c10).append (ih2 h.2)
  · intro _; exact c4
  · intro k x ms ih1 ih2 h
    cases ms with
    | nil => exact ((c5.append h.1).append c11).append (ih1 h.2.1)
    | cons y ys => exact ((((c5.append h.1).append c11).append (ih1 h.2.1)).append c10).append (ih2 h.2.2)

/-- A text that `Marshal` returns for a value without marshal methods is one line. -/
theorem marshal_oneLine {U : Univ} (hE : U.EmbedsStructs) (hO : U.NoOmitMethod) (hF : U.GoFloats) (hT : U.PlainTags defaultOptions)
    {t : Ty} {v : GV} (hv : MarshalArg U t v) (hq : AllFlt Fits32 v) (fuel : Nat) (text : Bytes)
    (h : Unjson.appendJSON U fuel [] (some (t, v)) = some (.done text none)) : 10 ∉ text := by
  rcases C47_encodes hE hO hF hv fuel [] _ h with ⟨j, h1, h2⟩ | ⟨_, _, h1⟩
  · cases h1
    have := (ser_noCtl.1 j ((allRaw_mono (fun s hs => ?_) (fun _ h => rfcBody_noCtl h) (fun _ h => rfcNumber_noCtl h)).1 j (marshalsAs_raw hF hT h2 hq)))
    · intro hm
      have := this 10 (by simpa using hm)
      revert this; decide
    · obtain ⟨s, html, rfl, _⟩ := hs
      exact rfcBody_noCtl (C03_escaped_legal s html).1
  · cases h1

/-- `UnmarshalFromNode` on a node with a known tree. -/
theorem unmarshalFromNode_tree {U : Univ} (hU : U.Ok) (hE : U.EmbedsStructs) {t e : Ty} {x : GV} (ha : UnmarshalArg U t e x) (fuel : Nat)
    {h : Heap} {n : Node} {j : JVal} (hn : Tree h n j) (r : Out (Option (Ty × GV))) (hr : unmarshalFromNode U fuel h n (some (t, .ptr x)) = some r) :
    (∃ err, newTypeDecoder U [] fuel t = .err err ∧ r = .done (some (t, .ptr x)) (some err)) ∨
    ∃ r', Decodes U decodeOptions e x j r' ∧ r = r'.map fun y => some (t, .ptr y) := by
  unfold unmarshalFromNode at hr
  simp only at hr
  cases hq : newTypeDecoder U [] fuel t with
  | diverge => rw [hq] at hr; cases hr
  | err e => rw [hq] at hr; cases hr; exact .inl ⟨_, rfl, rfl⟩
  | ok c =>
    rw [hq] at hr
    refine .inr ?_
    unfold newTypeDecoder at hq
    rw [ha.base] at hq
    simp only at hq
    rw [if_neg (by simp [ha.noMethod.1]), if_neg (by simp [ha.noMethod.2.1]), if_neg (by simp [ha.noMethod.2.2]), if_pos trivial] at hq
    have ho : ({ tag := defaultTag } : Options) = decodeOptions := rfl
    rw [ho] at hq
    cases hb : newDecoder U decodeOptions fuel e Codecs.empty with
    | diverge => rw [hb] at hq; cases hq
    | err e => rw [hb] at hq; cases hq
    | ok p =>
      obtain ⟨dec, cs⟩ := p
      rw [hb] at hq
      cases hq
      obtain ⟨hs, hdi⟩ := newDecoder_store hb
      simp only [TypeDecoder.decode, if_true, ha.base] at hr
      cases hdec : Unjson.decode U cs.objs h fuel dec n ⟨e, x, true⟩ with
      | none => rw [hdec] at hr; cases hr
      | some r' =>
        rw [hdec] at hr
        refine ⟨r', decode_spec hU hE hs _ _ _ _ _ _ _ _ hdi ha.plain ha.typed hn hdec, ?_⟩
        cases r' <;> (cases hr; rfl)

/-- A value to be sent: of a supported type `e`, read back through type `t`. -/
structure Item (U : Univ) (t e : Ty) (x : GV) : Prop where
  base : U.base t = .ptr e
  noMethod : NoUnmarshal U t
  plain : PlainTy U e
  sup : Supported U e
  arg : MarshalArg U e x
  surv : Survives U Hint.none e x

/-- **C56** and C48 together: a sequence of values that survive (see `C48_partial`), written with `LineEncoder` and read
with `LineDecoder` into zero variables of their types, comes back, in order, for every buffer size and every way the
reader splits the stream. -/
theorem C56_values {U : Univ} (hU : U.Ok) (hE : U.EmbedsStructs) (hO : U.NoOmitMethod) (hF : U.GoFloats) (hT : U.PlainTags defaultOptions)
    (items : List (Ty × Ty × GV)) (hi : ∀ p ∈ items, Item U p.1 p.2.1 p.2.2) {fuel fuel' : Nat}
    (outs : List (Out Unit)) (e : LineEnc) (hw : LineEnc.run U fuel ⟨none, []⟩ (items.map fun p => some p.2) = some (outs, e))
    (hok : ∀ o ∈ outs, o = .done () none) {src : Src} (hD : Delivers src e.out) (hN : NoStall src) {size : Nat} (hs : 2 ≤ size)
    (rs : List (Out (Option (Ty × GV))))
    (h : (LineDec.new size src).run U fuel' (items.map fun p => some (p.1, .ptr (U.zero p.2.1))) = some rs) :
    rs = items.map fun p => .done (some (p.1, .ptr p.2.2.trim)) none := by
  have hflt : ∀ {t e x}, Item U t e x → AllFlt Fits32 x := fun hx =>
    survives_leaf hU (fun _ _ => trivial) (fun neg m e h => by intro neg' m' e' he; cases he; exact h) hx.surv
  have hstr : ∀ {t e x}, Item U t e x → AllStr GoodText x := fun hx => survives_leaf hU (fun _ h => h.2) (fun _ _ _ _ => trivial) hx.surv
  obtain ⟨_, _, g3, g4⟩ := C56_writes _ _ _ _ hw
  -- every value has a text
  have hall : ∀ p ∈ items, ∃ text, textOf U fuel none (some p.2) = some text := by
    intro p hp
    obtain ⟨i, hlt, rfl⟩ := List.getElem_of_mem hp
    have hlt' : i < outs.length := by rw [g3]; simpa using hlt
    have := (g4 i (some items[i].2) (by simp [hlt])).1 (by rw [List.getElem?_eq_getElem hlt', hok _ (List.getElem_mem hlt')])
    cases ht : textOf U fuel none (some items[i].2) with
    | none => exact absurd ht this
    | some t => exact ⟨t, rfl⟩
  have happ : ∀ {p : Ty × GV} {text}, textOf U fuel none (some p) = some text → Unjson.appendJSON U fuel [] (some p) = some (.done text none) := by
    intro p text ht
    unfold textOf LineEnc.text at ht
    simp only at ht
    split at ht
    · cases ht; assumption
    · cases ht
  have hidx : ∀ (l : List (Ty × Ty × GV)), (∀ p ∈ l, ∃ text, textOf U fuel none (some p.2) = some text) → ∀ (i : Nat) p, l[i]? = some p →
      ((l.map fun p => some p.2).filterMap (textOf U fuel none))[i]? = textOf U fuel none (some p.2) := by
    intro l
    induction l with
    | nil => intro _ i p h; cases h
    | cons q l ih =>
      intro ha i p hp
      obtain ⟨text, ht⟩ := ha q (by simp)
      rw [List.map_cons, List.filterMap_cons, ht]
      cases i with
      | zero => cases hp; exact ht.symm
      | succ i => exact ih (fun p hp => ha p (by simp [hp])) i p hp
  have hnl : ∀ t ∈ (items.map fun p => some p.2).filterMap (textOf U fuel none), 10 ∉ t := by
    intro t ht
    obtain ⟨x, hx, hxt⟩ := List.mem_filterMap.1 ht
    obtain ⟨p, hp, rfl⟩ := List.mem_map.1 hx
    exact marshal_oneLine hE hO hF hT (hi p hp).arg (hflt (hi p hp)) fuel t (happ hxt)
  obtain ⟨r1, r2⟩ := C56_stream none none _ outs e hw hnl hD hN hs _ rs h
  apply List.ext_getElem?
  intro i
  cases hp : items[i]? with
  | none =>
    have : items.length ≤ i := by simpa using hp
    rw [List.getElem?_eq_none (by rw [r1]; simpa using this), List.getElem?_map, hp]; rfl
  | some p =>
    have hlt : i < items.length := (List.getElem?_eq_some_iff.1 hp).1
    have hlt' : i < rs.length := by rw [r1]; simpa using hlt
    have hmem : p ∈ items := List.mem_of_getElem? hp
    obtain ⟨text, ht⟩ := hall p hmem
    have hi' := hi p hmem
    have hline := (r2 i (some (p.1, .ptr (U.zero p.2.1))) rs[i] (by rw [List.getElem?_map, hp]; rfl) (List.getElem?_eq_getElem hlt')).1 text
      (by rw [hidx items hall i p hp, ht])
    rw [List.getElem?_eq_getElem hlt', List.getElem?_map, hp]
    simp only [Option.map_some, Option.some.injEq]
    rcases C47_parse_partial hE hO hF hT hi'.arg (hflt hi') (hstr hi') fuel [] _ (happ ht) Doc.empty empty_wf with ⟨text', j, d', id, h1, h2, h3⟩ | ⟨b, er, he⟩
    · cases h1
      rw [List.nil_append] at hline
      have harg : UnmarshalArg U p.1 p.2.1 (U.zero p.2.1) := ⟨hi'.base, hi'.noMethod, hi'.plain, hasTy_zero hU _⟩
      generalize rs[i] = r at hline
      cases hline with
      | reject q => exact absurd ⟨_, _, _, _, h3⟩ q
      | more q1 q2 =>
        obtain ⟨_, rfl⟩ := parses_unique empty_wf h3 q1
        exact absurd ⟨[], rfl, by simp⟩ q2
      | value q1 q2 _ q4 q5 =>
        obtain ⟨rfl, rfl⟩ := parses_unique empty_wf h3 q1
        rcases unmarshalFromNode_tree hU hE harg fuel' q4 _ q5 with ⟨err, hq, _⟩ | ⟨r', hdec, rfl⟩
        · exact absurd hq (newTypeDecoder_accepts hU hi'.base hi'.sup err)
        · rw [decodes_unique hdec _ (survives_back hU hi'.surv (marshalsAs_encodes h2))]; rfl
      | valueWith _ _ q _ _ => cases q
    · cases he

/-! ## Concrete streams -/

/-- Compare the results of calls of `Decode`. -/
def sameRun : List (Out (Option (Ty × GV))) → List (Ty × GV × Option UErr) → Bool
  | [], [] => true
  | r :: rs, (t, v, e) :: es => sameX (some r) t v e && sameRun rs es
  | _, _ => false

theorem eq_of_sameRun : ∀ {rs : List (Out (Option (Ty × GV)))} {es : List (Ty × GV × Option UErr)}, sameRun rs es = true →
    rs = es.map fun p => .done (some (p.1, p.2.1)) p.2.2
  | [], [], _ => rfl
  | [], _ :: _, h => by cases h
  | _ :: _, [], h => by cases h
  | r :: rs, (t, v, e) :: es, h => by
    simp only [sameRun, Bool.and_eq_true] at h
    have h1 := eq_of_sameX h.1
    cases h1
    rw [eq_of_sameRun h.2]; rfl

theorem eq_of_run {x : Option (List (Out (Option (Ty × GV))))} {es : List (Ty × GV × Option UErr)}
    (h : (match x with | some rs => sameRun rs es | none => false) = true) : x = some (es.map fun p => .done (some (p.1, p.2.1)) p.2.2) := by
  cases x with
  | none => cases h
  | some rs => exact congrArg some (eq_of_sameRun h)

/-- A stream in pieces: the list of `C48_partial`, longer than the buffer of 16 bytes, and a number. -/
def exSrc : Src := [(b!"{\"A\":-12,\"b\":\"a\\\"b\",\"ne", none), ([], none), (b!"xt\":{\"A\":3,\"b\":\"\"}}\n", none), (b!"5\n", some .eof)]

/-- The hypotheses hold, a stream is written and read. -/
example : Item exU (.ptr (.struct 0)) (.struct 0) exList ∧
    (∃ outs e, LineEnc.run exU 30 ⟨none, []⟩ [some (.struct 0, exList), some (.int .b8, .int 5)] = some (outs, e) ∧ outs.length = 2 ∧ Delivers exSrc e.out) ∧
    NoStall exSrc ∧
    (LineDec.new 16 exSrc).run exU 30 [some (.ptr (.struct 0), .ptr (exU.zero (.struct 0))), some (.ptr (.int .b8), .ptr (.int 0)), some (.ptr .bool, .ptr (.bool true))] =
      some [.done (some (.ptr (.struct 0), .ptr exList)) none, .done (some (.ptr (.int .b8), .ptr (.int 5))) none, .done (some (.ptr .bool, .ptr (.bool true))) (some .eof)] := by
  have hdel : Delivers exSrc (b!"{\"A\":-12,\"b\":\"a\\\"b\",\"next\":{\"A\":3,\"b\":\"\"}}\n5\n") :=
    ⟨b!"xt\":{\"A\":3,\"b\":\"\"}}\n5\n", rfl, b!"xt\":{\"A\":3,\"b\":\"\"}}\n5\n", rfl, b!"5\n", rfl, rfl, rfl, rfl⟩
  have h1 : Unjson.appendJSON exU 30 [] (some (.struct 0, exList)) = some (.done (b!"{\"A\":-12,\"b\":\"a\\\"b\",\"next\":{\"A\":3,\"b\":\"\"}}") none) :=
    eq_of_sameB (by decide +kernel)
  have h2 : Unjson.appendJSON exU 30 [] (some (.int .b8, .int 5)) = some (.done (b!"5") none) := eq_of_sameB (by decide +kernel)
  refine ⟨⟨rfl, exU_noUnmarshal _, fun _ _ => exU_noUnmarshal _, exU_supported, ?_, ?_⟩, ⟨[.done () none, .done () none], ⟨none, _⟩, ?_, rfl, hdel⟩, ?_, ?_⟩
  · rcases exList_arg with ⟨h, _⟩ | ⟨e, x, h1, h2, _, h3⟩
    · exact absurd rfl (h (.struct 0))
    · cases h1; cases h2
      exact .inl ⟨(fun e h => by cases h), ⟨by decide, by decide, by decide⟩, h3⟩
  · refine survives_list _ _ _ (by decide) (safe_ascii (by decide) (by decide)) (.inr ⟨_, rfl, by simp, by simp, by simp, ?_⟩) _
    exact survives_list _ _ _ (by decide) (safe_ascii (by decide) (by decide)) (.inl rfl) _
  · simp only [LineEnc.run, LineEnc.encode, LineEnc.text, h1, h2]
    rfl
  · intro pre mid post h _
    have := congrArg List.length h
    simp only [List.length_append] at this
    have h4 : exSrc.length = 4 := rfl
    omega
  · exact eq_of_run (es := [(.ptr (.struct 0), .ptr exList, none), (.ptr (.int .b8), .ptr (.int 5), none), (.ptr .bool, .ptr (.bool true), some .eof)]) (by decide +kernel)

/-- A last line without a newline is decoded if it is shorter than the buffer. -/
theorem C56_last_partial {U : Univ} {fuel : Nat} {src : Src} {c : Bytes} (hD : Delivers src c) (hN : NoStall src) {size : Nat} (hs : 2 ≤ size)
    (h10 : 10 ∉ c) (hc : c ≠ []) (hlen : c.length < size) (x : Option (Ty × GV)) (r : Out (Option (Ty × GV))) (d : LineDec)
    (h : (LineDec.new size src).decode U fuel x = some (r, d)) : LineResult U fuel none c x r := by
  obtain ⟨b, hn, hg'⟩ := nextLine_last ((LineDec.new size src).r.pending + 1) (LineDec.new size src).r [] c
    ⟨hs, Nat.zero_le _, hN, .inl ⟨rfl, c, hD, rfl⟩⟩ h10 hc hlen
  unfold LineDec.decode at h
  rw [hn] at h
  simp only [List.nil_append] at h
  rcases heap_parse (d := (LineDec.new size src).doc) empty_wf c with ⟨d1, id, j, tail, hp, n, q1, q2, q3⟩ | ⟨q1, hp, n, out, q2, q3, q4⟩
  · rw [q2] at h
    simp only at h
    cases hb : isBlank tail with
    | false =>
      rw [hb, if_neg (by simp)] at h
      cases h
      exact .more q1 (isBlank_not hb)
    | true =>
      rw [hb, if_pos rfl] at h
      have hdec : (LineDec.new size src).dec = none := rfl
      rw [hdec] at h
      simp only at h
      cases hu : unmarshalFromNode U fuel hp n x with
      | none => rw [hu] at h; cases h
      | some r => rw [hu] at h; cases h; exact .value q1 ((isBlank_iff _).1 hb) rfl q3 hu
  · rw [q2] at h
    cases out with
    | ok id tail => exact absurd rfl (q4 _ _)
    | crash => exact absurd rfl q3
    | _ => cases h; exact .reject q1

/-- A last line without a newline that fills the buffer is lost: `Decode` returns `io.EOF`. The same text is decoded when the
reader reports the end of the file together with it, or when the buffer is larger. -/
theorem C56_last_false :
    (LineDec.new 16 [(b!"\"abcdefghijklmn\"", none)]).run exU 30 [some (.ptr .string, .ptr (.str []))] = some [.done (some (.ptr .string, .ptr (.str []))) (some .eof)] ∧
    (LineDec.new 16 [(b!"\"abcdefghijklmn\"", some .eof)]).run exU 30 [some (.ptr .string, .ptr (.str []))] =
      some [.done (some (.ptr .string, .ptr (.str b!"abcdefghijklmn"))) none] ∧
    (LineDec.new 17 [(b!"\"abcdefghijklmn\"", none)]).run exU 30 [some (.ptr .string, .ptr (.str []))] =
      some [.done (some (.ptr .string, .ptr (.str b!"abcdefghijklmn"))) none] :=
  ⟨eq_of_run (es := [(.ptr .string, .ptr (.str []), some .eof)]) (by decide +kernel),
    eq_of_run (es := [(.ptr .string, .ptr (.str b!"abcdefghijklmn"), none)]) (by decide +kernel),
    eq_of_run (es := [(.ptr .string, .ptr (.str b!"abcdefghijklmn"), none)]) (by decide +kernel)⟩

/-- Blank lines are errors, as is a second value on a line; the stream goes on behind them. -/
example : (LineDec.new 16 [(b!"\n1 2\n\n3\r\n", none)]).run exU 30 (List.replicate 5 (some (.ptr (.int .b8), .ptr (.int 0)))) =
    some ([(.ptr (.int .b8), .ptr (.int 0), some .parse), (.ptr (.int .b8), .ptr (.int 0), some .line), (.ptr (.int .b8), .ptr (.int 0), some .parse),
      (.ptr (.int .b8), .ptr (.int 3), none), (.ptr (.int .b8), .ptr (.int 0), some .eof)].map fun p => .done (some (p.1, p.2.1)) p.2.2) :=
  eq_of_run (by decide +kernel)

end Verif.Props
