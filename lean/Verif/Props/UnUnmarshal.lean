import Verif.Proofs.UnFits
import Verif.Proofs.UnExample
import Verif.Props.NumJson

/-! # What Unmarshal does (C49, C50, C51) -/

namespace Verif.Props
open Verif Verif.Float Verif.Spec Verif.Njson Verif.Unjson

/-- An argument of `Unmarshal` with a destination: a non-nil pointer to a variable of type `e` with content `x`, where
no unmarshal methods are involved. -/
structure UnmarshalArg (U : Univ) (t e : Ty) (x : GV) : Prop where
  base : U.base t = .ptr e
  noMethod : NoUnmarshal U t
  plain : PlainTy U e
  typed : HasTy U e x

/-- What parsing puts on the heap. -/
theorem heap_parse {d : Doc} (hd : d.Wf) (s : Bytes) :
    (∃ d' id j tail h n, Parses d s d' id j tail ∧ Heap.parse (fun _ => d) 0 s = (h, n, .ok id tail) ∧ Tree h n j) ∨
    ((¬ ∃ d' id j tail, Parses d s d' id j tail) ∧ ∃ h n out, Heap.parse (fun _ => d) 0 s = (h, n, out) ∧ out ≠ .crash ∧ ∀ id tail, out ≠ .ok id tail) := by
  have hnone : ∀ {e}, treeParse s = .err e → ¬ ∃ d' id j tail, Parses d s d' id j tail := by
    rintro e he ⟨d', id, j, tail, hp⟩
    obtain ⟨pos, hp⟩ := (parses_iff hd).1 ⟨d', id, hp⟩
    rw [he] at hp; cases hp
  rcases parse_cases hd s with ⟨t, pos, r, d', h1, h2, _⟩ | ⟨typ, d', h1, h2, _⟩ | ⟨pos, typ, got, want, d', h1, h2, _⟩
  · obtain ⟨d'', id, hp⟩ := (parses_iff hd).2 ⟨pos, h1⟩
    have hp' := hp
    obtain ⟨q1, q2⟩ := hp
    refine .inl ⟨d'', id, t, r, Heap.set (fun _ => d) 0 d'', Heap.node (Heap.set (fun _ => d) 0 d'') 0 id, hp', ?_, ?_⟩
    · unfold Heap.parse; simp only [q1]
    · exact ⟨0, by simp [Node.document, Heap.node, Heap.set], by simpa [Heap.node, Heap.set] using q2⟩
  · exact .inr ⟨hnone h1, Heap.set (fun _ => d) 0 d', Node.zero, .eof typ s, by unfold Heap.parse; simp only [h2], by simp, by simp⟩
  · exact .inr ⟨hnone h1, Heap.set (fun _ => d) 0 d', Node.zero, .err pos typ got want [], by unfold Heap.parse; simp only [h2], by simp, by simp⟩

/-- Every result of `Unmarshal` into a variable: the type is rejected, or the text is, or the first value of the text is
decoded as the rules say. In the first two cases the variable keeps its content. -/
theorem unmarshal_spec {U : Univ} (hU : U.Ok) (hE : U.EmbedsStructs) {t e : Ty} {x : GV} (ha : UnmarshalArg U t e x) (fuel : Nat)
    {d : Doc} (hd : d.Wf) (s : Bytes) (r : Out (Option (Ty × GV))) (h : unmarshal U fuel d s (some (t, .ptr x)) = some r) :
    (∃ err, newTypeDecoder U [] fuel t = .err err ∧ r = .done (some (t, .ptr x)) (some err)) ∨
    ((¬ ∃ d' id j tail, Parses d s d' id j tail) ∧ r = .done (some (t, .ptr x)) (some .parse)) ∨
    ∃ d' id j tail r', Parses d s d' id j tail ∧ Decodes U decodeOptions e x j r' ∧ r = r'.map fun y => some (t, .ptr y) := by
  unfold unmarshal at h
  simp only at h
  cases hq : newTypeDecoder U [] fuel t with
  | diverge => rw [hq] at h; cases h
  | err e => rw [hq] at h; cases h; exact .inl ⟨_, rfl, rfl⟩
  | ok c =>
    rw [hq] at h
    refine .inr ?_
    unfold newTypeDecoder at hq
    rw [ha.base] at hq
    simp only at hq
    rw [if_neg (by simp [ha.noMethod.1]), if_neg (by simp [ha.noMethod.2.1]), if_neg (by simp [ha.noMethod.2.2]), if_pos trivial] at hq
    have ho : ({ tag := defaultTag } : Options) = decodeOptions := rfl
    rw [ho] at hq
    cases hn : newDecoder U decodeOptions fuel e Codecs.empty with
    | diverge => rw [hn] at hq; cases hq
    | err e => rw [hn] at hq; cases hq
    | ok p =>
      obtain ⟨dec, cs⟩ := p
      rw [hn] at hq
      cases hq
      obtain ⟨hs, hdi⟩ := newDecoder_store hn
      simp only at h
      rcases heap_parse hd s with ⟨d', id, j, tail, hp, n, q1, q2, q3⟩ | ⟨q1, hp, n, out, q2, q3, q4⟩
      · rw [q2] at h
        simp only [TypeDecoder.decode, if_true, ha.base] at h
        refine .inr ?_
        cases hdec : Unjson.decode U cs.objs hp fuel dec n ⟨e, x, true⟩ with
        | none => rw [hdec] at h; cases h
        | some r' =>
          rw [hdec] at h
          refine ⟨d', id, j, tail, r', q1, decode_spec hU hE hs _ _ _ _ _ _ _ _ hdi ha.plain ha.typed q3 hdec, ?_⟩
          cases r' <;> (cases h; rfl)
      · refine .inl ⟨q1, ?_⟩
        rw [q2] at h
        cases out with
        | ok id tail => exact absurd rfl (q4 _ _)
        | crash => exact absurd rfl q3
        | _ => cases h; rfl

theorem parses_unique {d : Doc} (hd : d.Wf) {s : Bytes} {d1 d2 : Doc} {id1 id2 : Nat} {j1 j2 : JVal} {t1 t2 : Bytes}
    (h1 : Parses d s d1 id1 j1 t1) (h2 : Parses d s d2 id2 j2 t2) : j1 = j2 ∧ t1 = t2 := by
  obtain ⟨p1, q1⟩ := (parses_iff hd).1 ⟨_, _, h1⟩
  obtain ⟨p2, q2⟩ := (parses_iff hd).1 ⟨_, _, h2⟩
  rw [q1] at q2; cases q2; exact ⟨rfl, rfl⟩

/-- The same for a text whose first value is known. -/
theorem unmarshal_tree {U : Univ} (hU : U.Ok) (hE : U.EmbedsStructs) {t e : Ty} {x : GV} (ha : UnmarshalArg U t e x) (fuel : Nat)
    {d : Doc} (hd : d.Wf) (s : Bytes) (r : Out (Option (Ty × GV))) (h : unmarshal U fuel d s (some (t, .ptr x)) = some r)
    {d' : Doc} {id : Nat} {j : JVal} {tail : Bytes} (hp : Parses d s d' id j tail) :
    (∃ err, newTypeDecoder U [] fuel t = .err err ∧ r = .done (some (t, .ptr x)) (some err)) ∨
    ∃ r', Decodes U decodeOptions e x j r' ∧ r = r'.map fun y => some (t, .ptr y) := by
  rcases unmarshal_spec hU hE ha fuel hd s r h with h | ⟨h, _⟩ | ⟨d2, id2, j2, tail2, r', h1, h2, h3⟩
  · exact .inl h
  · exact absurd ⟨_, _, _, _, hp⟩ h
  · obtain ⟨rfl, rfl⟩ := parses_unique hd hp h1
    exact .inr ⟨r', h2, h3⟩

/-! ## C65, C66, C67 -/

/-- **C65**: after `Unmarshal` the variable holds a value of its type. -/
theorem C65_typed {U : Univ} (hU : U.Ok) (hE : U.EmbedsStructs) {t e : Ty} {x : GV} (ha : UnmarshalArg U t e x) (fuel : Nat)
    {d : Doc} (hd : d.Wf) (s : Bytes) (y : Option (Ty × GV)) (err : Option UErr)
    (h : unmarshal U fuel d s (some (t, .ptr x)) = some (.done y err)) : ∃ z, y = some (t, .ptr z) ∧ HasTy U e z := by
  rcases unmarshal_spec hU hE ha fuel hd s _ h with ⟨_, _, h⟩ | ⟨_, h⟩ | ⟨d', id, j, tail, r', h1, h2, h3⟩
  · cases h; exact ⟨x, rfl, ha.typed⟩
  · cases h; exact ⟨x, rfl, ha.typed⟩
  · cases r' with
    | panic => cases h3
    | done z e => cases h3; exact ⟨z, rfl, decodes_hasTy hU hE h2 ha.typed _ _ rfl⟩

/-- **C66**: two texts with the same first value have the same result, whatever the pooled documents. -/
theorem C66_first_value {U : Univ} (hU : U.Ok) (hE : U.EmbedsStructs) {t e : Ty} {x : GV} (ha : UnmarshalArg U t e x) (fuel : Nat)
    {d1 d2 : Doc} (hd1 : d1.Wf) (hd2 : d2.Wf) (s1 s2 : Bytes) {d1' d2' : Doc} {id1 id2 : Nat} {j : JVal} {tail1 tail2 : Bytes}
    (hp1 : Parses d1 s1 d1' id1 j tail1) (hp2 : Parses d2 s2 d2' id2 j tail2) (r1 r2 : Out (Option (Ty × GV)))
    (h1 : unmarshal U fuel d1 s1 (some (t, .ptr x)) = some r1) (h2 : unmarshal U fuel d2 s2 (some (t, .ptr x)) = some r2) : r1 = r2 := by
  have herr : ∀ {err}, newTypeDecoder U [] fuel t = .err err → r1 = r2 := by
    intro err h
    unfold unmarshal at h1 h2
    simp only [h] at h1 h2
    rw [h1] at h2; cases h2; rfl
  rcases unmarshal_tree hU hE ha fuel hd1 s1 r1 h1 hp1 with ⟨_, h, _⟩ | ⟨q1, g1, e1⟩
  · exact herr h
  rcases unmarshal_tree hU hE ha fuel hd2 s2 r2 h2 hp2 with ⟨_, h, _⟩ | ⟨q2, g2, e2⟩
  · exact herr h
  rw [e1, e2, decodes_unique g1 _ g2]

/-- Two such texts: white space and garbage around the value do not matter. -/
example : (∃ d' id, Parses Doc.empty b!"5" d' id (.num b!"5") []) ∧ (∃ d' id, Parses Doc.empty b!" 5 }garbage" d' id (.num b!"5") b!" }garbage") ∧
    unmarshal exU 30 Doc.empty b!" 5 }garbage" (some (.ptr (.int .b8), .ptr (.int 7))) = some (.done (some (.ptr (.int .b8), .ptr (.int 5))) none) :=
  ⟨(parses_iff empty_wf).2 ⟨1, by rfl⟩, (parses_iff empty_wf).2 ⟨2, by rfl⟩, eq_of_sameX (by decide +kernel)⟩

/-- **C67**: a text that `Parse` rejects leaves the variable alone and there is an error. No assumption on the type. -/
theorem C67_reject {U : Univ} (fuel : Nat) {d : Doc} (hd : d.Wf) (s : Bytes) (hs : ¬ ∃ d' id j tail, Parses d s d' id j tail)
    (x : Option (Ty × GV)) (r : Out (Option (Ty × GV))) (h : unmarshal U fuel d s x = some r) : ∃ err, r = .done x (some err) := by
  unfold unmarshal at h
  cases x with
  | none => cases h; exact ⟨_, rfl⟩
  | some p =>
    obtain ⟨t, v⟩ := p
    simp only at h
    split at h
    · cases h
    · cases h; exact ⟨_, rfl⟩
    · rcases heap_parse hd s with ⟨d', id, j, tail, _, _, hp, _⟩ | ⟨_, hp, n, out, q2, q3, q4⟩
      · exact absurd ⟨d', id, j, tail, hp⟩ hs
      · rw [q2] at h
        cases out with
        | ok id tail => exact absurd rfl (q4 _ _)
        | crash => exact absurd rfl q3
        | _ => cases h; exact ⟨_, rfl⟩

example : ¬ ∃ d' id j tail, Parses Doc.empty b!"[1,}" d' id j tail := by
  rintro ⟨d', id, t, tail, h⟩
  obtain ⟨pos, hp⟩ := (parses_iff empty_wf).1 ⟨d', id, h⟩
  have : (match treeParse b!"[1,}" with | .ok _ _ _ => false | _ => true) = true := by decide +kernel
  rw [hp] at this
  cases this

/-! ## C49 -/

/-- **C49 (partial)**: for types without slices and arrays, `Unmarshal` returns no error only when every part of the first
value of the text can be decoded into the part of the variable that it is for. Missing from the full claim: slices and
arrays, for which it is false (`C49_swallowed`). -/
theorem C49_reported_partial {U : Univ} (hU : U.Ok) (hE : U.EmbedsStructs) {t e : Ty} {x : GV} (ha : UnmarshalArg U t e x)
    (hn : NoArrays U e) (fuel : Nat) {d : Doc} (hd : d.Wf) (s : Bytes) (y : Option (Ty × GV))
    (h : unmarshal U fuel d s (some (t, .ptr x)) = some (.done y none)) :
    ∃ d' id j tail, Parses d s d' id j tail ∧ Fits U decodeOptions e j := by
  rcases unmarshal_spec hU hE ha fuel hd s _ h with ⟨_, _, h⟩ | ⟨_, h⟩ | ⟨d', id, j, tail, r', h1, h2, h3⟩
  · cases h
  · cases h
  · refine ⟨d', id, j, tail, h1, ?_⟩
    cases r' with
    | panic => cases h3
    | done z e => cases h3; exact (decodes_fits hE h2 _ _ rfl).2 hn rfl

/-- For all types: there is no error when the text parses and every part fits. -/
theorem C49_no_false_alarm {U : Univ} (hU : U.Ok) (hE : U.EmbedsStructs) {t e : Ty} {x : GV} (ha : UnmarshalArg U t e x)
    (fuel : Nat) {d : Doc} (hd : d.Wf) (s : Bytes) (y : Option (Ty × GV)) (err : UErr)
    (h : unmarshal U fuel d s (some (t, .ptr x)) = some (.done y (some err))) :
    newTypeDecoder U [] fuel t = .err err ∨ ¬ ∃ d' id j tail, Parses d s d' id j tail ∧ Fits U decodeOptions e j := by
  rcases unmarshal_spec hU hE ha fuel hd s _ h with ⟨_, h1, h⟩ | ⟨h1, h⟩ | ⟨d', id, j, tail, r', h1, h2, h3⟩
  · cases h; exact .inl h1
  · exact .inr fun ⟨d', id, j, tail, hp, _⟩ => h1 ⟨d', id, j, tail, hp⟩
  · refine .inr fun ⟨d2, id2, j2, tail2, hp, hf⟩ => ?_
    obtain ⟨rfl, _⟩ := parses_unique hd h1 hp
    cases r' with
    | panic => cases h3
    | done z e =>
      cases h3
      have := (decodes_fits hE h2 _ _ rfl).1 hf
      cases this

/-- The claim fails throughout: no JSON array makes `Unmarshal` into a slice or an array return an error, whatever its
elements. A slice is cut before the first element that does not fit. -/
theorem C49_swallowed {U : Univ} (hU : U.Ok) (hE : U.EmbedsStructs) {t e el : Ty} {x : GV} (ha : UnmarshalArg U t e x)
    (fuel : Nat) {d : Doc} (hd : d.Wf) (s : Bytes) {d' : Doc} {id : Nat} {js : List JVal} {tail : Bytes}
    (hp : Parses d s d' id (.arr js) tail) (r : Out (Option (Ty × GV)))
    (h : unmarshal U fuel d s (some (t, .ptr x)) = some r) (hc : ∀ err, newTypeDecoder U [] fuel t ≠ .err err) :
    (U.base e = .slice el → r = .panic ∨ ∃ arr n, r = .done (some (t, .ptr (.slice arr n))) none ∧ n ≤ arr.length ∧ n ≤ js.length ∧
      ((∀ j ∈ js, Fits U decodeOptions el j) → n = js.length) ∧
      (NoArrays U el → (∀ j ∈ js.take n, Fits U decodeOptions el j) ∧ ∀ j, js[n]? = some j → ¬ Fits U decodeOptions el j)) ∧
    (∀ n, U.base e = .array n el → r = .panic ∨ ∃ xs, r = .done (some (t, .ptr (.array xs))) none ∧ xs.length = n) := by
  rcases unmarshal_tree hU hE ha fuel hd s r h hp with ⟨_, h, _⟩ | ⟨r', hdec, rfl⟩
  · exact absurd h (hc _)
  · have hty := decodes_hasTy hU hE hdec ha.typed
    constructor
    · intro hb
      have key : ∀ {arr0 q}, DecElems U decodeOptions el js arr0 q → r' = sliceOut q → (r'.map fun y => some (t, GV.ptr y)) = .panic ∨
          ∃ arr n, (r'.map fun y => some (t, GV.ptr y)) = .done (some (t, .ptr (.slice arr n))) none ∧ n ≤ arr.length ∧ n ≤ js.length ∧
          ((∀ j ∈ js, Fits U decodeOptions el j) → n = js.length) ∧
          (NoArrays U el → (∀ j ∈ js.take n, Fits U decodeOptions el j) ∧ ∀ j, js[n]? = some j → ¬ Fits U decodeOptions el j) := by
        intro arr0 q hq hr
        cases q with
        | none => left; rw [hr]; rfl
        | some p =>
          right
          obtain ⟨g1, g2, g3⟩ := elems_count hE hq
          refine ⟨p.1, p.2, by rw [hr]; rfl, ?_, g2, g1, g3⟩
          have := hty _ _ hr
          rcases this.inv_slice hb with h | ⟨arr, len, h, hl, _⟩
          · cases h
          · cases h; exact hl
      cases hdec with
      | slice h1 h2 h3 => rw [hb] at h1; cases h1; exact key h3 rfl
      | sliceGrow h1 h2 h3 => rw [hb] at h1; cases h1; exact key h3 rfl
      | nilSlice h1 h3 => rw [hb] at h1; cases h1; exact key h3 rfl
      | mismatch h1 h2 h3 => exact absurd rfl ((no_mismatch h1 h3).2.2.2.2.2.2.1 _ hb _)
      | any => rw [base_any] at hb; cases hb
      | array g | ptr g | ptrNew g | anyErr g | anyPanic g => rw [hb] at g; cases g
    · intro n hb
      cases hdec with
      | @array _ m e' xs js r h1 h3 =>
        cases r with
        | none => exact .inl rfl
        | some ys =>
          refine .inr ⟨ys, rfl, ?_⟩
          have := hty _ _ rfl
          obtain ⟨xs', h, hl, _⟩ := this.inv_array hb
          cases h; exact hl
      | mismatch h1 h2 h3 => exact absurd rfl ((no_mismatch h1 h3).2.2.2.2.2.2.2.1 _ _ hb _)
      | any => rw [base_any] at hb; cases hb
      | slice g | sliceGrow g | nilSlice g | ptr g | ptrNew g | anyErr g | anyPanic g => rw [hb] at g; cases g

/-- **C49 is false** of the code: the second element is not an integer and no error is returned. -/
theorem C49_false :
    unmarshal exU 30 Doc.empty b!"[1,\"x\",3]" (some (.ptr (.slice (.int .std)), .ptr .nilSlice)) =
      some (.done (some (.ptr (.slice (.int .std)), .ptr (.slice [.int 1, .int 0, .int 0] 1))) none) ∧
    unmarshal exU 30 Doc.empty b!"[1,\"x\",3]" (some (.ptr (.array 3 (.int .std)), .ptr (.array [.int 7, .int 8, .int 9]))) =
      some (.done (some (.ptr (.array 3 (.int .std)), .ptr (.array [.int 1, .int 8, .int 3]))) none) ∧
    ¬ Fits exU decodeOptions (.int .std) (.str b!"x") := by
  refine ⟨eq_of_sameX (by decide +kernel), eq_of_sameX (by decide +kernel), ?_⟩
  intro h
  generalize hj : JVal.str b!"x" = j at h
  cases h with
  | str h | ptr h | any h => cases h
  | _ => cases hj

/-! ## C50 -/

/-- **C50 (partial)**: `Unmarshal` into a variable of a type without maps and defined empty interface types, whatever its
content, does not panic, and neither does it into a non-nil map with string keys and elements of such a type. Missing
from the full claim: other destinations, for which it is false (`C50_nil_map`, `C50_nil_pointer`, `C50_false`). -/
theorem C50_partial {U : Univ} (hU : U.Ok) (hE : U.EmbedsStructs) {t e : Ty} {x : GV} (ha : UnmarshalArg U t e x)
    (hc : Tame U e ∨ ∃ el es, U.base e = .map .string el ∧ Tame U el ∧ x = .map es)
    (fuel : Nat) {d : Doc} (hd : d.Wf) (s : Bytes) (r : Out (Option (Ty × GV)))
    (h : unmarshal U fuel d s (some (t, .ptr x)) = some r) : r ≠ .panic := by
  rcases unmarshal_spec hU hE ha fuel hd s _ h with ⟨_, _, rfl⟩ | ⟨_, rfl⟩ | ⟨d', id, j, tail, r', h1, h2, rfl⟩
  · simp
  · simp
  · suffices hr : r' ≠ .panic by cases r' <;> simp_all [Out.map]
    rcases hc with hc | ⟨el, es, hb, hel, rfl⟩
    · exact decodes_no_panic hE h2 hc
    · clear ha h h1
      cases h2 with
      | map h1 h2 => rw [hb] at h1; cases h1; exact entries_no_panic hE hel h2 rfl ⟨_, rfl⟩
      | struct h1 | anyPanic h1 => rw [hb] at h1; cases h1
      | _ => simp

/-- A destination that is no pointer is rejected, without panic. -/
theorem C50_no_pointer {U : Univ} {t : Ty} (ht : ∀ e, U.base t ≠ .ptr e) (hi : ∀ m i, U.base t ≠ .iface m i) (v : GV) (fuel : Nat) (d : Doc) (s : Bytes) :
    unmarshal U fuel d s (some (t, v)) = some (.done (some (t, v)) (some .invalidType)) ∧
    unmarshal U fuel d s none = some (.done none (some .invalidValueType)) := by
  refine ⟨?_, rfl⟩
  have : newTypeDecoder U [] fuel t = .err .invalidType := by
    unfold newTypeDecoder
    cases hb : U.base t <;> simp_all
  unfold unmarshal
  simp only [this]

/-- The claim fails for every nil map: an object whose first member fits the element type makes `Unmarshal` panic. -/
theorem C50_nil_map {U : Univ} (hU : U.Ok) (hE : U.EmbedsStructs) {t e k el : Ty} (ha : UnmarshalArg U t e .nilMap) (hb : U.base e = .map k el)
    (fuel : Nat) {d : Doc} (hd : d.Wf) (s : Bytes) {d' : Doc} {id : Nat} {key : Bytes} {j : JVal} {ms : List (Bytes × JVal)} {tail : Bytes}
    (hp : Parses d s d' id (.obj ((key, j) :: ms)) tail) (hf : Fits U decodeOptions el j) (r : Out (Option (Ty × GV)))
    (h : unmarshal U fuel d s (some (t, .ptr .nilMap)) = some r) (hc : ∀ err, newTypeDecoder U [] fuel t ≠ .err err) : r = .panic := by
  rcases unmarshal_tree hU hE ha fuel hd s r h hp with ⟨_, h, _⟩ | ⟨r', hdec, rfl⟩
  · exact absurd h (hc _)
  · suffices r' = .panic by rw [this]; rfl
    clear h ha hp
    cases hdec with
    | map h1 h2 =>
      rw [hb] at h1; cases h1
      cases h2 with
      | fail h => have := (decodes_fits hE h _ _ rfl).1 hf; cases this
      | panic | nilMap | badKey => rfl
    | mismatch h1 h2 h3 => exact absurd rfl ((no_mismatch h1 h3).2.2.2.2.2.2.2.2.1 _ _ hb _)
    | any => rw [base_any] at hb; cases hb
    | struct g | anyErr g | anyPanic g => first | rfl | (rw [hb] at g; cases g)

/-- Nil pointers: a text whose first value is not null makes `Unmarshal` panic, whatever the type. -/
theorem C50_nil_pointer {U : Univ} {t e : Ty} (hb : U.base t = .ptr e) (hn : NoUnmarshal U t)
    (fuel : Nat) {d : Doc} (hd : d.Wf) (s : Bytes) {d' : Doc} {id : Nat} {j : JVal} {tail : Bytes}
    (hp : Parses d s d' id j tail) (hj : j ≠ .null) (r : Out (Option (Ty × GV)))
    (h : unmarshal U fuel d s (some (t, .nilPtr)) = some r) (hc : ∀ err, newTypeDecoder U [] fuel t ≠ .err err) : r = .panic := by
  unfold unmarshal at h
  simp only at h
  cases hq : newTypeDecoder U [] fuel t with
  | diverge => rw [hq] at h; cases h
  | err e => exact absurd hq (hc _)
  | ok c =>
    rw [hq] at h
    unfold newTypeDecoder at hq
    rw [hb] at hq
    simp only at hq
    rw [if_neg (by simp [hn.1]), if_neg (by simp [hn.2.1]), if_neg (by simp [hn.2.2])] at hq
    split at hq
    · cases hq
      rcases heap_parse hd s with ⟨d2, id2, j2, tail2, hp2, n, q1, q2, q3⟩ | ⟨q1, _⟩
      · obtain ⟨rfl, _⟩ := parses_unique hd hp q1
        rw [q2] at h
        have hty : ¬ n.typ hp2 = tNull := by
          rw [tree_typ q3]
          cases j <;> first | exact absurd rfl hj | (simp only [jtyp]; decide)
        simp only [TypeDecoder.decode, if_true, hb, if_neg hty] at h
        cases h; rfl
      · exact absurd ⟨_, _, _, _, hp⟩ q1
    · cases hq
    · cases hq

/-- **C50 is false** of the code: a nil map, a nil pointer, a map whose key type is a defined string type, a variable of
a defined empty interface type, a struct with a nil map that is set twice. -/
theorem C50_false :
    unmarshal exU 30 Doc.empty b!"{\"a\":true}" (some (.ptr (.map .string .bool), .ptr .nilMap)) = some .panic ∧
    unmarshal exU 30 Doc.empty b!"1" (some (.ptr (.int .std), .nilPtr)) = some .panic ∧
    unmarshal exU 30 Doc.empty b!"{\"a\":true}" (some (.ptr (.map (.named 0) .bool), .ptr (.map []))) = some .panic ∧
    unmarshal exU 30 Doc.empty b!"1" (some (.ptr (.named 1), .ptr .nilIface)) = some .panic ∧
    unmarshal exU 30 Doc.empty b!"{\"M\":{\"a\":true}}" (some (.ptr (.struct 3), .ptr (.struct [.nilMap]))) = some .panic := by
  refine ⟨eq_of_isPanic ?_, eq_of_isPanic ?_, eq_of_isPanic ?_, eq_of_isPanic ?_, eq_of_isPanic ?_⟩ <;> decide +kernel

/-! ## C51 -/

theorem parseUint64_digits {ds : Bytes} (h : Digits ds) : parseUint64 ds = if natOf ds < 2 ^ 64 then some (natOf ds) else none := by
  unfold parseUint64
  rw [if_neg h.1, if_pos, NumJson.digitsVal_eq]
  rw [List.all_eq_true]
  exact NumJson.allDig_of h

/-- strconv on decimal integers. -/
theorem parseInt64_decimal {i : ℤ} {s : Bytes} (h : IsDecimal i s) :
    parseInt64 s = if -2 ^ 63 ≤ i ∧ i < 2 ^ 63 then some i else none := by
  obtain ⟨ds, h1, h2, rfl⟩ := h
  by_cases hi : i < 0
  · rw [if_pos hi]
    simp only [List.singleton_append, parseInt64]
    rw [parseUint64_digits h1, h2]
    by_cases h64 : i.natAbs < 2 ^ 64
    · rw [if_pos h64]
      simp only
      by_cases h63 : i.natAbs ≤ 2 ^ 63
      · rw [if_pos h63, if_pos (by omega)]; congr 1; omega
      · rw [if_neg h63, if_neg (by omega)]
    · rw [if_neg h64, if_neg (by omega)]
  · rw [if_neg hi, List.nil_append]
    have hne : ∀ c cs, ds = c :: cs → c ≠ 45 ∧ c ≠ 43 := by
      rintro c cs rfl
      have := h1.2 c List.mem_cons_self
      unfold IsDigitByte at this
      constructor <;> (rintro rfl; revert this; decide)
    have : parseInt64 ds = match parseUint64 ds with | some n => if n < 2 ^ 63 then some (n : ℤ) else none | none => none := by
      cases ds with
      | nil => rfl
      | cons c cs =>
        unfold parseInt64
        split
        · rename_i h; cases h; exact absurd rfl (hne _ _ rfl).1
        · rename_i h; cases h; exact absurd rfl (hne _ _ rfl).2
        · rfl
    rw [this, parseUint64_digits h1, h2]
    by_cases h64 : i.natAbs < 2 ^ 64
    · rw [if_pos h64]
      simp only
      by_cases h63 : i.natAbs < 2 ^ 63
      · rw [if_pos h63, if_pos (by omega)]; congr 1; omega
      · rw [if_neg h63, if_neg (by omega)]
    · rw [if_neg h64, if_neg (by omega)]

theorem trunc_ge {m : Nat} {e : Int} {n : Nat} (h : (n : ℚ) ≤ val m e) : n ≤ NumJson.truncMag m e := by
  unfold NumJson.truncMag
  simp only
  have w2 := (pow2_pos e).2
  rw [Nat.le_div_iff_mul_le w2]
  unfold val at h
  rw [← pow2_val] at h
  have w2q : (0 : ℚ) < ((pow2 e).2 : ℚ) := by exact_mod_cast w2
  rw [mul_div_assoc', le_div_iff₀ w2q] at h
  exact_mod_cast h

theorem readInt_decimal_none {i : ℤ} {s : Bytes} (h : IsDecimal i s) (hi : 2 ^ 63 ≤ i ∨ i ≤ -2 ^ 63 - 2048) : readInt s = none := by
  have hp : parseInt64 s = none := by rw [parseInt64_decimal h, if_neg (by omega)]
  obtain ⟨r, h1, h2⟩ := C41_rounded i s h
  have hfl : (NumJson.parseInt s).2 = false := by
    unfold NumJson.parseInt
    rw [h1]
    simp only
    cases r with
    | inf => rfl
    | fin m e =>
      simp only [NumJson.intFlag]
      rcases hi with hi | hi
      · have hge := nearest_ge h2 (m' := 2 ^ 52) (e' := 11) ⟨by decide, by decide, by decide, Or.inl (by decide)⟩ (by
          have : val (2 ^ 52) 11 = ((2 ^ 63 : ℕ) : ℚ) := by unfold val; norm_num
          rw [this]; exact_mod_cast (by omega : 2 ^ 63 ≤ i.natAbs))
        have : val (2 ^ 52) 11 = ((2 ^ 63 : ℕ) : ℚ) := by unfold val; norm_num
        rw [this] at hge
        have := trunc_ge hge
        have ht : NumJson.truncFlt (decide (i < 0)) m e = NumJson.truncMag m e := by
          unfold NumJson.truncFlt; rw [decide_eq_false (by omega : ¬ i < 0), if_neg (by decide)]
        rw [ht]
        simp; intros; omega
      · have hv : val (2 ^ 52 + 1) 11 = ((2 ^ 63 + 2048 : ℕ) : ℚ) := by unfold val; norm_num
        have hge := nearest_ge h2 (m' := 2 ^ 52 + 1) (e' := 11) ⟨by decide, by decide, by decide, Or.inl (by decide)⟩ (by
          rw [hv]; exact_mod_cast (by omega : 2 ^ 63 + 2048 ≤ i.natAbs))
        rw [hv] at hge
        have := trunc_ge hge
        have ht : NumJson.truncFlt (decide (i < 0)) m e = -(NumJson.truncMag m e : ℤ) := by
          unfold NumJson.truncFlt; rw [decide_eq_true (by omega : i < 0), if_pos rfl]
        rw [ht]
        simp; intros; omega
  unfold readInt
  rw [hfl, if_neg (by simp), hp]

theorem readUint_decimal_none {i : ℤ} {s : Bytes} (h : IsDecimal i s) (hi : 2 ^ 64 ≤ i ∨ i < 0) : readUint s = none := by
  have hp : parseUint64 s = none := by
    obtain ⟨ds, h1, h2, rfl⟩ := h
    rcases hi with hi | hi
    · rw [if_neg (by omega), List.nil_append, parseUint64_digits h1, if_neg (by omega)]
    · rw [if_pos hi]
      simp [parseUint64, NumJson.isDig]
  obtain ⟨r, h1, h2⟩ := C41_rounded i s h
  have hfl : (NumJson.parseUint s).2 = false := by
    unfold NumJson.parseUint
    rw [h1]
    simp only
    cases r with
    | inf => rfl
    | fin m e =>
      simp only [NumJson.intFlag]
      rcases hi with hi | hi
      · have hv : val (2 ^ 52) 12 = ((2 ^ 64 : ℕ) : ℚ) := by unfold val; norm_num
        have hge := nearest_ge h2 (m' := 2 ^ 52) (e' := 12) ⟨by decide, by decide, by decide, Or.inl (by decide)⟩ (by
          rw [hv]; exact_mod_cast (by omega : 2 ^ 64 ≤ i.natAbs))
        rw [hv] at hge
        have := trunc_ge hge
        have ht : NumJson.truncFlt (decide (i < 0)) m e = NumJson.truncMag m e := by
          unfold NumJson.truncFlt; rw [decide_eq_false (by omega : ¬ i < 0), if_neg (by decide)]
        rw [ht]
        simp; intros; omega
      · have hv : val (2 ^ 52) (-52) = ((1 : ℕ) : ℚ) := by unfold val; norm_num
        have hge := nearest_ge h2 (m' := 2 ^ 52) (e' := -52) ⟨by decide, by decide, by decide, Or.inl (by decide)⟩ (by
          rw [hv]; exact_mod_cast (by omega : 1 ≤ i.natAbs))
        rw [hv] at hge
        have := trunc_ge hge
        have ht : NumJson.truncFlt (decide (i < 0)) m e = -(NumJson.truncMag m e : ℤ) := by
          unfold NumJson.truncFlt; rw [decide_eq_true hi, if_pos rfl]
        rw [ht]
        simp; intros; omega
  unfold readUint
  rw [hfl, if_neg (by simp), hp]

theorem decMeth_none {U : Univ} {t : Ty} (h : NoUnmarshal U t) : decMeth U t = none := by
  unfold decMeth; simp [h.1, h.2.1, h.2.2]

theorem int_accepted {U : Univ} {t e : Ty} {x : GV} (ha : UnmarshalArg U t e x) (hb : (∃ k, U.base e = .int k) ∨ ∃ k, U.base e = .uint k) (fuel : Nat) :
    ∀ err, newTypeDecoder U [] fuel t ≠ .err err := by
  intro err h
  unfold newTypeDecoder at h
  rw [ha.base] at h
  simp only at h
  rw [if_neg (by simp [ha.noMethod.1]), if_neg (by simp [ha.noMethod.2.1]), if_neg (by simp [ha.noMethod.2.2])] at h
  cases fuel with
  | zero => simp [newDecoder, Bld.diverge] at h
  | succ f =>
    rcases hb with ⟨k, hb⟩ | ⟨k, hb⟩ <;> simp [newDecoder, decMeth_none (ha.plain e .refl), hb, Bld.pure] at h

/-- **C51 (partial)**: a decimal integer of 2^63 and more, or less than -2^63 - 2047, is rejected by `Unmarshal` into a
signed integer variable, and the variable keeps its content. Missing from the full claim: the numbers closer to the range,
narrower types, and numbers with fraction or exponent, for which it is false (`C51_narrow`, `C51_false`). -/
theorem C51_signed_partial {U : Univ} (hU : U.Ok) (hE : U.EmbedsStructs) {t e : Ty} {k : IKind} {x : ℤ} (ha : UnmarshalArg U t e (.int x))
    (hb : U.base e = .int k) (fuel : Nat) {d : Doc} (hd : d.Wf) (s : Bytes) {d' : Doc} {id : Nat} {raw : Bytes} {tail : Bytes}
    (hp : Parses d s d' id (.num raw) tail) {i : ℤ} (hdec : IsDecimal i raw) (hi : 2 ^ 63 ≤ i ∨ i ≤ -2 ^ 63 - 2048)
    (r : Out (Option (Ty × GV))) (h : unmarshal U fuel d s (some (t, .ptr (.int x))) = some r) :
    r = .done (some (t, .ptr (.int x))) (some .strconv) := by
  rcases unmarshal_tree hU hE ha fuel hd s r h hp with ⟨_, h, _⟩ | ⟨r', hq, rfl⟩
  · exact absurd h (int_accepted ha (.inl ⟨k, hb⟩) fuel _)
  · rw [decodes_unique hq _ (.intErr hb (readInt_decimal_none hdec hi))]; rfl

/-- **C51 (partial)** for unsigned integer variables of every width: a negative number, or one of 2^64 and more, is rejected. -/
theorem C51_unsigned_partial {U : Univ} (hU : U.Ok) (hE : U.EmbedsStructs) {t e : Ty} {k : IKind} {x : Nat} (ha : UnmarshalArg U t e (.uint x))
    (hb : U.base e = .uint k) (fuel : Nat) {d : Doc} (hd : d.Wf) (s : Bytes) {d' : Doc} {id : Nat} {raw : Bytes} {tail : Bytes}
    (hp : Parses d s d' id (.num raw) tail) {i : ℤ} (hdec : IsDecimal i raw) (hi : 2 ^ 64 ≤ i ∨ i < 0)
    (r : Out (Option (Ty × GV))) (h : unmarshal U fuel d s (some (t, .ptr (.uint x))) = some r) :
    r = .done (some (t, .ptr (.uint x))) (some .strconv) := by
  rcases unmarshal_tree hU hE ha fuel hd s r h hp with ⟨_, h, _⟩ | ⟨r', hq, rfl⟩
  · exact absurd h (int_accepted ha (.inr ⟨k, hb⟩) fuel _)
  · rw [decodes_unique hq _ (.uintErr hb (readUint_decimal_none hdec hi))]; rfl

/-- What is stored for a decimal integer up to 2^53: the integer modulo the width of the type. -/
theorem C51_stored {U : Univ} (hU : U.Ok) (hE : U.EmbedsStructs) {t e : Ty} {k : IKind} {x : ℤ} (ha : UnmarshalArg U t e (.int x))
    (hb : U.base e = .int k) (fuel : Nat) {d : Doc} (hd : d.Wf) (s : Bytes) {d' : Doc} {id : Nat} {raw : Bytes} {tail : Bytes}
    (hp : Parses d s d' id (.num raw) tail) {i : ℤ} (hdec : IsDecimal i raw) (hi : i.natAbs ≤ 2 ^ 53)
    (r : Out (Option (Ty × GV))) (h : unmarshal U fuel d s (some (t, .ptr (.int x))) = some r) :
    ∃ y, r = .done (some (t, .ptr (.int y))) none ∧ -2 ^ (k.bits - 1) ≤ y ∧ y < 2 ^ (k.bits - 1) ∧ (2 ^ k.bits : ℤ) ∣ i - y := by
  rcases unmarshal_tree hU hE ha fuel hd s r h hp with ⟨_, h, _⟩ | ⟨r', hq, rfl⟩
  · exact absurd h (int_accepted ha (.inl ⟨k, hb⟩) fuel _)
  · have hr : readInt raw = some i := by unfold readInt; rw [C42_small_partial i raw hdec hi]; rfl
    have hd := Decodes.int (o := decodeOptions) (x := x) hb hr
    rw [decodes_unique hq _ hd]
    have ht := decodes_hasTy hU hE hd ha.typed _ _ rfl
    refine ⟨_, rfl, (wrapInt_range k i).1, (wrapInt_range k i).2, ?_⟩
    unfold wrapInt
    have := Int.bmod_emod (x := i) (m := 2 ^ k.bits)
    have h2 : (i - Int.bmod i (2 ^ k.bits)) % ((2 ^ k.bits : ℕ) : ℤ) = 0 := by
      rw [Int.sub_emod, this]; simp
    exact_mod_cast Int.dvd_of_emod_eq_zero h2

/-- The claim fails for every narrow integer type and every decimal integer up to 2^53 that does not fit: no error, and
another number is stored. -/
theorem C51_narrow {U : Univ} (hU : U.Ok) (hE : U.EmbedsStructs) {t e : Ty} {k : IKind} {x : ℤ} (ha : UnmarshalArg U t e (.int x))
    (hb : U.base e = .int k) (fuel : Nat) {d : Doc} (hd : d.Wf) (s : Bytes) {d' : Doc} {id : Nat} {raw : Bytes} {tail : Bytes}
    (hp : Parses d s d' id (.num raw) tail) {i : ℤ} (hdec : IsDecimal i raw) (hi : i.natAbs ≤ 2 ^ 53)
    (hout : i < -2 ^ (k.bits - 1) ∨ 2 ^ (k.bits - 1) ≤ i)
    (r : Out (Option (Ty × GV))) (h : unmarshal U fuel d s (some (t, .ptr (.int x))) = some r) :
    ∃ y, r = .done (some (t, .ptr (.int y))) none ∧ y ≠ i := by
  obtain ⟨y, h1, h2, h3, _⟩ := C51_stored hU hE ha hb fuel hd s hp hdec hi r h
  exact ⟨y, h1, by omega⟩

/-- **C51 is false** of the code: 300 is stored as 44 in an int8; a number beyond uint64 as 1; and two int64 are stored
as their neighbour. -/
theorem C51_false :
    unmarshal exU 30 Doc.empty b!"300" (some (.ptr (.int .b8), .ptr (.int 0))) = some (.done (some (.ptr (.int .b8), .ptr (.int 44))) none) ∧
    unmarshal exU 30 Doc.empty b!"18446744073709551617.0" (some (.ptr (.uint .b64), .ptr (.uint 0))) =
      some (.done (some (.ptr (.uint .b64), .ptr (.uint 1))) none) ∧
    unmarshal exU 30 Doc.empty b!"9007199254740993" (some (.ptr (.int .b64), .ptr (.int 0))) =
      some (.done (some (.ptr (.int .b64), .ptr (.int 9007199254740992))) none) ∧
    unmarshal exU 30 Doc.empty b!"-9223372036854775809" (some (.ptr (.int .b64), .ptr (.int 0))) =
      some (.done (some (.ptr (.int .b64), .ptr (.int (-9223372036854775808)))) none) := by
  refine ⟨eq_of_sameX ?_, eq_of_sameX ?_, eq_of_sameX ?_, eq_of_sameX ?_⟩ <;> decide +kernel

/-! ## Examples -/

theorem exU_noUnmarshal (t : Ty) : NoUnmarshal exU t := by
  refine ⟨?_, ?_, ?_⟩ <;> simp [exU]

theorem exU_arg {e : Ty} {x : GV} (h : HasTy exU e x) : UnmarshalArg exU (.ptr e) e x :=
  ⟨rfl, exU_noUnmarshal _, fun _ _ => exU_noUnmarshal _, h⟩

/-- The hypotheses of the theorems above hold for a zero variable of the recursive struct type, for a non-empty slice
and for an integer variable; the texts parse and decode. -/
example : UnmarshalArg exU (.ptr (.struct 0)) (.struct 0) (exU.zero (.struct 0)) ∧
    unmarshal exU 30 Doc.empty b!" {\"A\":5,\"zz\":[],\"next\":{\"b\":\"q\"}} x" (some (.ptr (.struct 0), .ptr (exU.zero (.struct 0)))) =
      some (.done (some (.ptr (.struct 0), .ptr (.struct [.int 5, .str [], .ptr (.struct [.int 0, .str b!"q", .nilPtr])]))) none) :=
  ⟨exU_arg (hasTy_zero exU_ok _), eq_of_sameX (by decide +kernel)⟩

example : UnmarshalArg exU (.ptr (.int .b8)) (.int .b8) (.int 0) ∧
    (∃ d' id, Parses Doc.empty b!"300" d' id (.num b!"300") []) ∧ IsDecimal 300 b!"300" ∧
    unmarshal exU 30 Doc.empty b!"9300000000000000000" (some (.ptr (.int .b8), .ptr (.int 7))) =
      some (.done (some (.ptr (.int .b8), .ptr (.int 7))) (some .strconv)) := by
  refine ⟨exU_arg (.int rfl (by decide) (by decide)), ?_, ⟨b!"300", ⟨by simp, by unfold IsDigitByte; decide⟩, by decide, rfl⟩, eq_of_sameX (by decide +kernel)⟩
  exact (parses_iff empty_wf).2 ⟨3, by rfl⟩

/-- The types below the recursive struct type. -/
theorem exU_comp {t' : Ty} (h : Comp exU (.struct 0) t') : t' = .struct 0 ∨ t' = .ptr (.struct 0) ∨ t' = .int .std ∨ t' = .string := by
  have key : ∀ {t t'}, Comp exU t t' → (t = .struct 0 ∨ t = .ptr (.struct 0) ∨ t = .int .std ∨ t = .string) →
      (t' = .struct 0 ∨ t' = .ptr (.struct 0) ∨ t' = .int .std ∨ t' = .string) := by
    intro t t' h
    induction h with
    | refl => exact id
    | ptr hb _ ih => rintro (rfl | rfl | rfl | rfl) <;> cases hb; exact ih (.inl rfl)
    | slice hb _ ih => rintro (rfl | rfl | rfl | rfl) <;> cases hb
    | array hb _ ih => rintro (rfl | rfl | rfl | rfl) <;> cases hb
    | map hb _ ih => rintro (rfl | rfl | rfl | rfl) <;> cases hb
    | @field t j f t' hb hf _ _ ih =>
      rintro (rfl | rfl | rfl | rfl) <;> cases hb
      simp [exU, exFields] at hf
      rcases hf with rfl | rfl | rfl <;> exact ih (by simp [fld])
  exact key h (.inl rfl)

example : Tame exU (.struct 0) ∧ NoArrays exU (.struct 0) := by
  constructor
  · intro t h
    rcases exU_comp h with rfl | rfl | rfl | rfl <;> simp [Univ.base]
  · intro t h
    rcases exU_comp h with rfl | rfl | rfl | rfl <;> simp [Univ.base]

end Verif.Props
