import Verif.Proofs.GenOne
import Verif.Proofs.GenExample
import Verif.Proofs.GenSort
import Verif.Proofs.GenCompile

/-! # Generated AppendJSON methods (C76-C78, C81, C82) -/

namespace Verif.Props
open Verif Verif.Float Verif.Spec Verif.Njson Verif.Unjson Verif.Gen

/-! ## C77: the generator -/

/-- **C77**: `Appender` returns, with code or with an error, exactly for the types that are not recursive (through the
fields that take part, up to types with marshal methods); and what it returns is one thing. -/
theorem C77_append_ends (E : Env) (o : GenOptions) (t : Ty) (ps : List Bytes) :
    (∃ r, r ≠ .diverge ∧ ∃ fuel, ∀ fuel', fuel ≤ fuel' → typeAppender E o fuel' t ps = r) ↔ AEnds E o t := by
  constructor
  · rintro ⟨r, hr, fuel, h⟩
    exact ends_of_ne_diverge (by rw [h fuel (Nat.le_refl _)]; exact hr)
  · intro h
    obtain ⟨fuel, hf⟩ := ne_diverge_of_ends h
    exact ⟨_, hf ps, fuel, fun fuel' hle => typeAppender_mono (hf ps) hle⟩

/-- **C77**: it returns code exactly for the finite types made of booleans, numbers, strings, empty interfaces, pointers,
slices, maps, structs and types with marshal methods, without struct fields that have the parameter omitempty. -/
theorem C77_append_supported (E : Env) (o : GenOptions) (t : Ty) (ps : List Bytes) :
    (∃ fuel b, typeAppender E o fuel t ps = .ok b) ↔ ASupported E o t := by
  constructor
  · rintro ⟨fuel, b, h⟩
    exact supported_of_ok h
  · intro h
    obtain ⟨fuel, hf⟩ := ne_diverge_of_ends (ends_of_supported h)
    exact ⟨fuel, ok_of_supported h fuel ps (hf ps)⟩

/-- The checks of the example: code of type `struct j`, with a property. -/
def genOk (E : Env) (o : GenOptions) (t : Ty) (P : ABlock → Bool) : Bool :=
  match typeAppender E o 10 t [] with
  | .ok b => P b
  | _ => false

theorem genOk_iff {E : Env} {o : GenOptions} {t : Ty} {P : ABlock → Bool} (h : genOk E o t P = true) :
    ∃ b, typeAppender E o 10 t [] = .ok b ∧ P b = true := by
  unfold genOk at h
  cases hb : typeAppender E o 10 t [] with
  | ok b => rw [hb] at h; exact ⟨b, rfl, h⟩
  | err e => rw [hb] at h; cases h
  | diverge => rw [hb] at h; cases h

/-- The hypotheses of C77 are met by a type with fields of many kinds. -/
example : ASupported genE {} (.struct 0) :=
  (C77_append_supported genE {} (.struct 0) []).1 (by
    obtain ⟨b, hb, _⟩ := genOk_iff (E := genE) (o := {}) (t := .struct 0) (P := fun _ => true) (by decide +kernel)
    exact ⟨10, b, hb⟩)

/-- C77 without "that are not recursive" is false: for `type T struct { Next *T }` the generator does not return. -/
theorem C77_append_false : ¬ AEnds genE {} (.struct 3) := by
  intro h
  have key : ∀ {t : Ty}, AEnds genE {} t → t = .struct 3 ∨ t = .ptr (.struct 3) → False := by
    intro t h
    induction h with
    | method h =>
      rintro (rfl | rfl)
      · exact h (by refine ⟨?_, ?_, ?_⟩ <;> rfl)
      · exact h (by refine ⟨?_, ?_, ?_⟩ <;> rfl)
    | leaf h1 _ _ h2 =>
      rintro (rfl | rfl)
      · exact h2 _ rfl
      · exact h1 _ rfl
    | ptr hb _ ih =>
      rintro (rfl | rfl)
      · cases hb
      · cases hb; exact ih (.inl rfl)
    | slice hb => rintro (rfl | rfl) <;> cases hb
    | map hb => rintro (rfl | rfl) <;> cases hb
    | struct hb _ ih =>
      rintro (rfl | rfl)
      · cases hb
        exact ih ⟨b!"next", [], gfld b!"Next" (.ptr (.struct 3)) 0 b!"next"⟩ (by
          rw [show appendPicks genE {} 3 = [⟨b!"next", [], gfld b!"Next" (.ptr (.struct 3)) 0 b!"next"⟩] from rfl]
          exact List.mem_cons_self) (.inr rfl)
      · cases hb
  exact key h (.inl rfl)

/-! ## C76: does it compile -/

/-- **C76 (partial)**, AppendJSON: the generated method compiles *exactly* for the types that can have methods and have a marshal
method, or are structs whose fields are of the types in `ACompiles`.
Missing from the full claim: the types for which code is generated that does not compile (`C76_append_false`). -/
theorem C76_append_partial {E : Env} (hE : E.Ok) {o : GenOptions} {fuel : Nat} {t : Ty} {b : ABlock} (h : typeAppender E o fuel t [] = .ok b) :
    appenderCompiles E b t = true ↔ canHaveMethod E.U t = true ∧ (Marshals E.U t ∨ ∃ j, t = .struct j ∧ ACompiles E o [] t) :=
  appenderCompiles_iff hE h

/-- The code for a type with fields of many kinds compiles. -/
example : ∃ b, typeAppender genE {} 10 (.struct 0) [] = .ok b ∧ appenderCompiles genE b (.struct 0) = true :=
  genOk_iff (P := fun b => appenderCompiles genE b (.struct 0)) (by decide +kernel)

theorem notCompiles {E : Env} {o : GenOptions} {t : Ty} (h : genOk E o t (fun b => !appenderCompiles E b t) = true) :
    ∃ b, typeAppender E o 10 t [] = .ok b ∧ appenderCompiles E b t = false := by
  obtain ⟨b, h1, h2⟩ := genOk_iff h
  exact ⟨b, h1, by simpa using h2⟩

/-- C76 is false: code is generated, without an error, that does not compile, for structs with a field of type `interface{}`, with a field
that is a pointer to a number, with a field of a defined string type, or with a field that is a struct
without fields; and for types that are not structs. -/
theorem C76_append_false :
    (∃ b, typeAppender genE {} 10 (.struct 4) [] = .ok b ∧ appenderCompiles genE b (.struct 4) = false) ∧
    (∃ b, typeAppender genE {} 10 (.struct 5) [] = .ok b ∧ appenderCompiles genE b (.struct 5) = false) ∧
    (∃ b, typeAppender genE {} 10 (.struct 6) [] = .ok b ∧ appenderCompiles genE b (.struct 6) = false) ∧
    (∃ b, typeAppender genE {} 10 (.struct 8) [] = .ok b ∧ appenderCompiles genE b (.struct 8) = false) ∧
    (∃ b, typeAppender genE {} 10 (.named 0) [] = .ok b ∧ appenderCompiles genE b (.named 0) = false) :=
  ⟨notCompiles (by decide +kernel), notCompiles (by decide +kernel), notCompiles (by decide +kernel), notCompiles (by decide +kernel),
    notCompiles (by decide +kernel)⟩

/-- The first four in general, for any package: a struct whose only field that takes part has such a type. -/
theorem C76_append_never {E : Env} (hE : E.Ok) {o : GenOptions} {fuel : Nat} {j : Nat} {b : ABlock} (h : typeAppender E o fuel (.struct j) [] = .ok b)
    (hm : NoMarshal E.U (.struct j)) {p : Pick} (hp : p ∈ appendPicks E o j) (hn : NoMarshal E.U p.field.typ)
    (hbad : (∃ i, E.U.base p.field.typ = .iface 0 i) ∨
      (∃ e, E.U.base p.field.typ = .ptr e ∧ (∀ i, E.U.base e ≠ .struct i) ∧ (∀ e', E.U.base e ≠ .ptr e')) ∨
      (E.U.base p.field.typ = .string ∧ p.field.typ ≠ .string ∧ b!"raw" ∉ p.params)) : appenderCompiles E b (.struct j) = false := by
  rw [← Bool.not_eq_true, appenderCompiles_iff hE h]
  rintro ⟨_, hc⟩
  rcases hc with hc | ⟨j', he, hc⟩
  · exact hc hm
  · cases he
    have hp' := (ACompiles.inv_struct hm hc p hp).1
    rcases hbad with ⟨i, hb⟩ | ⟨e, hb, h1, h2⟩ | ⟨hb, h1, h2⟩
    · generalize p.params = ps at hp'
      generalize p.field.typ = t at hp' hb hn
      cases hp' with
      | method h => exact h hn
      | string => cases hb
      | struct => cases hb
      | _ hb' => rw [hb] at hb'; cases hb'
    · rcases ACompiles.inv_ptr hn hb hp' with ⟨i, rfl, _⟩ | hv
      · exact h1 i rfl
      · cases hv with
        | struct hb' => exact h2 _ hb'
        | ptr hb' => exact h2 _ hb'
    · generalize p.params = ps at hp' h2
      generalize p.field.typ = t at hp' hb hn h1
      cases hp' with
      | method h => exact h hn
      | string => exact h1 rfl
      | raw _ h => exact h2 h
      | struct => cases hb
      | _ hb' => rw [hb] at hb'; cases hb'

/-! ## C78: what it writes -/

/-- **C78**: on a pointer to a struct without marshal methods, with maps that have numbers or booleans as keys, the generated
method appends the text of a tree that `GEnc` allows, whatever was there before, or it returns the error of a marshal
method, if one that is called to write the value fails (`GFails`), or it panics, if a marshal or omit method that is called does (`GPanics`).
It does not panic otherwise, and it does return. -/
theorem C78_writes_partial {E : Env} (hE : E.Ok) (hH : Hooks E.U) (hF : Floats64 E.U) {o : GenOptions} {fuel : Nat} {j : Nat} {b : ABlock}
    (h : typeAppender E o fuel (.struct j) [] = .ok b) (hc : appenderCompiles E b (.struct j) = true) (hm : NoMarshal E.U (.struct j))
    {v : GV} (hv : HasTy E.U (.struct j) v) (hk : NumKeys E o (.struct j) v) :
    (∃ jv, GEnc E o [] (.struct j) v jv ∧ (¬ GFails E o (.struct j) v ∧ ¬ GPanics E o (.struct j) v) ∧
      ∀ out, runAppender E.U o b (.struct j) (.ptr v) out = some (.done (out ++ jv.ser) none)) ∨
    (GFails E o (.struct j) v ∧ ∀ out, ∃ out', runAppender E.U o b (.struct j) (.ptr v) out = some (.done out' (some .hook))) ∨
    GPanics E o (.struct j) v ∧ ∀ out, runAppender E.U o b (.struct j) (.ptr v) out = some .panic := by
  have hcc : ACompiles E o [] (.struct j) := by
    rcases ((appenderCompiles_iff hE h).1 hc).2 with h' | ⟨_, _, h'⟩
    · exact absurd hm h'
    · exact h'
  cases fuel with
  | zero => cases h
  | succ fuel =>
    obtain ⟨fs, rfl⟩ : ∃ fs, v = .struct fs := by
      obtain ⟨fs, h, _⟩ := HasTy.inv_struct hv (by rfl)
      exact ⟨fs, h⟩
    have hrun : ∀ out, runAppender E.U o b (.struct j) (.ptr (.struct fs)) out = some (b.run E.U (.ptr (.struct j)) (.ptr (.struct fs)) out) := by
      intro out
      have h0 := h
      rw [typeAppender_plain hm] at h0
      unfold runAppender
      rw [if_neg (by simp [GV.isNil])]
      cases b <;> first | rfl | skip
      simp only [plainBlock, Univ.base] at h0
      cases hq : pickFields E o (typeAppender E o fuel) (.struct j) (appendPicks E o j) <;> rw [hq] at h0 <;> cases h0
    rcases struct_run hE (T := .ptr (.struct j)) (.inr rfl) hm (V := .ptr (.struct fs)) (.ptr rfl hv) (by simp) (look_ptr fs)
      (fun h => run_spec hE hH hF fuel h) h hcc hk with ⟨jv, h1, hq, h2⟩ | ⟨s, hx, h1⟩
    · exact .inl ⟨jv, h1, ⟨hq _, hq _⟩, fun out => by rw [hrun, h2]⟩
    · cases s with
      | error =>
        refine .inr (.inl ⟨hx, fun out => ?_⟩)
        obtain ⟨out', h2⟩ := h1 out
        exact ⟨out', by rw [hrun, h2]⟩
      | panic => exact .inr (.inr ⟨hx, fun out => by rw [hrun, show _ = _ from h1 out]⟩)

/-- **C78**: the specification leaves no choice: when no method panics, a value has one text or a method fails, and the generated method writes this text, or
returns an error; and when no method fails, it panics exactly if a method does. -/
theorem C78_exact {E : Env} (hE : E.Ok) (hH : Hooks E.U) (hF : Floats64 E.U) {o : GenOptions} {fuel : Nat} {j : Nat} {b : ABlock}
    (h : typeAppender E o fuel (.struct j) [] = .ok b) (hc : appenderCompiles E b (.struct j) = true) (hm : NoMarshal E.U (.struct j))
    {v : GV} (hv : HasTy E.U (.struct j) v) (hk : NumKeys E o (.struct j) v) :
    (¬ GPanics E o (.struct j) v →
      (∀ jv, GEnc E o [] (.struct j) v jv → ∀ out, runAppender E.U o b (.struct j) (.ptr v) out = some (.done (out ++ jv.ser) none)) ∧
      ((∃ jv, GEnc E o [] (.struct j) v jv) ↔ ¬ GFails E o (.struct j) v) ∧
      (GFails E o (.struct j) v ↔ ∃ out out', runAppender E.U o b (.struct j) (.ptr v) out = some (.done out' (some .hook)))) ∧
    (¬ GFails E o (.struct j) v → (GPanics E o (.struct j) v ↔ ∃ out, runAppender E.U o b (.struct j) (.ptr v) out = some .panic)) := by
  rcases C78_writes_partial hE hH hF h hc hm hv hk with ⟨jv, h1, ⟨hn, hn'⟩, h2⟩ | ⟨h1, h2⟩ | ⟨h1, h2⟩
  · refine ⟨fun _ => ⟨fun jv' h' out => ?_, ⟨fun _ => hn, fun _ => ⟨jv, h1⟩⟩, fun hf => absurd hf hn, fun ⟨out, out', h'⟩ => ?_⟩,
      fun _ => ⟨fun hf => absurd hf hn', fun ⟨out, h'⟩ => ?_⟩⟩
    · rw [h2, genc_one h1 jv' h']
    · rw [h2] at h'; cases h'
    · rw [h2] at h'; cases h'
  · exact ⟨fun _ => ⟨fun jv' h' => absurd h' (genc_fails h1 _ _), ⟨fun ⟨_, h'⟩ => absurd h' (genc_fails h1 _ _), fun hn => absurd h1 hn⟩,
      fun _ => ⟨[], h2 []⟩, fun _ => h1⟩, fun hn => absurd h1 hn⟩
  · exact ⟨fun hn => absurd h1 hn, fun _ => ⟨fun _ => ⟨[], h2 []⟩, fun _ => h1⟩⟩

/-- On a nil pointer it appends null. -/
theorem C78_nil (U : Univ) (o : GenOptions) (b : ABlock) (t : Ty) (out : Bytes) :
    runAppender U o b t .nilPtr out = some (.done (out ++ b!"null") none) := rfl

/-- **C78 (partial)**: with names, texts of text methods and floats that need no escaping, and no raw fields, the text is an RFC
8259 value; `Parse` reads it, with the right tree and an empty tail, *exactly when* every string in the tree contains
a quote or does not end in a backslash.
Missing from the full claim: maps with strings or types with methods as keys (`C78_false_keys`), infinities and NaN (`C78_false_float`), raw fields
(`C78_false_raw`), types that are interfaces with marshal methods (`C78_false_iface`), and the strings `Parse` does not read. -/
theorem C78_valid_partial {E : Env} (hE : E.Ok) (hH : Hooks E.U) (hF : Floats64 E.U) {o : GenOptions} (hN : PlainNames E o) (hT : PlainTexts E.U)
    {fuel : Nat} {j : Nat} {b : ABlock}
    (h : typeAppender E o fuel (.struct j) [] = .ok b) (hc : appenderCompiles E b (.struct j) = true) (hm : NoMarshal E.U (.struct j))
    {v : GV} (hv : HasTy E.U (.struct j) v) (hk : NumKeys E o (.struct j) v) (hfin : AllFinite v) :
    (∃ text jv, GEnc E o [] (.struct j) v jv ∧ RfcValue text jv ∧
      (∀ out, runAppender E.U o b (.struct j) (.ptr v) out = some (.done (out ++ text) none)) ∧
      ∀ d : Doc, d.Wf → ((∃ d' id, Parses d text d' id jv []) ↔ AllRaw GoodEnd (fun _ => True) (fun _ => True) jv)) ∨
    (GFails E o (.struct j) v ∧ ∀ out, ∃ out', runAppender E.U o b (.struct j) (.ptr v) out = some (.done out' (some .hook))) ∨
    GPanics E o (.struct j) v ∧ ∀ out, runAppender E.U o b (.struct j) (.ptr v) out = some .panic := by
  rcases C78_writes_partial hE hH hF h hc hm hv hk with ⟨jv, h1, -, h2⟩ | he
  · have hr : RfcTree jv := genc_rfc hF hN hT h1 (by simp) hfin
    unfold RfcTree at hr
    refine .inl ⟨jv.ser, jv, h1, ser_gval hr, h2, fun d hd => ⟨fun ⟨d', id, hp⟩ => ?_, fun hg => ?_⟩⟩
    · obtain ⟨w, v, q1, q2, q3, q4⟩ := (C11_language d hd _ jv []).1 ⟨d', id, hp⟩
      refine (allRaw_mono (fun s hs => ?_) (fun _ _ => trivial) (fun _ _ => trivial)).1 jv (gval_allRaw q3)
      rcases hs with ⟨_, hs⟩ | ⟨p, q, hs, _⟩
      · exact Or.inr hs
      · left; rw [hs]; simp
    · have hl : AllRaw LenientStr EscBody LenientNum jv := by
        refine (allRaw_mono (fun s hs => ?_) (fun s hs => ?_) (fun s hs => ?_)).1 jv (allRaw_and.1 jv hg hr)
        · exact escBody_lenient (rfcBody_escBody hs.2) hs.1
        · exact rfcBody_escBody hs.2
        · exact rfcNumber_lenient hs.2
      exact (parses_iff hd).2 ⟨_, treeParse_ser hl⟩
  · exact .inr he

/-- The value `T{A: 1, B: "", P: nil, M: map[int]bool{1: true}, T2: &T2{Y: 5}, L: []float64{0}}` -/
def genV : GV := .struct [.int 1, .str [], .nilPtr, .map [(.int 1, .bool true)], .ptr (.struct [.uint 5]), .slice [.float (.num false (.fin 0 0))] 1]

theorem appendText {E : Env} {o : GenOptions} {t : Ty} {recv : GV} {s : Bytes}
    (h : genOk E o t (fun b => appenderCompiles E b t && sameB (runAppender E.U o b t recv []) s none) = true) :
    ∃ b, typeAppender E o 10 t [] = .ok b ∧ appenderCompiles E b t = true ∧ runAppender E.U o b t recv [] = some (.done s none) := by
  obtain ⟨b, h1, h2⟩ := genOk_iff h
  rw [Bool.and_eq_true] at h2
  exact ⟨b, h1, h2.1, eq_of_sameB h2.2⟩

/-- What is written for it: fields without tags first, then by tag; B is omitted, P is a nil pointer. -/
theorem C78_example : ∃ b, typeAppender genE {} 10 (.struct 0) [] = .ok b ∧ appenderCompiles genE b (.struct 0) = true ∧
    runAppender genE.U {} b (.struct 0) (.ptr genV) [] = some (.done b!"{\"Y\":5,\"a\":1,\"l\":[0],\"m\":{\"1\":true}}" none) :=
  appendText (by decide +kernel)

theorem noM : ∀ {t : Ty}, (t ≠ .struct 11 ∧ t ≠ .ptr (.struct 11) ∧ t ≠ .struct 12 ∧ t ≠ .ptr (.struct 12)) → NoMarshal genE.U t := by
  intro t ⟨h1, h2, h3, h4⟩
  refine ⟨?_, ?_, ?_⟩ <;> simp [genE, genU, h1, h2, h3, h4]

/-- The hypotheses of C78 are met by it. -/
example : genE.Ok ∧ Hooks genE.U ∧ Floats64 genE.U ∧ PlainNames genE {} ∧ PlainTexts genE.U ∧ NoMarshal genE.U (.struct 0) ∧
    HasTy genE.U (.struct 0) genV ∧ NumKeys genE {} (.struct 0) genV ∧ AllFinite genV := by
  refine ⟨genE_ok, genU_hooks, genU_floats, genE_plain, genU_texts, noM (by simp), ?_, ?_, ?_⟩
  · refine .struct rfl rfl ?_
    intro i f v hf hv
    match i with
    | 0 => cases hf; cases hv; exact .int (k := .std) rfl (by decide) (by decide)
    | 1 => cases hf; cases hv; exact .str rfl
    | 2 => cases hf; cases hv; exact .nilPtr rfl
    | 3 =>
      cases hf; cases hv
      refine .map rfl ?_ ?_
      · intro p hp; simp at hp; subst hp; exact .int (k := .std) rfl (by decide) (by decide)
      · intro p hp; simp at hp; subst hp; exact .bool rfl
    | 4 =>
      cases hf; cases hv
      refine .ptr rfl (.struct rfl rfl ?_)
      intro i f v hf hv
      match i with
      | 0 => cases hf; cases hv; exact .uint (k := .std) rfl (by decide)
      | i + 1 => cases hf
    | 5 => cases hf; cases hv; exact .slice rfl (Nat.le_refl _) (by intro x hx; simp at hx; subst hx; exact .float rfl)
    | i + 6 => cases hf
  · refine .struct fun p hp x hx => ?_
    obtain ⟨h1, -⟩ := mem_appendPicks hp
    simp only [genE, genGroups, List.flatten, List.mem_cons, List.append_eq, List.cons_append, List.nil_append, List.not_mem_nil, or_false] at h1
    rcases h1 with h1 | h1 | h1 | h1 | h1 | h1 <;> rw [h1] at hx ⊢ <;> cases hx
    · exact .leaf (by intros; nofun) (by intros; nofun) (by intros; nofun) (by intros; nofun)
    · exact .leaf (by intros; nofun) (by intros; nofun) (by intros; nofun) (by intros; nofun)
    · refine .map rfl (.inl (noM (by simp))) ?_ ?_
      · intro p hp; simp at hp; subst hp; rfl
      · intro p hp; simp at hp; subst hp; exact .leaf (by intros; nofun) (by intros; nofun) (by intros; nofun) (by intros; nofun)
    · exact .leaf (by intros; nofun) (by intros; nofun) (by intros; nofun) (by intros; nofun)
    · refine .slice rfl fun x hx => ?_
      simp at hx; subst hx
      exact .leaf (by intros; nofun) (by intros; nofun) (by intros; nofun) (by intros; nofun)
  · refine .struct fun x hx => ?_
    simp only [List.mem_cons, List.not_mem_nil, or_false] at hx
    rcases hx with rfl | rfl | rfl | rfl | rfl | rfl
    · exact .int
    · exact .str
    · exact .nilPtr
    · refine .map ?_ ?_
      · intro p hp; simp at hp; subst hp; exact .int
      · intro p hp; simp at hp; subst hp; exact .bool
    · exact .ptr (.struct (by intro x hx; simp at hx; subst hx; exact .uint))
    · refine .slice ?_
      intro x hx; simp at hx; subst hx; exact .float ⟨_, _, _, rfl⟩

theorem not_parsed {text : Bytes} (h : (match treeParse text with | .ok _ _ _ => false | _ => true) = true) :
    ¬ ∃ d' id t tail, Parses Doc.empty text d' id t tail := by
  rintro ⟨d', id, t, tail, hp⟩
  obtain ⟨pos, hp⟩ := (parses_iff empty_wf).1 ⟨d', id, hp⟩
  rw [hp] at h
  cases h

/-- The full claim is false: the keys of maps with string keys get two pairs of quotes, as in `{"m":{""k"":1}}`. And with the key `:1,`
the text is JSON, but says something else: `{"m":{"":1,"":5}}`. -/
theorem C78_false_keys :
    (∃ b, typeAppender genE {} 10 (.struct 9) [] = .ok b ∧ appenderCompiles genE b (.struct 9) = true ∧
      runAppender genE.U {} b (.struct 9) (.ptr (.struct [.map [(.str b!"k", .int 1)]])) [] = some (.done b!"{\"m\":{\"\"k\"\":1}}" none) ∧
      runAppender genE.U {} b (.struct 9) (.ptr (.struct [.map [(.str b!":1,", .int 5)]])) [] = some (.done b!"{\"m\":{\"\":1,\"\":5}}" none)) ∧
    (¬ ∃ d' id t tail, Parses Doc.empty b!"{\"m\":{\"\"k\"\":1}}" d' id t tail) ∧
    ∃ d' id, Parses Doc.empty b!"{\"m\":{\"\":1,\"\":5}}" d' id (.obj [(b!"m", .obj [(b!"", .num b!"1"), (b!"", .num b!"5")])]) [] := by
  refine ⟨?_, not_parsed (by decide +kernel), (parses_iff empty_wf).2 ⟨_, by rfl⟩⟩
  obtain ⟨b, h1, h2⟩ := genOk_iff (E := genE) (o := {}) (t := .struct 9) (P := fun b => appenderCompiles genE b (.struct 9) &&
    (sameB (runAppender genE.U {} b (.struct 9) (.ptr (.struct [.map [(.str b!"k", .int 1)]])) []) b!"{\"m\":{\"\"k\"\":1}}" none &&
    sameB (runAppender genE.U {} b (.struct 9) (.ptr (.struct [.map [(.str b!":1,", .int 5)]])) []) b!"{\"m\":{\"\":1,\"\":5}}" none)) (by decide +kernel)
  rw [Bool.and_eq_true, Bool.and_eq_true] at h2
  exact ⟨b, h1, h2.1, eq_of_sameB h2.2.1, eq_of_sameB h2.2.2⟩

/-- NaN is written as such. -/
theorem C78_false_float : (∃ b, typeAppender genE {} 10 (.struct 0) [] = .ok b ∧ appenderCompiles genE b (.struct 0) = true ∧
      runAppender genE.U {} b (.struct 0) (.ptr (.struct [.int 1, .str [], .nilPtr, .nilMap, .nilPtr, .slice [.float .nan] 1])) [] =
        some (.done b!"{\"a\":1,\"l\":[NaN],\"m\":{}}" none)) ∧
    ¬ ∃ d' id t tail, Parses Doc.empty b!"{\"a\":1,\"l\":[NaN],\"m\":{}}" d' id t tail :=
  ⟨appendText (by decide +kernel), not_parsed (by decide +kernel)⟩

/-- A raw field is written as it is. -/
theorem C78_false_raw : (∃ b, typeAppender genE { tagKey := b!"alt" } 10 (.struct 15) [] = .ok b ∧ appenderCompiles genE b (.struct 15) = true ∧
      runAppender genE.U { tagKey := b!"alt" } b (.struct 15) (.ptr (.struct [.str b!"\""])) [] = some (.done b!"{\"q\":\"\"\"}" none)) ∧
    ¬ ∃ d' id t tail, Parses Doc.empty b!"{\"q\":\"\"\"}" d' id t tail :=
  ⟨appendText (by decide +kernel), not_parsed (by decide +kernel)⟩

/-- The package with `type T struct { V json.Marshaler }` -/
def ifaceE : Env :=
  { genE with
    U := { genU with
      fields := fun _ => [fld b!"V" (.iface 1 0)]
      zeroStruct := fun _ => .struct [.nilIface]
      impl := fun t m => decide (t = .iface 1 0 ∧ m = .jsonMarshaler) }
    fields := fun _ => [[gfld b!"V" (.iface 1 0) 0]] }

theorem ifaceE_ok : ifaceE.Ok where
  univ := ⟨genU_ok.under_base, genU_ok.under_struct, fun i => rfl, by
    intro i
    unfold ifaceE genU
    dsimp only
    split <;> simp [Univ.zero]⟩
  path := by intro j f h; simp [ifaceE] at h; subst h; rfl
  nonempty := by intro j f h; simp [ifaceE] at h; subst h; simp [gfld]
  embeds := by
    intro j f pre post t e h hp hne ht hb
    simp [ifaceE] at h; subst h
    cases pre with
    | nil => cases ht; cases hb
    | cons i pre =>
      simp [gfld] at hp
      exact absurd hp.2.2 hne
  methods := by
    intro t m h h1
    simp only [ifaceE, decide_eq_true_eq] at h
    obtain ⟨rfl, -⟩ := h
    exact absurd rfl (h1 1 0)
  ptrPtr := by intro t e m hb; simp [ifaceE]
  namedPtr := by intro i e m hb; simp [ifaceE]

/-- The method panics when a field is a nil interface with a marshal method. -/
theorem C78_false_iface : ∃ b, typeAppender ifaceE {} 10 (.struct 0) [] = .ok b ∧ appenderCompiles ifaceE b (.struct 0) = true ∧
    runAppender ifaceE.U {} b (.struct 0) (.ptr (.struct [.nilIface])) [] = some .panic := by
  obtain ⟨b, h1, h2⟩ := genOk_iff (E := ifaceE) (o := {}) (t := .struct 0) (P := fun b => appenderCompiles ifaceE b (.struct 0) &&
    isPanic (runAppender ifaceE.U {} b (.struct 0) (.ptr (.struct [.nilIface])) [])) (by decide +kernel)
  rw [Bool.and_eq_true] at h2
  exact ⟨b, h1, h2.1, eq_of_isPanic h2.2⟩

/-! ## C81: which fields -/

/-- **C81**: the fields that are written have different names and take part, and every field that takes part (`Takes`) shares
its name with one of them. -/
theorem C81_names (E : Env) (o : GenOptions) (j : Nat) : ((appendPicks E o j).map Pick.name).Nodup ∧
    (∀ p ∈ appendPicks E o j, p.field ∈ (E.fields j).flatten ∧ Takes E o p.field p.name p.params) ∧
    ∀ f ∈ (E.fields j).flatten, ∀ name ps, Takes E o f name ps → name ∈ (appendPicks E o j).map Pick.name := by
  refine ⟨firsts_nodup _, fun p hp => ?_, fun f hf name ps h => ?_⟩
  · obtain ⟨h1, h2⟩ := mem_eligible.1 (firsts_sub hp)
    exact ⟨mem_sortFields.1 h1, takes_iff.1 h2⟩
  · obtain ⟨p, hp, hn⟩ := name_mem_firsts (n := name) (ps := eligible E o (sortFields (E.fields j).flatten))
      ⟨⟨name, ps, f⟩, mem_eligible.2 ⟨mem_sortFields.2 hf, takes_iff.2 h⟩, rfl⟩
    exact List.mem_map.2 ⟨p, hp, hn⟩

/-- A field with a tag, and one without, take part. -/
example : Takes genE {} (gfld b!"A" (.int .std) 0 b!"a") b!"a" [] ∧ Takes genE {} (gfld b!"P" (.ptr (.struct 1)) 2) b!"P" [] :=
  ⟨takes_iff.1 (by decide +kernel), takes_iff.1 (by decide +kernel)⟩

/-- **C81**: of the fields with the same name, the one with the smallest tag text is written (compared as bytes, with what
belongs to other keys), and of those with the same tag text one of the first in the order in which the fields come. -/
theorem C81_winner (E : Env) (o : GenOptions) (j : Nat) (p : Pick) (hp : p ∈ appendPicks E o j) :
    p ∈ eligible E o (E.fields j).flatten ∧ (∀ q ∈ eligible E o (E.fields j).flatten, q.name = p.name → ¬ q.field.tag < p.field.tag) ∧
    ∃ a b, (eligible E o (E.fields j).flatten).filter (fun q => q.field.tag = p.field.tag) = a ++ p :: b ∧ ∀ q ∈ a, q.name ≠ p.name := by
  have hperm := eligible_perm (E := E) (o := o) (sortFields_perm (E.fields j).flatten)
  obtain ⟨a, b, he, ha⟩ := mem_firsts.1 hp
  have hs := eligible_pairwise (E := E) (o := o) (sortFields_sorted (E.fields j).flatten)
  refine ⟨hperm.mem_iff.1 (firsts_sub hp), fun q hq hn => ?_, ?_⟩
  · have hq := hperm.mem_iff.2 hq
    rw [he] at hq hs
    rcases List.mem_append.1 hq with hq | hq
    · exact absurd hn (ha q hq)
    · rcases List.mem_cons.1 hq with rfl | hq
      · exact List.lt_irrefl _
      · exact (List.pairwise_cons.1 (List.pairwise_append.1 hs).2.1).1 q hq
  · refine ⟨a.filter fun q => q.field.tag = p.field.tag, b.filter fun q => q.field.tag = p.field.tag, ?_, fun q hq => ha q (List.mem_filter.1 hq).1⟩
    rw [eligible_filter, ← sortFields_stable, ← eligible_filter, he]
    simp

/-- **C81**: the members are written in the order of the tag texts; fields with the same tag text in the order in which
the fields come. -/
theorem C81_order (E : Env) (o : GenOptions) (j : Nat) : (appendPicks E o j).Pairwise (fun a b => ¬ b.field.tag < a.field.tag) ∧
    ∀ x, ((appendPicks E o j).filter fun p => p.field.tag = x).Sublist (eligible E o (E.fields j).flatten) := by
  refine ⟨(eligible_pairwise (sortFields_sorted _)).sublist (firsts_sublist _), fun x => ?_⟩
  refine ((firsts_sublist _).filter _).trans ?_
  rw [eligible_filter, sortFields_stable, ← eligible_filter]
  exact List.filter_sublist

theorem encFields_names {E : Env} {o : GenOptions} {v : GV} : ∀ {ps : List Pick} {ms : List (Bytes × JVal)}, GEncFields E o v ps ms →
    (ms.map Prod.fst).Sublist (ps.map Pick.name)
  | _, _, .nil => .slnil
  | _, _, .absent _ h => (encFields_names h).cons _
  | _, _, .omitted _ _ _ h => (encFields_names h).cons _
  | _, _, .present _ _ _ h => (encFields_names h).cons_cons _

/-- **C81**: so no object that is written for a struct has two members with the same name. -/
theorem C81_members {E : Env} {o : GenOptions} {ps : List Bytes} {j : Nat} {v : GV} {jv : JVal} (hm : NoMarshal E.U (.struct j))
    (h : GEnc E o ps (.struct j) v jv) : ∃ ms, jv = .obj ms ∧ (ms.map Prod.fst).Nodup ∧
      (ms.map Prod.fst).Sublist ((appendPicks E o j).map Pick.name) := by
  cases h with
  | struct _ h => exact ⟨_, rfl, (firsts_nodup _).sublist (encFields_names h), encFields_names h⟩
  | appender h => rw [hm.1] at h; cases h
  | json _ h => rw [hm.2.1] at h; cases h
  | text _ _ h => rw [hm.2.2] at h; cases h
  | _ _ hb => cases hb

/-- **C81 (partial)**: the fields that are written do not depend on the order in which Go iterates over the map of fields, if no two
fields that take part and have the same name have the same tag text.
Missing from the full claim: that the method does not depend on it, which is false (`C81_false`). -/
theorem C81_order_free_partial {E E' : Env} {o : GenOptions} {j : Nat} (htag : E'.parseTag = E.parseTag)
    (hp : (E'.fields j).flatten.Perm (E.fields j).flatten)
    (hd : ∀ f ∈ (E.fields j).flatten, ∀ g ∈ (E.fields j).flatten, f.tag = g.tag → ∀ n ps ps', parseField E o f = some (n, ps) →
      parseField E o g = some (n, ps') → f = g) (p : Pick) : p ∈ appendPicks E' o j ↔ p ∈ appendPicks E o j := by
  have hpf : ∀ f, parseField E' o f = parseField E o f := by
    intro f
    unfold parseField
    rw [htag]
  have hel : eligible E' o = eligible E o := by
    funext fs
    unfold eligible
    simp only [hpf]
  have key : ∀ (F F' : Env), eligible F' o = eligible F o → eligible F o = eligible E o → (F'.fields j).flatten.Perm (F.fields j).flatten →
      (F.fields j).flatten.Perm (E.fields j).flatten → p ∈ appendPicks F' o j → p ∈ appendPicks F o j := by
    intro F F' h1 h2 h3 h4 hp
    obtain ⟨g1, g2, -⟩ := C81_winner F' o j p hp
    rw [h1] at g1 g2
    have hF : p ∈ eligible F o (F.fields j).flatten := (eligible_perm h3).mem_iff.1 g1
    have hpE : p ∈ eligible E o (E.fields j).flatten := by rw [← h2]; exact (eligible_perm h4).mem_iff.1 hF
    obtain ⟨q, hq, hn⟩ := name_mem_firsts (n := p.name) (ps := eligible F o (sortFields (F.fields j).flatten))
      ⟨p, (eligible_perm (sortFields_perm _)).mem_iff.2 hF, rfl⟩
    obtain ⟨k1, k2, -⟩ := C81_winner F o j q hq
    have hqE : q ∈ eligible E o (E.fields j).flatten := by rw [← h2]; exact (eligible_perm h4).mem_iff.1 k1
    have ht : p.field.tag = q.field.tag := by
      have a1 := g2 q ((eligible_perm h3).mem_iff.2 k1) hn
      have a2 := k2 p hF hn.symm
      exact List.le_antisymm a1 a2
    rw [mem_eligible] at hpE hqE
    have hfe := hd _ hpE.1 _ hqE.1 ht p.name p.params q.params hpE.2 (by rw [hqE.2, hn])
    have : p = q := by
      obtain ⟨pn, pp, pf⟩ := p
      obtain ⟨qn, qp, qf⟩ := q
      dsimp only at hfe hn hpE hqE
      subst hfe hn
      have := hpE.2.symm.trans hqE.2
      cases this
      rfl
    rw [this]
    exact hq
  exact ⟨key E E' hel rfl hp (.refl _), key E' E hel.symm hel hp.symm hp⟩

/-- The package of the examples, iterating over the maps the other way round. -/
def genE' : Env := { genE with fields := fun j => (genGroups j).reverse }

/-- The two are covered by the partial claim, for the type with fields of many kinds; -/
example (p : Pick) : p ∈ appendPicks genE' {} 0 ↔ p ∈ appendPicks genE {} 0 := by
  refine C81_order_free_partial (E := genE) (E' := genE') rfl ?_ ?_ p
  · exact (List.reverse_perm (genGroups 0)).flatten
  · intro f hf g hg ht n ps ps' h1 h2
    simp only [genE, genGroups, List.flatten, List.mem_cons, List.append_eq, List.cons_append, List.nil_append, List.not_mem_nil, or_false] at hf hg
    have key : ∀ {a b : GField}, (match parseField genE {} a, parseField genE {} b with | some x, some y => decide (x.1 ≠ y.1) | _, _ => true) = true →
        parseField genE {} a = some (n, ps) → parseField genE {} b = some (n, ps') → a = b := by
      intro a b h h1 h2
      rw [h1, h2] at h
      simp at h
    rcases hf with rfl | rfl | rfl | rfl | rfl | rfl <;> rcases hg with rfl | rfl | rfl | rfl | rfl | rfl <;>
      first | rfl | exact key (by decide +kernel) h1 h2

/-- but not for `struct { A int "x"; B string "x" }`: what is written depends on the order of iteration. -/
theorem C81_false :
    (∃ b, typeAppender genE {} 10 (.struct 16) [] = .ok b ∧ appenderCompiles genE b (.struct 16) = true ∧
      runAppender genE.U {} b (.struct 16) (.ptr (.struct [.int 1, .str b!"b"])) [] = some (.done b!"{\"x\":1}" none)) ∧
    (∃ b, typeAppender genE' {} 10 (.struct 16) [] = .ok b ∧ appenderCompiles genE' b (.struct 16) = true ∧
      runAppender genE'.U {} b (.struct 16) (.ptr (.struct [.int 1, .str b!"b"])) [] = some (.done b!"{\"x\":\"b\"}" none)) :=
  ⟨appendText (by decide +kernel), appendText (by decide +kernel)⟩

/-! ## C82: the method calls itself -/

/-- **C82 (partial)**: the generated method returns or panics if the type does not have a method `AppendJSON` (from an embedded type), or the
generated method has another name.
Missing from the full claim: the other types, for which it is false (`C82_false`). -/
theorem C82_returns_partial {E : Env} {o : GenOptions} {fuel : Nat} {t : Ty} {ps : List Bytes} {b : ABlock} (h : typeAppender E o fuel t ps = .ok b)
    (hs : E.U.impl t .appender = false ∨ o.selfName = false) (recv : GV) (out : Bytes) : runAppender E.U o b t recv out ≠ none := by
  unfold runAppender
  split
  · simp
  · split
    · rcases hs with hs | hs
      · cases fuel with
        | zero => cases h
        | succ fuel =>
          by_cases hm : NoMarshal E.U t
          · rw [typeAppender_plain hm] at h
            simp only [plainBlock] at h
            cases hb : E.U.base t with
            | ptr e => rw [hb] at h; simp only [mapR] at h; split at h <;> cases h
            | slice e => rw [hb] at h; simp only [mapR] at h; split at h <;> cases h
            | map k e => rw [hb] at h; simp only [both] at h; split at h <;> cases h
            | struct j => rw [hb] at h; simp only [mapR] at h; split at h <;> cases h
            | string => rw [hb] at h; simp only at h; split at h <;> cases h
            | iface m i => rw [hb] at h; simp only at h; split at h <;> cases h
            | _ => rw [hb] at h; cases h
          · rw [typeAppender_method hm, methodBlock, hs] at h
            simp only [Bool.false_eq_true, if_false] at h
            split at h <;> cases h
      · rw [hs]; simp
    · simp

/-- C82 is false: for a type that has a method `AppendJSON` already, which it can only have from an embedded type, the
generated method calls itself, on every receiver that is not nil. -/
theorem C82_false {E : Env} {o : GenOptions} (hs : o.selfName = true) {t : Ty} (hm : E.U.impl t .appender = true) (fuel : Nat) :
    ∃ b, typeAppender E o (fuel + 1) t [] = .ok b ∧ (canHaveMethod E.U t = true → callable E.U (.ptr t) .appender = true → appenderCompiles E b t = true) ∧
      ∀ recv out, GV.isNil recv = false → runAppender E.U o b t recv out = none := by
  refine ⟨.callAppend, ?_, fun h1 h2 => ?_, fun recv out hr => ?_⟩
  · rw [typeAppender, if_pos hm]
  · rw [appenderCompiles, h1]; exact h2
  · rw [runAppender, hr, hs]; rfl

/-- For instance for `type T11 struct { T12 }` where T12 has the method. -/
example : genE.U.impl (.struct 11) .appender = true ∧ canHaveMethod genE.U (.struct 11) = true ∧ callable genE.U (.ptr (.struct 11)) .appender = true ∧
    HasTy genE.U (.struct 11) (.struct [.struct []]) := by
  refine ⟨by decide, by decide, by decide, .struct rfl rfl ?_⟩
  intro i f v hf hv
  match i with
  | 0 => cases hf; cases hv; exact .struct rfl rfl (by intro i f v hf; cases hf)
  | i + 1 => cases hf

end Verif.Props
