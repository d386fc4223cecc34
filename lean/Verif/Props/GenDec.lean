import Verif.Props.GenAppend
import Verif.Props.UnUnmarshal
import Verif.Proofs.GenDecFits
import Verif.Proofs.GenDecTyped
import Verif.Proofs.GenDecPanic

/-! # Generated UnmarshalNodeJSON methods (C79, C83, C84) -/

namespace Verif.Props
open Verif Verif.Float Verif.Spec Verif.Njson Verif.Unjson Verif.Gen

/-! ## C84: the generator -/

/-- **C84**: the generator of `UnmarshalNodeJSON` returns code exactly for the types in `USupported`: finite types of booleans,
numbers, strings, empty interfaces, pointers, slices, maps, structs, times, durations and types with unmarshal methods. -/
theorem C84_supported (E : Env) (o : GenOptions) (t : Ty) : (∃ fuel b, typeUnmarshaler E o fuel t = .ok b) ↔ USupported E o t :=
  ⟨fun ⟨_, _, h⟩ => usupported_of_ok h, ok_of_usupported⟩

/-- **C84**: and what it returns is one thing. -/
theorem C84_one (E : Env) (o : GenOptions) (t : Ty) (fuel fuel' : Nat) (h : typeUnmarshaler E o fuel t ≠ .diverge) (hle : fuel ≤ fuel') :
    typeUnmarshaler E o fuel' t = typeUnmarshaler E o fuel t := typeUnmarshaler_mono h hle

/-- **C84**: the fields that are known have different names and readable types; every field that takes part and has a type that
is not skipped shares its name with one of them, and of the fields with that name it is the first. -/
theorem C84_names (E : Env) (o : GenOptions) (j : Nat) : ((unmarshalPicks E o j).map Pick.name).Nodup ∧
    (∀ p ∈ unmarshalPicks E o j, p.field ∈ (E.fields j).flatten ∧ Takes E o p.field p.name p.params ∧ Can E.U p.field.typ) ∧
    ∀ f ∈ (E.fields j).flatten, Can E.U f.typ → ∀ name ps, Takes E o f name ps → name ∈ (unmarshalPicks E o j).map Pick.name := by
  classical
  refine ⟨firsts_nodup _, fun p hp => ?_, fun f hf hc name ps ht => ?_⟩
  · obtain ⟨h1, h2, h3⟩ := mem_unmarshalPicks hp
    exact ⟨h1, takes_iff.1 h2, h3⟩
  · obtain ⟨p, hp, hn⟩ := name_mem_firsts (n := name) (ps := eligible E o ((E.fields j).flatten.filter fun f => Can E.U f.typ))
      ⟨⟨name, ps, f⟩, mem_eligible.2 ⟨List.mem_filter.2 ⟨hf, by simpa using hc⟩, takes_iff.2 ht⟩, rfl⟩
    exact List.mem_map.2 ⟨p, hp, hn⟩

/-- The checks of the examples: code for type `t`, with a property. -/
def genUOk (E : Env) (o : GenOptions) (t : Ty) (P : UBlock → Bool) : Bool :=
  match typeUnmarshaler E o 10 t with
  | .ok b => P b
  | _ => false

theorem genUOk_iff {E : Env} {o : GenOptions} {t : Ty} {P : UBlock → Bool} (h : genUOk E o t P = true) :
    ∃ b, typeUnmarshaler E o 10 t = .ok b ∧ P b = true := by
  unfold genUOk at h
  cases hb : typeUnmarshaler E o 10 t with
  | ok b => rw [hb] at h; exact ⟨b, rfl, h⟩
  | err e => rw [hb] at h; cases h
  | diverge => rw [hb] at h; cases h

/-- The hypotheses of C84 are met by a type with fields of many kinds. -/
example : USupported genE {} (.struct 0) :=
  (C84_supported genE {} (.struct 0)).1 (by
    obtain ⟨b, hb, _⟩ := genUOk_iff (E := genE) (o := {}) (t := .struct 0) (P := fun _ => true) (by decide +kernel)
    exact ⟨10, b, hb⟩)

theorem unmarshalPicks_all {E : Env} {o : GenOptions} {j : Nat} (h : ∀ f ∈ (E.fields j).flatten, Can E.U f.typ) :
    unmarshalPicks E o j = firsts (eligible E o (E.fields j).flatten) := by
  unfold unmarshalPicks
  rw [List.filter_eq_self.2 (fun f hf => by simpa using h f hf)]

/-- C84 without "finite" is false: for `type T struct { Next *T }` the generator does not return. -/
theorem C84_false_recursive : ∀ fuel, typeUnmarshaler genE {} fuel (.struct 3) = .diverge := by
  have hcan : ∀ fuel, canUnmarshal genU fuel (.ptr (.struct 3)) = .diverge ∨ canUnmarshal genU fuel (.ptr (.struct 3)) = .ok true := by
    intro fuel
    match fuel with
    | 0 => exact .inl rfl
    | 1 => exact .inl rfl
    | fuel + 2 => exact .inr rfl
  have key : ∀ fuel, typeUnmarshaler genE {} fuel (.struct 3) = .diverge ∧ typeUnmarshaler genE {} (fuel + 1) (.ptr (.struct 3)) = .diverge := by
    intro fuel
    induction fuel with
    | zero => exact ⟨rfl, rfl⟩
    | succ fuel ih =>
      have hp : parseField genE {} (gfld b!"Next" (.ptr (.struct 3)) 0 b!"next") = some (b!"next", []) := by decide +kernel
      have h2 : typeUnmarshaler genE {} (fuel + 1) (.struct 3) = .diverge := by
        rw [typeUnmarshaler_plain (by unfold Unmarshals NoUnmarshal; decide +kernel)]
        have hr : typeUnmarshaler genE {} fuel (.ptr (.struct 3)) = .diverge := by
          cases fuel with
          | zero => rfl
          | succ fuel =>
            rw [typeUnmarshaler_plain (by unfold Unmarshals NoUnmarshal; decide +kernel)]
            show mapR _ (typeUnmarshaler genE {} fuel (.struct 3)) = _
            by_cases hd : typeUnmarshaler genE {} fuel (.struct 3) = .diverge
            · rw [hd]; rfl
            · have := typeUnmarshaler_mono hd (Nat.le_succ fuel)
              rw [ih.1] at this
              exact absurd this.symm hd
        show mapR UBlock.struct (unmarshalFields genE {} (canUnmarshal genU fuel) (typeUnmarshaler genE {} fuel) (.struct 3)
          [gfld b!"Next" (.ptr (.struct 3)) 0 b!"next"] []) = _
        rw [unmarshalFields, if_neg (by decide)]
        rcases hcan fuel with h | h
        · simp only [gfld, h]; rfl
        · simp only [gfld, h]
          have hp' := hp
          simp only [gfld] at hp'
          rw [hp']
          simp only [List.not_mem_nil, if_false, false_and, hr]
          rfl
      refine ⟨h2, ?_⟩
      rw [typeUnmarshaler_plain (by unfold Unmarshals NoUnmarshal; decide +kernel)]
      show mapR _ (typeUnmarshaler genE {} (fuel + 1) (.struct 3)) = _
      rw [h2]; rfl
  exact fun fuel => (key fuel).1


/-- **C84**: of the fields with the same name it is the first that is known, in the order in which the fields come. -/
theorem C84_winner (E : Env) (o : GenOptions) (j : Nat) (p : Pick) (hp : p ∈ unmarshalPicks E o j) :
    ∃ a b, (E.fields j).flatten = a ++ p.field :: b ∧ ∀ f ∈ a, Can E.U f.typ → ∀ ps, ¬ Takes E o f p.name ps := by
  classical
  obtain ⟨a, b, he, ha⟩ := mem_firsts.1 hp
  have key : ∀ (fs : List GField) (a b : List Pick), eligible E o (fs.filter fun f => decide (Can E.U f.typ)) = a ++ p :: b → (∀ q ∈ a, q.name ≠ p.name) →
      ∃ a' b', fs = a' ++ p.field :: b' ∧ ∀ f ∈ a', Can E.U f.typ → ∀ ps, ¬ Takes E o f p.name ps := by
    intro fs
    induction fs with
    | nil => intro a b h; simp [eligible] at h
    | cons f fs ih =>
      intro a b h ha
      by_cases hc : Can E.U f.typ
      · rw [List.filter_cons_of_pos (by simpa using hc)] at h
        cases hp : parseField E o f with
        | none =>
          rw [eligible, List.filterMap_cons_none (by rw [hp]; rfl)] at h
          obtain ⟨a', b', he, h'⟩ := ih a b h ha
          refine ⟨f :: a', b', by rw [he]; rfl, ?_⟩
          intro g hg
          rcases List.mem_cons.1 hg with rfl | hg
          · intro _ ps ht
            rw [← takes_iff, hp] at ht
            cases ht
          · exact h' g hg
        | some np =>
          obtain ⟨n, ps⟩ := np
          rw [eligible, List.filterMap_cons_some (b := ⟨n, ps, f⟩) (by rw [hp]; rfl)] at h
          cases a with
          | nil =>
            rw [List.nil_append] at h
            cases h
            exact ⟨[], fs, rfl, fun _ h => by cases h⟩
          | cons x a =>
            rw [List.cons_append] at h
            obtain ⟨rfl, htl⟩ := List.cons.inj h
            obtain ⟨a', b', he, h'⟩ := ih a b htl (fun q hq => ha q (List.mem_cons_of_mem _ hq))
            refine ⟨f :: a', b', by rw [he]; rfl, ?_⟩
            intro g hg
            rcases List.mem_cons.1 hg with rfl | hg
            · intro _ ps' ht
              rw [← takes_iff, hp] at ht
              cases ht
              exact ha _ List.mem_cons_self rfl
            · exact h' g hg
      · rw [List.filter_cons_of_neg (by simpa using hc)] at h
        obtain ⟨a', b', he, h'⟩ := ih a b h ha
        refine ⟨f :: a', b', by rw [he]; rfl, ?_⟩
        intro g hg
        rcases List.mem_cons.1 hg with rfl | hg
        · exact fun h => absurd h hc
        · exact h' g hg
  exact key _ a b he ha

/-- C84, "the fields of the struct are known", is false: a field of type `[16]byte` is skipped even when the type has a method that
unmarshals it (and so would a field of an interface type with methods, or a channel). -/
theorem C84_false_skipped {U : Univ} {n : Nat} {t e : Ty} (h : U.base t = .array n e) : ¬ Can U t := by
  intro hc
  cases hc <;> rename_i hb <;> rw [h] at hb <;> cases hb

/-- A defined array type. -/
example : ({ genU with under := fun _ => .array 16 (.uint .b8) } : Univ).base (.named 0) = .array 16 (.uint .b8) := rfl

/-- **C84 (partial)**: the known fields do not depend on the order in which Go iterates over the map of fields, if no two fields that take
part have the same name.
Missing from the full claim: that they do not depend on it, which is false (`C84_false_order`). -/
theorem C84_order_free_partial {E E' : Env} {o : GenOptions} {j : Nat} (htag : E'.parseTag = E.parseTag) (hU : E'.U = E.U)
    (hp : (E'.fields j).flatten.Perm (E.fields j).flatten)
    (hd : ∀ f ∈ (E.fields j).flatten, ∀ g ∈ (E.fields j).flatten, ∀ n ps ps', Takes E o f n ps → Takes E o g n ps' → f = g) (p : Pick) :
    p ∈ unmarshalPicks E' o j ↔ p ∈ unmarshalPicks E o j := by
  have hpf : ∀ f, parseField E' o f = parseField E o f := by
    intro f
    unfold parseField
    rw [htag]
  have hmem : ∀ f, f ∈ (E'.fields j).flatten ↔ f ∈ (E.fields j).flatten := fun f => hp.mem_iff
  have key : ∀ F F' : Env, (∀ f, parseField F' o f = parseField F o f) → F'.U = F.U → (∀ f, f ∈ (F'.fields j).flatten ↔ f ∈ (F.fields j).flatten) →
      (∀ f ∈ (F.fields j).flatten, ∀ g ∈ (F.fields j).flatten, ∀ n ps ps', parseField F o f = some (n, ps) → parseField F o g = some (n, ps') → f = g) →
      p ∈ unmarshalPicks F' o j → p ∈ unmarshalPicks F o j := by
    intro F F' h1 h2 h3 h4 hp
    obtain ⟨g1, g2, g3⟩ := mem_unmarshalPicks hp
    rw [h3] at g1
    rw [h1] at g2
    rw [h2] at g3
    obtain ⟨-, k2, k3⟩ := C84_names F o j
    obtain ⟨q, hq, hn⟩ := List.mem_map.1 (k3 _ g1 g3 _ _ (takes_iff.1 g2))
    obtain ⟨q1, q2, q3⟩ := k2 q hq
    have q2 := takes_iff.2 q2
    have hfe := h4 _ g1 _ q1 p.name p.params q.params g2 (by rw [q2, hn])
    have : p = q := by
      obtain ⟨pn, pp, pf⟩ := p
      obtain ⟨qn, qp, qf⟩ := q
      dsimp only at hfe hn g2 q2
      subst hfe hn
      cases g2.symm.trans q2
      rfl
    rw [this]
    exact hq
  have hd' : ∀ f ∈ (E.fields j).flatten, ∀ g ∈ (E.fields j).flatten, ∀ n ps ps', parseField E o f = some (n, ps) → parseField E o g = some (n, ps') → f = g :=
    fun f hf g hg n ps ps' h1 h2 => hd f hf g hg n ps ps' (takes_iff.1 h1) (takes_iff.1 h2)
  refine ⟨key E E' hpf hU hmem hd', key E' E (fun f => (hpf f).symm) hU.symm (fun f => (hmem f).symm) ?_⟩
  intro f hf g hg n ps ps' h1 h2
  rw [hpf] at h1 h2
  exact hd' f ((hmem f).1 hf) g ((hmem g).1 hg) n ps ps' h1 h2

/-- The two orders of the examples are covered, for `struct { M map[string]bool "m"; P *T1 "p"; S string "s" }`. -/
example (p : Pick) : p ∈ unmarshalPicks genE' {} 19 ↔ p ∈ unmarshalPicks genE {} 19 := by
  refine C84_order_free_partial (E := genE) (E' := genE') rfl rfl ?_ ?_ p
  · exact (List.reverse_perm (genGroups 19)).flatten
  · intro f hf g hg n ps ps' h1 h2
    rw [← takes_iff] at h1 h2
    simp only [genE, genGroups, List.flatten, List.mem_cons, List.append_eq, List.cons_append, List.nil_append, List.not_mem_nil, or_false] at hf hg
    have key : ∀ {a b : GField}, (match parseField genE {} a, parseField genE {} b with | some x, some y => decide (x.1 ≠ y.1) | _, _ => true) = true →
        parseField genE {} a = some (n, ps) → parseField genE {} b = some (n, ps') → a = b := by
      intro a b h h1 h2
      rw [h1, h2] at h
      simp at h
    rcases hf with rfl | rfl | rfl <;> rcases hg with rfl | rfl | rfl <;>
      first | rfl | exact key (by decide +kernel) h1 h2

/-! ## C83: does it compile -/

/-- **C83 (partial)**: the generated method compiles *exactly* for the types that can have methods and are made of the types in
`UCompiles`, where structs have known fields.
Missing from the full claim: the types for which code is generated that does not compile (`C83_false`). -/
theorem C83_compiles_partial {E : Env} (hE : E.Ok) {o : GenOptions} {fuel : Nat} {t : Ty} {b : UBlock} (h : typeUnmarshaler E o fuel t = .ok b) :
    unmarshalerCompiles E b t = true ↔ canHaveMethod E.U t = true ∧ UCompiles E o true t ∧ UNotVoid E o t :=
  unmarshalerCompiles_iff hE h

/-- The code for these types compiles: maps, pointers, strings, embedded pointers, slices, structs in structs, a defined string type. -/
example : (∀ i ∈ [1, 2, 9, 5, 6, 15, 17, 19, 20, 21], ∃ b, typeUnmarshaler genE {} 10 (.struct i) = .ok b ∧ unmarshalerCompiles genE b (.struct i) = true) ∧
    ∃ b, typeUnmarshaler genE {} 10 (.named 0) = .ok b ∧ unmarshalerCompiles genE b (.named 0) = true := by
  have key : ∀ i ∈ [1, 2, 9, 5, 6, 15, 17, 19, 20, 21], genUOk genE {} (.struct i) (fun b => unmarshalerCompiles genE b (.struct i)) = true := by
    decide +kernel
  exact ⟨fun i hi => genUOk_iff (key i hi), genUOk_iff (P := fun b => unmarshalerCompiles genE b (.named 0)) (by decide +kernel)⟩

theorem notUCompiles {E : Env} {o : GenOptions} {t : Ty} (h : genUOk E o t (fun b => !unmarshalerCompiles E b t) = true) :
    ∃ b, typeUnmarshaler E o 10 t = .ok b ∧ unmarshalerCompiles E b t = false := by
  obtain ⟨b, h1, h2⟩ := genUOk_iff h
  exact ⟨b, h1, by simpa using h2⟩

/-- C83 is false: code is generated, without an error, that does not compile, for structs with a field of type `interface{}`, of type
`time.Duration` or of type `map[int]bool`, for structs without fields that can be read, and for a time.Duration. -/
theorem C83_false :
    (∃ b, typeUnmarshaler genE {} 10 (.struct 4) = .ok b ∧ unmarshalerCompiles genE b (.struct 4) = false) ∧
    (∃ b, typeUnmarshaler genE {} 10 (.struct 14) = .ok b ∧ unmarshalerCompiles genE b (.struct 14) = false) ∧
    (∃ b, typeUnmarshaler genE {} 10 (.struct 18) = .ok b ∧ unmarshalerCompiles genE b (.struct 18) = false) ∧
    (∃ b, typeUnmarshaler genE {} 10 (.struct 10) = .ok b ∧ unmarshalerCompiles genE b (.struct 10) = false) ∧
    (∃ b, typeUnmarshaler genE {} 10 (.struct 7) = .ok b ∧ unmarshalerCompiles genE b (.struct 7) = false) ∧
    (∃ b, typeUnmarshaler genE {} 10 (.named 1) = .ok b ∧ unmarshalerCompiles genE b (.named 1) = false) :=
  ⟨notUCompiles (by decide +kernel), notUCompiles (by decide +kernel), notUCompiles (by decide +kernel), notUCompiles (by decide +kernel),
    notUCompiles (by decide +kernel), notUCompiles (by decide +kernel)⟩

/-- In general, for any package: it does not compile if a known field is an interface, a duration, has a method
`UnmarshalNodeJSON` (its own interface), or is a map with keys that are neither of type string nor empty interfaces. -/
theorem C83_never {E : Env} (hE : E.Ok) {o : GenOptions} {fuel : Nat} {j : Nat} {b : UBlock} (h : typeUnmarshaler E o fuel (.struct j) = .ok b)
    (hm : ¬ Unmarshals E (.struct j)) {p : Pick} (hp : p ∈ unmarshalPicks E o j) (hr : ¬ RawString E.U p) (ht : E.isTime p.field.typ = false)
    (hbad : E.isDuration p.field.typ = true ∨ E.U.impl (.ptr p.field.typ) .unmarshaler = true ∨
      (¬ Unmarshals E p.field.typ ∧ ((∃ m i, E.U.base p.field.typ = .iface m i) ∨
        ∃ k e, E.U.base p.field.typ = .map k e ∧ k ≠ .string ∧ ∀ i, E.U.base k ≠ .iface 0 i))) : unmarshalerCompiles E b (.struct j) = false := by
  rw [← Bool.not_eq_true, unmarshalerCompiles_iff hE h]
  rintro ⟨_, hc, _⟩
  have hc := (UCompiles.inv_struct hm hc p hp).1 hr
  generalize p.field.typ = t at hc hbad ht
  rcases hbad with hd | hi | ⟨hm', ⟨m, i, hb⟩ | ⟨k, e, hb, h1, h2⟩⟩
  · have hu : Unmarshals E t := .inr (.inl hd)
    cases hc with
    | time h => rw [h] at ht; cases ht
    | json _ h => rw [h] at hd; cases hd
    | text _ h => rw [h] at hd; cases hd
    | struct h => exact h hu
    | _ h => exact h hu
  · have hu : Unmarshals E t := .inr (.inr fun hn => by rw [hn.1] at hi; cases hi)
    cases hc with
    | time h => rw [h] at ht; cases ht
    | json _ _ h => rw [h] at hi; cases hi
    | text _ _ h => rw [h] at hi; cases hi
    | struct h => exact h hu
    | _ h => exact h hu
  · exact UCompiles.not_iface hm' hb hc
  · obtain ⟨_, _, h | ⟨i, h⟩⟩ := UCompiles.inv_map hm' hb hc
    · exact h1 h
    · exact h2 i h

/-! ## C79: what is stored -/

/-- Parse a text and call the generated method with the root. -/
def parseInto (E : Env) (fuel : Nat) (d : Doc) (b : UBlock) (t : Ty) (v : GV) (s : Bytes) : Option (Out GV) :=
  match Heap.parse (fun _ => d) 0 s with
  | (h, n, .ok _ _) => runUnmarshaler E h fuel b t v n
  | (_, _, .crash) => some .panic
  | _ => some (.done v (some .parse))

/-- **C79 (partial)**: the generated method returns, unless it comes to a call of an unmarshal method that panics (`UPanics`), and panics then. Null leaves the
value as it is, without an error; on another tree `j` the method stores the value and returns the error that `GDec` gives for `j`, which is one pair
(`C79_one`), and the value is of the type.
Missing from the full claim: that what is stored is what the JSON denotes (`C79_false_*`). -/
theorem C79_stores_partial {E : Env} (hE : E.Ok) (hH : UHooks E) {o : GenOptions} {gf : Nat} {t : Ty} {b : UBlock}
    (hb : typeUnmarshaler E o gf t = .ok b) (hc : unmarshalerCompiles E b t = true) {h : Heap} {n : Node} {j : JVal} (ht : Tree h n j) {v : GV}
    (hv : HasTy E.U t v) {fuel : Nat} (hf : j.size ≤ fuel) :
    (j = .null → runUnmarshaler E h fuel b t v n = some (.done v none)) ∧
    (j ≠ .null → UPanics E o t v j → runUnmarshaler E h fuel b t v n = some .panic) ∧
    (j ≠ .null → ¬ UPanics E o t v j → ∃ y err, runUnmarshaler E h fuel b t v n = some (.done y err) ∧ GDec E o t v j y err ∧ HasTy E.U t y) := by
  rw [runUnmarshaler_eq ht]
  have hn : jtyp j = tNull ↔ j = .null := by cases j <;> simp only [jtyp, reduceCtorEq, iff_false] <;> decide
  refine ⟨fun hj => by rw [if_pos (hn.2 hj)], fun hj hp => ?_, fun hj hp => ?_⟩ <;> rw [if_neg (fun h => hj (hn.1 h))]
  · rcases run_stores hE hH gf hb ((unmarshalerCompiles_iff hE hb).1 hc).2.1 v n j hv ht hf with ⟨y, err, _, h1, _⟩ | ⟨h1, _⟩
    · exact absurd h1 (panics_not_gdec hp _ _)
    · exact h1
  · rcases run_stores hE hH gf hb ((unmarshalerCompiles_iff hE hb).1 hc).2.1 v n j hv ht hf with h1 | ⟨_, h1⟩
    · exact h1
    · exact absurd h1 hp

/-- The same with the result given: what has been returned is what `GDec` says, and after a panic a method had panicked. -/
theorem C79_returned {E : Env} (hE : E.Ok) (hH : UHooks E) {o : GenOptions} {gf : Nat} {t : Ty} {b : UBlock}
    (hb : typeUnmarshaler E o gf t = .ok b) (hc : unmarshalerCompiles E b t = true) {h : Heap} {n : Node} {j : JVal} (ht : Tree h n j) {v : GV}
    (hv : HasTy E.U t v) {fuel : Nat} (hf : j.size ≤ fuel) (hj : j ≠ .null) :
    (∃ y err, runUnmarshaler E h fuel b t v n = some (.done y err) ∧ GDec E o t v j y err ∧ HasTy E.U t y ∧ ¬ UPanics E o t v j) ∨
    (runUnmarshaler E h fuel b t v n = some .panic ∧ UPanics E o t v j ∧ ∀ y err, ¬ GDec E o t v j y err) := by
  obtain ⟨_, h2, h3⟩ := C79_stores_partial hE hH hb hc ht hv hf
  by_cases hp : UPanics E o t v j
  · exact .inr ⟨h2 hj hp, hp, panics_not_gdec hp⟩
  · obtain ⟨y, err, k1, k2, k3⟩ := h3 hj hp
    exact .inl ⟨y, err, k1, k2, k3, hp⟩

/-- **C79**: `GDec` gives one pair. -/
theorem C79_one {E : Env} {o : GenOptions} {t : Ty} {v : GV} {j : JVal} {v1 v2 : GV} {e1 e2 : Option UErr} (h1 : GDec E o t v j v1 e1)
    (h2 : GDec E o t v j v2 e2) : v1 = v2 ∧ e1 = e2 := gdec_fun h1 h2

/-- **C79**: no error exactly for the trees in `GFits`, whatever the value was before, as long as no method panics. `A` is what times and unmarshal methods
accept. -/
theorem C79_accepts {E : Env} (hE : E.Ok) (hH : UHooks E) {o : GenOptions} {gf : Nat} {t : Ty} {b : UBlock}
    (hb : typeUnmarshaler E o gf t = .ok b) (hc : unmarshalerCompiles E b t = true) {A : Ty → JVal → Prop}
    (hA : ∀ t v j y err, Unmarshals E t → GDec E o t v j y err → (err = none ↔ A t j)) {h : Heap} {n : Node} {j : JVal} (ht : Tree h n j) {v : GV}
    (hv : HasTy E.U t v) {fuel : Nat} (hf : j.size ≤ fuel) :
    (∃ y, runUnmarshaler E h fuel b t v n = some (.done y none)) ↔ j = .null ∨ (¬ UPanics E o t v j ∧ GFits E o A t j) := by
  by_cases hj : j = .null
  · exact ⟨fun _ => .inl hj, fun _ => ⟨v, (C79_stores_partial hE hH hb hc ht hv hf).1 hj⟩⟩
  · rcases C79_returned hE hH hb hc ht hv hf hj with ⟨y, err, hr, hd, _, hp⟩ | ⟨hr, hp, _⟩
    · have := gdec_fits hA hd
      rw [hr]
      constructor
      · rintro ⟨y', h⟩
        cases h
        exact .inr ⟨hp, this.1 rfl⟩
      · rintro (h | ⟨_, h⟩)
        · exact absurd h hj
        · rw [this.2 h]; exact ⟨y, rfl⟩
    · rw [hr]
      constructor
      · rintro ⟨y', h⟩; cases h
      · rintro (h | ⟨h, _⟩)
        · exact absurd h hj
        · exact absurd hp h

/-- **C79**: what is in a struct at a path that is apart from the paths of the fields named in the object stays as it is, error or not. -/
theorem C79_keeps {E : Env} (hE : E.Ok) (hH : UHooks E) {o : GenOptions} {gf : Nat} {i : Nat} {b : UBlock}
    (hb : typeUnmarshaler E o gf (.struct i) = .ok b) (hc : unmarshalerCompiles E b (.struct i) = true) (hm : ¬ Unmarshals E (.struct i))
    {h : Heap} {n : Node} {ms : List (Bytes × JVal)} (ht : Tree h n (.obj ms)) {v : GV} (hv : HasTy E.U (.struct i) v) {fuel : Nat}
    (hf : (JVal.obj ms).size ≤ fuel) {q : List Nat} {z : GV}
    (hq : ∀ p ∈ unmarshalPicks E o i, p.name ∈ ms.map Prod.fst → Apart p.field.path q) (hz : getPath v q = some z) :
    (UPanics E o (.struct i) v (.obj ms) ∧ runUnmarshaler E h fuel b (.struct i) v n = some .panic) ∨
    ∃ y err, runUnmarshaler E h fuel b (.struct i) v n = some (.done y err) ∧ getPath y q = some z := by
  rcases C79_returned hE hH hb hc ht hv hf (by simp) with ⟨y, err, hr, hd, _⟩ | ⟨hr, hp, _⟩
  · exact .inr ⟨y, err, hr, (gdec_typed hE hH hd true ((unmarshalerCompiles_iff hE hb).1 hc).2.1 hv).2 i ms rfl hm rfl q z hq hz⟩
  · exact .inl ⟨hp, hr⟩

/-- **C79**: from a text: what Parse does not accept is an error and leaves the value; what it accepts is stored. -/
theorem C79_text {E : Env} (hE : E.Ok) (hH : UHooks E) {o : GenOptions} {gf : Nat} {t : Ty} {b : UBlock}
    (hb : typeUnmarshaler E o gf t = .ok b) (hc : unmarshalerCompiles E b t = true) {d : Doc} (hd : d.Wf) {v : GV} (hv : HasTy E.U t v) (s : Bytes) :
    ((¬ ∃ d' id j tail, Parses d s d' id j tail) ∧ ∀ fuel, parseInto E fuel d b t v s = some (.done v (some .parse))) ∨
    ∃ d' id j tail, Parses d s d' id j tail ∧ ∀ fuel, j.size ≤ fuel →
      (j = .null ∧ parseInto E fuel d b t v s = some (.done v none) ∨
       j ≠ .null ∧ UPanics E o t v j ∧ parseInto E fuel d b t v s = some .panic ∨
       j ≠ .null ∧ ¬ UPanics E o t v j ∧ ∃ y err, parseInto E fuel d b t v s = some (.done y err) ∧ GDec E o t v j y err ∧ HasTy E.U t y) := by
  rcases heap_parse hd s with ⟨d', id, j, tail, h, n, hp, hq, ht⟩ | ⟨hp, h, n, out, hq, h1, h2⟩
  · refine .inr ⟨d', id, j, tail, hp, fun fuel hf => ?_⟩
    unfold parseInto
    rw [hq]
    simp only
    obtain ⟨k1, k2, k3⟩ := C79_stores_partial hE hH hb hc ht hv hf
    by_cases hj : j = .null
    · exact .inl ⟨hj, k1 hj⟩
    · by_cases hp : UPanics E o t v j
      · exact .inr (.inl ⟨hj, hp, k2 hj hp⟩)
      · exact .inr (.inr ⟨hj, hp, k3 hj hp⟩)
  · refine .inl ⟨hp, fun fuel => ?_⟩
    unfold parseInto
    rw [hq]
    cases out with
    | ok id tail => exact absurd rfl (h2 _ _)
    | crash => exact absurd rfl h1
    | _ => rfl

theorem genE_uhooks : UHooks genE where
  time := by intro t s y h; cases h
  method := by intro m t v s _ hv; exact ⟨v, true, rfl, hv⟩

theorem intoText {E : Env} {o : GenOptions} {t : Ty} {v y : GV} {s : Bytes} {err : Option UErr}
    (h : genUOk E o t (fun b => unmarshalerCompiles E b t && sameV (parseInto E 100 Doc.empty b t v s) y err) = true) :
    ∃ b, typeUnmarshaler E o 10 t = .ok b ∧ unmarshalerCompiles E b t = true ∧ parseInto E 100 Doc.empty b t v s = some (.done y err) := by
  obtain ⟨b, h1, h2⟩ := genUOk_iff h
  rw [Bool.and_eq_true] at h2
  exact ⟨b, h1, h2.1, eq_of_sameV h2.2⟩

/-- A case: a struct with a map, a pointer and a string; a member that is not known. -/
example : ∃ b, typeUnmarshaler genE {} 10 (.struct 19) = .ok b ∧ unmarshalerCompiles genE b (.struct 19) = true ∧
    parseInto genE 100 Doc.empty b (.struct 19) (.struct [.nilMap, .nilPtr, .str b!"old"]) b!"{\"p\":{\"X\":true},\"u\":[],\"m\":{\"k\":true}}" =
      some (.done (.struct [.map [(.str b!"k", .bool true)], .ptr (.struct [.bool true]), .str b!"old"]) none) :=
  intoText (by decide +kernel)

/-- The hypotheses of C79 are met. -/
example : genE.Ok ∧ UHooks genE ∧ HasTy genE.U (.struct 19) (.struct [.nilMap, .nilPtr, .str b!"old"]) ∧ ¬ Unmarshals genE (.struct 19) ∧
    (∀ t v j y err, Unmarshals genE t → GDec genE {} t v j y err → (err = none ↔ (fun _ _ => True : Ty → JVal → Prop) t j)) ∧
    ∃ d' id, Parses Doc.empty b!"{\"p\":{\"X\":true},\"u\":[]}" d' id (.obj [(b!"p", .obj [(b!"X", .bool true)]), (b!"u", .arr [])]) [] := by
  refine ⟨genE_ok, genE_uhooks, ?_, by unfold Unmarshals NoUnmarshal; decide +kernel, ?_, ?_⟩
  · refine .struct rfl rfl ?_
    intro i f v hf hv
    match i with
    | 0 => cases hf; cases hv; exact .nilMap rfl
    | 1 => cases hf; cases hv; exact .nilPtr rfl
    | 2 => cases hf; cases hv; exact .str rfl
    | i + 3 => cases hf
  · intro t v j y err hu hd
    exfalso
    have himp : ∀ m, genE.U.impl (.ptr t) m = true → m = .appender := by
      intro m h
      have : (decide ((Ty.ptr t = .struct 11 ∨ Ty.ptr t = .ptr (.struct 11) ∨ Ty.ptr t = .struct 12 ∨ Ty.ptr t = .ptr (.struct 12)) ∧ m = .appender)) = true := h
      simp only [decide_eq_true_eq] at this
      exact this.2
    cases hd with
    | time h => cases h
    | timeErr h => cases h
    | json _ _ _ h => cases himp _ h
    | text _ _ _ _ h => cases himp _ h
    | textErr _ _ _ _ h => cases himp _ h
    | struct h => exact h hu
    | structErr h => exact h hu
    | _ h => exact h hu
  · exact (parses_iff empty_wf).2 ⟨_, by rfl⟩

/-- C79, "an array is stored as a slice of its elements", is false: when the slice that is there is too small, zeros are left at the end. -/
theorem C79_false_slice : ∃ b, typeUnmarshaler genE {} 10 (.struct 17) = .ok b ∧ unmarshalerCompiles genE b (.struct 17) = true ∧
    parseInto genE 100 Doc.empty b (.struct 17) (.struct [.slice [.int 1] 1]) b!"{\"l\":[2,3]}" =
      some (.done (.struct [.slice [.int 2, .int 3, .int 0] 3]) none) :=
  intoText (by decide +kernel)

/-- In general: a slice of length `len` with a backing array shorter than the JSON array becomes a slice that is longer than the array by
`len`. -/
theorem C79_false_slice_general {E : Env} {o : GenOptions} {t e : Ty} (hm : ¬ Unmarshals E t) (hb : E.U.base t = .slice e) {arr : List GV} {len : Nat}
    {js : List JVal} (hl : arr.length < js.length) {y : GV} {err : Option UErr} (h : GDec E o t (.slice arr len) (.arr js) y err) :
    ∃ arr', y = .slice arr' (len + js.length) := by
  cases h with
  | sliceFit _ _ h => omega
  | sliceGrow => exact ⟨_, rfl⟩
  | sliceErr _ _ h => exact absurd rfl h
  | time h => exact absurd (.inl h) hm
  | timeErr h => exact absurd (.inl h) hm
  | json _ _ _ h => exact (hm (.inr (.inr fun hn => by rw [hn.2.1] at h; cases h))).elim
  | textErr _ _ _ _ h => exact (hm (.inr (.inr fun hn => by rw [hn.2.2] at h; cases h))).elim
  | structErr => cases hb
  | _ _ hb' => rw [hb] at hb'; cases hb'

/-- C79, "a value of another type is an error", is false: anything but a string sets a string to "", a string with a number in it is
taken for the number, and numbers that are too large for the type are cut to its bits. -/
theorem C79_false_types :
    (∃ b, typeUnmarshaler genE {} 10 (.struct 19) = .ok b ∧ unmarshalerCompiles genE b (.struct 19) = true ∧
      parseInto genE 100 Doc.empty b (.struct 19) (.struct [.nilMap, .nilPtr, .str b!"old"]) b!"{\"s\":5}" =
        some (.done (.struct [.nilMap, .nilPtr, .str []]) none)) ∧
    (∃ b, typeUnmarshaler genE {} 10 (.struct 21) = .ok b ∧ unmarshalerCompiles genE b (.struct 21) = true ∧
      parseInto genE 100 Doc.empty b (.struct 21) (.struct [.int 0, .struct [.bool false]]) b!"{\"a\":\"12\"}" =
        some (.done (.struct [.int 12, .struct [.bool false]]) none)) ∧
    ∃ b, typeUnmarshaler genE {} 10 (.struct 21) = .ok b ∧ unmarshalerCompiles genE b (.struct 21) = true ∧
      parseInto genE 100 Doc.empty b (.struct 21) (.struct [.int 0, .struct [.bool false]]) b!"{\"a\":300}" =
        some (.done (.struct [.int 44, .struct [.bool false]]) none) :=
  ⟨intoText (by decide +kernel), intoText (by decide +kernel), intoText (by decide +kernel)⟩

/-- C79, "null leaves a value as it is", is false in structs: for a struct it is a type error, for a string it is "". -/
theorem C79_false_null :
    (∃ b, typeUnmarshaler genE {} 10 (.struct 21) = .ok b ∧ unmarshalerCompiles genE b (.struct 21) = true ∧
      parseInto genE 100 Doc.empty b (.struct 21) (.struct [.int 0, .struct [.bool true]]) b!"{\"v\":null}" =
        some (.done (.struct [.int 0, .struct [.bool true]]) (some (.typeError tNull tObject)))) ∧
    ∃ b, typeUnmarshaler genE {} 10 (.struct 19) = .ok b ∧ unmarshalerCompiles genE b (.struct 19) = true ∧
      parseInto genE 100 Doc.empty b (.struct 19) (.struct [.nilMap, .nilPtr, .str b!"old"]) b!"{\"s\":null}" =
        some (.done (.struct [.nilMap, .nilPtr, .str []]) none) :=
  ⟨intoText (by decide +kernel), intoText (by decide +kernel)⟩

/-- C79, "the member with the name of the field", is false for names written with escapes: `{"\u0073":"x"}` does not set the field s, and
the keys of maps keep their escapes. -/
theorem C79_false_keys :
    (∃ b, typeUnmarshaler genE {} 10 (.struct 19) = .ok b ∧ unmarshalerCompiles genE b (.struct 19) = true ∧
      parseInto genE 100 Doc.empty b (.struct 19) (.struct [.nilMap, .nilPtr, .str b!"old"]) b!"{\"\\u0073\":\"x\"}" =
        some (.done (.struct [.nilMap, .nilPtr, .str b!"old"]) none)) ∧
    ∃ b, typeUnmarshaler genE {} 10 (.struct 19) = .ok b ∧ unmarshalerCompiles genE b (.struct 19) = true ∧
      parseInto genE 100 Doc.empty b (.struct 19) (.struct [.nilMap, .nilPtr, .str []]) b!"{\"m\":{\"\\u0073\":true}}" =
        some (.done (.struct [.map [(.str b!"\\u0073", .bool true)], .nilPtr, .str []]) none) :=
  ⟨intoText (by decide +kernel), intoText (by decide +kernel)⟩

/-- C84 is false without "have the same name": for `struct { A int "x"; B string "x" }` the field that is set depends on the order in
which Go iterates over a map when the code is generated. -/
theorem C84_false_order :
    (∃ b, typeUnmarshaler genE {} 10 (.struct 16) = .ok b ∧ unmarshalerCompiles genE b (.struct 16) = true ∧
      parseInto genE 100 Doc.empty b (.struct 16) (.struct [.int 1, .str []]) b!"{\"x\":\"7\"}" = some (.done (.struct [.int 7, .str []]) none)) ∧
    (∃ b, typeUnmarshaler genE' {} 10 (.struct 16) = .ok b ∧ unmarshalerCompiles genE' b (.struct 16) = true ∧
      parseInto genE' 100 Doc.empty b (.struct 16) (.struct [.int 1, .str []]) b!"{\"x\":\"7\"}" = some (.done (.struct [.int 1, .str b!"7"]) none)) :=
  ⟨intoText (by decide +kernel), intoText (by decide +kernel)⟩

end Verif.Props
