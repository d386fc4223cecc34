import Verif.Spec.Keys
import Verif.Props.Access
import Verif.Props.UnIgnore

/-! # Members and their keys (C127, C128) -/

namespace Verif.Props
open Verif Verif.Spec Verif.Njson Verif.Unjson

/-! ## C127 -/

theorem assocLast_none {ms : List (Bytes × JVal)} {k : Bytes} : assocLast ms k = none ↔ k ∉ ms.map (·.1) := by
  induction ms with
  | nil => simp [assocLast]
  | cons m ms ih =>
    obtain ⟨k', x⟩ := m
    rw [assocLast]
    cases hl : assocLast ms k with
    | some y =>
      have : k ∈ ms.map (·.1) := by by_contra hc; rw [ih.2 hc] at hl; cases hl
      simp only [List.map_cons, List.mem_cons, reduceCtorEq, false_iff, not_not]
      exact Or.inr this
    | none =>
      have := ih.1 hl
      by_cases hk : k' = k
      · simp [hk]
      · simp only [if_neg hk, List.map_cons, List.mem_cons, true_iff]
        rintro (h | h)
        · exact hk h.symm
        · exact this h

theorem assocGet_none {ms : List (Bytes × JVal)} {k : Bytes} : assocGet ms k = none ↔ k ∉ ms.map (·.1) := by
  induction ms with
  | nil => simp [assocGet]
  | cons m ms ih =>
    obtain ⟨k', x⟩ := m
    rw [assocGet]
    by_cases hk : k' = k
    · simp [hk]
    · simp only [if_neg hk, ih, List.map_cons, List.mem_cons, not_or]
      exact ⟨fun h => ⟨fun he => hk he.symm, h⟩, fun h => h.2⟩

/-- Without duplicates the first member with a key is the last. -/
theorem assocLast_eq_get {ms : List (Bytes × JVal)} (hd : DistinctKeys ms) (k : Bytes) : assocLast ms k = assocGet ms k := by
  induction ms with
  | nil => rfl
  | cons m ms ih =>
    obtain ⟨k', x⟩ := m
    obtain ⟨h1, h2⟩ := List.nodup_cons.1 hd
    rw [assocLast, assocGet]
    by_cases hk : k' = k
    · subst hk
      rw [assocLast_none.2 h1, if_pos rfl, if_pos rfl]
    · rw [if_neg hk, if_neg hk, ih h2]
      cases assocGet ms k <;> rfl

theorem isGoMembers_last {F : Type} {pf : Bytes → Option F} {m : Bytes → Option (GoVal F)} {k : Bytes} {x : JVal} :
    ∀ {ms : List (Bytes × JVal)}, IsGoMembers pf ms m → assocLast ms k = some x → ∃ g, m k = some g ∧ IsGo pf x g := by
  intro ms
  induction ms with
  | nil => intro _ h; cases h
  | cons mm ms ih =>
    obtain ⟨k', y⟩ := mm
    intro hm hl
    obtain ⟨h1, h2⟩ := hm
    rw [assocLast] at hl
    cases hl' : assocLast ms k with
    | some z => rw [hl'] at hl; simp only at hl; cases hl; exact ih h2 hl'
    | none =>
      rw [hl'] at hl
      simp only at hl
      split at hl
      · rename_i hk
        cases hl
        subst hk
        rcases h1 with h1 | h1
        · exact absurd h1 (assocLast_none.1 hl')
        · exact h1
      · cases hl

theorem numsParse_last {F : Type} {pf : Bytes → Option F} {k : Bytes} {x : JVal} :
    ∀ {ms : List (Bytes × JVal)}, AllRawMembers (fun _ => True) (fun _ => True) (fun raw => pf raw ≠ none) ms → assocLast ms k = some x → NumsParse pf x := by
  intro ms
  induction ms with
  | nil => intro _ h; cases h
  | cons mm ms ih =>
    obtain ⟨k', y⟩ := mm
    intro hm hl
    obtain ⟨_, h1, h2⟩ := hm
    rw [assocLast] at hl
    cases hl' : assocLast ms k with
    | some z => rw [hl'] at hl; simp only at hl; cases hl; exact ih h2 hl'
    | none =>
      rw [hl'] at hl
      simp only at hl
      split at hl
      · cases hl; exact h1
      · cases hl

/-- What `ToInterface` has under a key: the Go value of the *last* member with that key, and nothing for other keys. -/
theorem C127_last {F : Type} (pf : Bytes → Option F) (h : Heap) (n : Node) (ms : List (Bytes × JVal)) (ht : Tree h n (.obj ms)) (hp : NumsParse pf (.obj ms))
    (fuel : Nat) (hf : (JVal.obj ms).size ≤ fuel) :
    ∃ m, n.toInterface pf h fuel = some (some (.map m)) ∧ ∀ k, match assocLast ms k with
      | some x => ∃ g, m k = some g ∧ IsGo pf x g
      | none => m k = none := by
  obtain ⟨g, h1, m, rfl, h2, h3⟩ := (C35_toInterface pf h n _ ht fuel hf).1 hp
  refine ⟨m, h1, fun k => ?_⟩
  cases hl : assocLast ms k with
  | some x => exact isGoMembers_last h3 hl
  | none =>
    by_contra hc
    exact assocLast_none.1 hl (h2 k hc)

/-- **C127 (partial)**: in an object without duplicate keys all ways to read a member agree: for every key the value in the map that `ToInterface` returns
for the object is what `ToInterface` returns for the node that `Get` finds, and a key that `Get` does not find is not in the map. With C105 the same
holds for the map that `Unmarshal` stores. Missing from the full claim: objects with duplicate keys, for which it is false. -/
theorem C127_agree_partial {F : Type} (pf : Bytes → Option F) (h : Heap) (n : Node) (ms : List (Bytes × JVal)) (ht : Tree h n (.obj ms)) (hd : DistinctKeys ms)
    (hlen : ∀ r, (h r).len ≤ maxUint) (hp : NumsParse pf (.obj ms)) (fuel : Nat) (hf : (JVal.obj ms).size ≤ fuel) :
    ∃ m, n.toInterface pf h fuel = some (some (.map m)) ∧ ∀ k,
      (Dead h (n.getKey h k) ∧ m k = none) ∨
      (¬ Dead h (n.getKey h k) ∧ ∃ g, m k = some g ∧ ∃ N, ∀ fuel', N ≤ fuel' → (n.getKey h k).toInterface pf h fuel' = some (some g)) := by
  obtain ⟨m, h1, h2⟩ := C127_last pf h n ms ht hp fuel hf
  refine ⟨m, h1, fun k => ?_⟩
  have h2 := h2 k
  have h3 := C19_get h n ms k ht hlen
  rw [assocLast_eq_get hd] at h2
  cases hg : assocGet ms k with
  | none => rw [hg] at h2 h3; exact Or.inl ⟨h3, h2⟩
  | some x =>
    rw [hg] at h2 h3
    obtain ⟨g, h4, h5⟩ := h2
    simp only at h3
    refine Or.inr ⟨fun hc => ?_, g, h4, x.size, fun fuel' hf' => ?_⟩
    · have := (C35_toInterface pf h _ x h3 (x.size + 1) (by omega)).1
      rw [C35_dead pf h _ hc] at this
      obtain ⟨g', h6, _⟩ := this (numsParse_last hp (by rw [assocLast_eq_get hd]; exact hg))
      cases h6
    · obtain ⟨g', h6, h7⟩ := (C35_toInterface pf h _ x h3 fuel' hf').1 (numsParse_last hp (by rw [assocLast_eq_get hd]; exact hg))
      rw [h6, (C35_unique pf).1 x g' g h7 h5]

/-- Exactness: with two members of one key whose values differ as Go values, `Get` and the map differ. -/
theorem C127_differ {F : Type} (pf : Bytes → Option F) (h : Heap) (n : Node) (ms : List (Bytes × JVal)) (ht : Tree h n (.obj ms)) (hlen : ∀ r, (h r).len ≤ maxUint)
    (hp : NumsParse pf (.obj ms)) (fuel : Nat) (hf : (JVal.obj ms).size ≤ fuel) (k : Bytes) (x y : JVal) (hx : assocGet ms k = some x)
    (hy : assocLast ms k = some y) (hne : ∀ g, ¬ (IsGo pf x g ∧ IsGo pf y g)) :
    ∃ m, n.toInterface pf h fuel = some (some (.map m)) ∧ ∀ fuel', x.size ≤ fuel' → (n.getKey h k).toInterface pf h fuel' ≠ some (m k) := by
  obtain ⟨m, h1, h2⟩ := C127_last pf h n ms ht hp fuel hf
  refine ⟨m, h1, fun fuel' hf' hc => ?_⟩
  have h2 := h2 k
  rw [hy] at h2
  obtain ⟨g, h3, h4⟩ := h2
  have h5 := C19_get h n ms k ht hlen
  rw [hx] at h5
  obtain ⟨h6, h7⟩ := C35_toInterface pf h _ x h5 fuel' hf'
  by_cases hn : NumsParse pf x
  · obtain ⟨g', h8, h9⟩ := h6 hn
    rw [h8, h3] at hc
    cases hc
    exact hne _ ⟨h9, h4⟩
  · rw [h7 hn, h3] at hc; cases hc

/-- **C127 is false** of the code: in `{"a":[1,{"b":"x"}],"c":null,"a":true}` `Get("a")` is the array, and the map of `ToInterface` has `true`. -/
theorem C127_false : ¬ ∀ (h : Heap) (n : Node) (ms : List (Bytes × JVal)), Tree h n (.obj ms) → (∀ r, (h r).len ≤ maxUint) →
    ∀ fuel, (JVal.obj ms).size ≤ fuel → ∃ m, n.toInterface (fun _ => some ()) h fuel = some (some (.map m)) ∧
      ∀ k, m k ≠ none → (n.getKey h k).toInterface (fun _ => some ()) h fuel = some (m k) := by
  intro hall
  obtain ⟨m, h1, h2⟩ := hall _ _ _ parsed_tree (fun _ => by unfold parsedHeap; decide +kernel) 10 (by decide)
  obtain ⟨m', h1', h2'⟩ := C127_differ (fun _ => some ()) _ _ _ parsed_tree (fun _ => by unfold parsedHeap; decide +kernel)
    (by simp [NumsParse, AllRaw, AllRawElems, AllRawMembers]) 10 (by decide) b!"a" (.arr [.num b!"1", .obj [(b!"b", .str b!"x")]]) (.bool true)
    (by rfl) (by rfl) (by rintro g ⟨⟨gs, h1, _⟩, h2⟩; rw [h1] at h2; cases h2)
  rw [h1] at h1'
  cases h1'
  obtain ⟨m2, h3, h4⟩ := C127_last (fun _ => some ()) _ _ _ parsed_tree (by simp [NumsParse, AllRaw, AllRawElems, AllRawMembers]) 10 (by decide)
  rw [h1] at h3
  cases h3
  have h4 : ∃ g, m b!"a" = some g ∧ IsGo (fun _ => some ()) (.bool true) g := h4 b!"a"
  obtain ⟨g, h5, _⟩ := h4
  exact h2' 10 (by decide) (h2 b!"a" (by rw [h5]; simp))

/-- An object without duplicate keys, below the one above. -/
example : Tree parsedHeap ⟨3, 0, some 0⟩ (.obj [(b!"b", .str b!"x")]) ∧ DistinctKeys [(b!"b", JVal.str b!"x")] :=
  ⟨⟨0, by decide +kernel, [⟨4, b!"b"⟩], by decide +kernel, 4, _, rfl, by unfold Reps; decide +kernel, rfl⟩, by unfold DistinctKeys; decide +kernel⟩

/-! ## C128 -/

theorem denotedGet_plain {ms : List (Bytes × JVal)} (hp : PlainKeys ms) (k : Bytes) : denotedGet ms k = assocGet ms k := by
  induction ms with
  | nil => rfl
  | cons m ms ih =>
    obtain ⟨k', x⟩ := m
    have h1 : StrJson.unescaped k' = k' := hp (k', x) (by simp)
    rw [denotedGet, assocGet, h1, ih (fun m hm => hp m (by simp [hm]))]

/-- **C128 (partial)**: in an object whose keys are written as the strings they denote (for instance without backslash) `Get` finds the first member whose
key denotes the argument. Missing from the full claim: keys with escapes, for which it is false. -/
theorem C128_get_partial (h : Heap) (n : Node) (ms : List (Bytes × JVal)) (k : Bytes) (ht : Tree h n (.obj ms)) (hlen : ∀ r, (h r).len ≤ maxUint)
    (hp : PlainKeys ms ∨ ∀ m ∈ ms, (92 : UInt8) ∉ m.1) :
    match denotedGet ms k with
    | some t => Tree h (n.getKey h k) t
    | none => Dead h (n.getKey h k) := by
  have hp : PlainKeys ms := by
    rcases hp with hp | hp
    · exact hp
    · exact fun m hm => (C08_length m.1).2 fun b hb hc => hp m hm (hc ▸ hb)
  rw [denotedGet_plain hp]
  exact C19_get h n ms k ht hlen

/-- Exactness: a member whose key is written with an escape is not found under the string that its key denotes, unless another member has that string as
the text of its key; neither does the map of `ToInterface` have it. -/
theorem C128_escaped {F : Type} (pf : Bytes → Option F) (h : Heap) (n : Node) (ms : List (Bytes × JVal)) (ht : Tree h n (.obj ms)) (hlen : ∀ r, (h r).len ≤ maxUint)
    (raw : Bytes) (hk : StrJson.unescaped raw ∉ ms.map (·.1)) :
    Dead h (n.getKey h (StrJson.unescaped raw)) ∧
    (NumsParse pf (.obj ms) → ∀ fuel, (JVal.obj ms).size ≤ fuel → ∃ m, n.toInterface pf h fuel = some (some (.map m)) ∧ m (StrJson.unescaped raw) = none) := by
  constructor
  · have := C19_get h n ms (StrJson.unescaped raw) ht hlen
    rw [assocGet_none.2 hk] at this
    exact this
  · intro hp fuel hf
    obtain ⟨m, h1, h2⟩ := C127_last pf h n ms ht hp fuel hf
    have h2 := h2 (StrJson.unescaped raw)
    rw [assocLast_none.2 hk] at h2
    exact ⟨m, h1, h2⟩

/-- The document of `{"\u0061":1}`. -/
def escKeyHeap : Heap := fun _ => (Doc.empty.parse b!"{\"\\u0061\":1}").1

theorem C128_false : StrJson.unescaped b!"\\u0061" = b!"a" ∧ Tree escKeyHeap ⟨0, 0, some 0⟩ (.obj [(b!"\\u0061", .num b!"1")]) ∧
    Dead escKeyHeap (Node.getKey escKeyHeap ⟨0, 0, some 0⟩ b!"a") := by
  refine ⟨by decide +kernel, ⟨0, by decide +kernel, [⟨1, b!"\\u0061"⟩], by decide +kernel, 1, _, rfl, by unfold Reps; decide +kernel, rfl⟩, by unfold Dead; decide +kernel⟩

theorem allRawMembers_set {S K N : Bytes → Prop} {k : Bytes} {t : JVal} (ht : AllRaw S K N t) : ∀ {ms : List (Bytes × JVal)}, AllRawMembers S K N ms →
    (AllRawMembers S K N (assocSet ms k t) ↔ K k) := by
  intro ms
  induction ms with
  | nil => intro _; simp [assocSet, AllRawMembers, ht]
  | cons m ms ih =>
    obtain ⟨k', x⟩ := m
    rintro ⟨h1, h2, h3⟩
    rw [assocSet]
    split
    · rename_i hk; subst hk; simp [AllRawMembers, h1, h3, ht]
    · simp [AllRawMembers, h1, h2, ih h3]

/-- What `Set` writes for a key: after `Set(k, v)` on an object, with members and value in the language of `Parse`, the text that `AppendJSON` writes is read
back by `Parse` as that object *exactly when* every quote in `k` is protected by a backslash and none is missing at the end (`EscBody`); and then the
member's key denotes `k` exactly when `k` has nothing to unescape. `Set` does not escape its key. -/
theorem C128_set_partial (h : Heap) (hw : h.Wf) (fuel : Nat) (n v : Node) (ms : List (Bytes × JVal)) (k : Bytes) (t : JVal)
    (hn : Tree h n (.obj ms)) (hv : Tree h v t) (hi : Insertable h n v) (hlen : ∀ r, (h r).len < maxUint) (hf : t.size ≤ fuel)
    (hms : AllRaw LenientStr EscBody LenientNum (.obj ms)) (ht : AllRaw LenientStr EscBody LenientNum t) :
    ∃ h' j, n.set h fuel k v = some h' ∧ (∀ fuel', (JVal.obj (assocSet ms k t)).size ≤ fuel' → n.appendJSON h' fuel' [] = some (j, false)) ∧ ∀ d : Doc, d.Wf →
      ((∃ d' id, Parses d j d' id (.obj (assocSet ms k t)) []) ↔ EscBody k) := by
  obtain ⟨h', h1, h2⟩ := C22_set h hw fuel n v ms k t hn hv hi hlen hf
  refine ⟨h', (JVal.obj (assocSet ms k t)).ser, h1, fun fuel' hf' => by simpa using C21_appendJSON h' n _ [] h2 fuel' hf', fun d hd => ⟨fun ⟨d', id, hp⟩ => ?_, fun hk => ?_⟩⟩
  · obtain ⟨w, u, _, _, h3, _⟩ := (C11_language d hd _ _ []).1 ⟨d', id, hp⟩
    exact (allRawMembers_set ht hms).1 (gval_allRaw h3)
  · exact (parses_iff hd).2 ⟨_, treeParse_ser (t := .obj (assocSet ms k t)) ((allRawMembers_set ht hms).2 hk)⟩

/-- Keys without quotes and backslashes are written and read back as they are, and denote themselves. -/
theorem C128_plain (k : Bytes) (h1 : (34 : UInt8) ∉ k) (h2 : (92 : UInt8) ∉ k) : EscBody k ∧ StrJson.unescaped k = k := by
  refine ⟨?_, (C08_length k).2 fun b hb hc => h2 (hc ▸ hb)⟩
  induction k with
  | nil => exact .nil
  | cons c k ih =>
    simp only [List.mem_cons, not_or] at h1 h2
    exact .plain (Ne.symm h1.1) (Ne.symm h2.1) (ih h1.2 h2.2)

/-- The document of `{}` with a second value `true`. -/
def setKeyHeap : Heap := fun _ => ((Doc.empty.parse b!"{}").1.parse b!"true").1

/-- **C128 is false** of `Set`: `Set("a\":1,\"b", true)` on an empty object writes `{"a":1,"b":true}`, which `Parse` reads as another object. -/
theorem C128_set_false :
    Tree setKeyHeap ⟨0, 0, some 0⟩ (.obj []) ∧ Tree setKeyHeap ⟨1, 0, some 0⟩ (.bool true) ∧
    (∃ h', Node.set setKeyHeap 5 ⟨0, 0, some 0⟩ b!"a\":1,\"b" ⟨1, 0, some 0⟩ = some h' ∧
      Node.appendJSON h' 5 ⟨0, 0, some 0⟩ [] = some (b!"{\"a\":1,\"b\":true}", false)) ∧
    ∃ d' id, Parses Doc.empty b!"{\"a\":1,\"b\":true}" d' id (.obj [(b!"a", .num b!"1"), (b!"b", .bool true)]) [] := by
  refine ⟨⟨0, by decide +kernel, [], by decide +kernel, rfl⟩, ⟨0, by decide +kernel, by simp only [Reps]; decide +kernel⟩,
    ?_, (parses_iff empty_wf).2 ⟨_, by rfl⟩⟩
  cases hs : Node.set setKeyHeap 5 ⟨0, 0, some 0⟩ b!"a\":1,\"b" ⟨1, 0, some 0⟩ with
  | none => exact absurd hs (by unfold setKeyHeap; decide +kernel)
  | some h' =>
    refine ⟨h', rfl, ?_⟩
    have : (Node.set setKeyHeap 5 ⟨0, 0, some 0⟩ b!"a\":1,\"b" ⟨1, 0, some 0⟩).bind (fun h' => Node.appendJSON h' 5 ⟨0, 0, some 0⟩ []) =
      some (b!"{\"a\":1,\"b\":true}", false) := by decide +kernel
    rwa [hs] at this

/-- The hypotheses of `C128_set_partial` (the value of `c` set in the object below `a`) and both outcomes. -/
example : parsedHeap.Wf ∧ Tree parsedHeap ⟨3, 0, some 0⟩ (.obj [(b!"b", .str b!"x")]) ∧ Tree parsedHeap ⟨5, 0, some 0⟩ .null ∧
    Insertable parsedHeap ⟨3, 0, some 0⟩ ⟨5, 0, some 0⟩ ∧ (∀ r, (parsedHeap r).len < maxUint) ∧
    AllRaw LenientStr EscBody LenientNum (.obj [(b!"b", .str b!"x")]) ∧ AllRaw LenientStr EscBody LenientNum .null ∧
    ¬ EscBody b!"a\":1,\"b" ∧ EscBody b!"key" :=
  ⟨fun _ => by unfold Doc.Wf; unfold parsedHeap; decide +kernel, ⟨0, by decide +kernel, [⟨4, b!"b"⟩], by decide +kernel, 4, _, rfl, by unfold Reps; decide +kernel, rfl⟩,
    ⟨0, by decide +kernel, by simp only [Reps]; decide +kernel⟩,
    (by
      rintro ⟨⟨r, d, _, _, _, _, h1, h2⟩, _⟩
      have h3 : ((parsedHeap 0).get 5).map (·.root) = some false := by decide +kernel
      have h4 : (parsedHeap 0).get 5 = some d := h1
      rw [h4] at h3
      simp [h2] at h3),
    fun _ => by unfold parsedHeap; decide +kernel,
    ⟨(C128_plain b!"b" (by decide) (by decide)).1, Or.inl (by decide), trivial⟩, trivial,
    (by intro h; cases h with | plain _ _ h => cases h with | plain h => exact h rfl),
    (C128_plain b!"key" (by decide) (by decide)).1⟩

/-- **C128 is false** of `Unmarshal`: the key of `{"\u004e":1}` denotes `N`, and the field `N` of the struct is left alone, without error (by C125 such a
member counts as one without a place). -/
theorem C128_unmarshal_false : StrJson.unescaped b!"\\u004e" = b!"N" ∧
    unmarshal exN 30 Doc.empty b!"[{\"\\u004e\":1}]" (some (.ptr (.slice (.struct 2)), .ptr .nilSlice)) =
      some (.done (some (.ptr (.slice (.struct 2)), .ptr (.slice [.struct [.nilPtr]] 1))) none) ∧
    unmarshal exN 30 Doc.empty b!"[{\"N\":1}]" (some (.ptr (.slice (.struct 2)), .ptr .nilSlice)) =
      some (.done (some (.ptr (.slice (.struct 2)), .ptr (.slice [.struct [.ptr (.int 1)]] 1))) none) :=
  ⟨by decide +kernel, eq_of_sameX (by decide +kernel), eq_of_sameX (by decide +kernel)⟩

end Verif.Props
