import Verif.Spec.Access
import Verif.Props.Edit
import Verif.Props.StrJson
import Verif.Proofs.EscEnd

/-!
# Properties of the read accessors (C34-C37)
-/

namespace Verif.Props
open Verif Verif.Spec Verif.Njson

/-! ## C34 -/

/-- An iterator over `vs` that is open and has had `k` calls of `Next` since the last `Reset`. -/
def IterAt (n : Node) (vs : List V) (k : Nat) (i : IterV) : Prop :=
  i.node = n ∧ i.values = vs ∧ (if k ≤ vs.length then i.index = k else i.index = -1)

/-- An iterator that was closed. -/
def IterClosed (i : IterV) : Prop := i.node = Node.zero ∧ i.values = []

theorem iterAt_next {n : Node} {vs : List V} {k : Nat} {i : IterV} (h : IterAt n vs k i) :
    IterAt n vs (k + 1) i.next.2 := by
  obtain ⟨h1, h2, h3⟩ := h
  unfold IterV.next
  by_cases hk : k < vs.length
  · rw [if_pos (by omega)] at h3
    rw [if_pos (by rw [h2]; omega)]
    refine ⟨h1, h2, ?_⟩
    rw [if_pos (by omega)]; simp [h3]
  · rw [if_neg]
    · refine ⟨h1, h2, ?_⟩
      rw [if_neg (by omega)]
    · rw [h2]
      by_cases hk' : k ≤ vs.length
      · rw [if_pos hk'] at h3; omega
      · rw [if_neg hk'] at h3; omega

theorem run_at (n : Node) (vs : List V) (ops : List IterOp) (i : IterV) (k : Nat) :
    (IterAt n vs k i → .close ∉ ops → IterAt n vs (nexts.go ops k) (runIter i ops)) ∧
    (IterAt n vs k i → .close ∈ ops → IterClosed (runIter i ops)) ∧
    (IterClosed i → IterClosed (runIter i ops)) := by
  induction ops generalizing i k with
  | nil => exact ⟨fun h _ => h, fun _ h => by simp at h, id⟩
  | cons op ops ih =>
    have hrun : runIter i (op :: ops) = runIter (op.run i) ops := rfl
    rw [hrun]
    have closed_next : IterClosed i → IterClosed i.next.2 := by
      rintro ⟨h1, h2⟩
      unfold IterV.next
      split
      · exact ⟨h1, h2⟩
      · exact ⟨h1, h2⟩
    cases op with
    | next =>
      refine ⟨fun h hc => ?_, fun h hc => ?_, fun h => (ih _ k).2.2 (closed_next h)⟩
      · exact (ih _ (k + 1)).1 (iterAt_next h) (by simpa using hc)
      · exact (ih _ (k + 1)).2.1 (iterAt_next h) (by simpa using hc)
    | reset =>
      have hr : IterAt n vs k i → IterAt n vs 0 i.reset := fun h => ⟨h.1, h.2.1, by simp [IterV.reset]⟩
      refine ⟨fun h hc => ?_, fun h hc => ?_, fun h => (ih _ k).2.2 h⟩
      · exact (ih _ 0).1 (hr h) (by simpa using hc)
      · exact (ih _ 0).2.1 (hr h) (by simpa using hc)
    | close =>
      have hcl : IterClosed i.close := ⟨rfl, rfl⟩
      refine ⟨fun h hc => by simp at hc, fun h hc => (ih _ k).2.2 hcl, fun h => (ih _ k).2.2 hcl⟩

/-- **C34**: take any live node and any sequence of `Next`, `Reset` and `Close` calls on the iterator `Values()`
returned, and call `Next` once more. With `k` the number of `Next` calls since the last `Reset`:
* if the iterator was not closed and `k` is less than the number of children, `Next` returns true, the iterator is
  at the `k`-th child (its key and id), `Value()` is the node of that child and `Index()` is `k`;
* otherwise `Next` returns false and `Value()` is dead. -/
theorem C34_next (h : Heap) (n : Node) (hlive : ¬ Dead h n) (ops : List IterOp) :
    let i := runIter (n.iter h) ops
    let j := i.next.2
    (.close ∉ ops → ∀ v, (n.values h)[nexts ops]? = some v →
      i.next.1 = true ∧ j.v = v ∧ j.value = n.with_ v.id ∧ j.indexOf = nexts ops) ∧
    (.close ∉ ops → (n.values h).length ≤ nexts ops → i.next.1 = false ∧ j.value = n.with_ maxUint ∧ j.indexOf = -2) ∧
    (.close ∈ ops → i.next.1 = false ∧ j.value = ⟨maxUint, 0, none⟩ ∧ j.indexOf = -2) := by
  intro i j
  obtain ⟨d, hd⟩ : ∃ d, n.get h = some d := by
    cases hg : n.get h with
    | none => exact absurd hg hlive
    | some d => exact ⟨d, rfl⟩
  have hvals : n.values h = d.values.vis := by unfold Node.values; rw [hd]
  have h0 : IterAt n (n.values h) 0 (n.iter h) := by
    unfold Node.iter; rw [hd]; exact ⟨rfl, hvals.symm, by simp⟩
  obtain ⟨r1, r2, _⟩ := run_at n (n.values h) ops (n.iter h) 0
  have hgo : nexts ops = nexts.go ops 0 := by cases ops <;> rfl
  rw [hgo]
  refine ⟨fun hc v hv => ?_, fun hc hk => ?_, fun hc => ?_⟩
  · obtain ⟨e1, e2, e3⟩ := r1 h0 hc
    have hk := (List.getElem?_eq_some_iff.1 hv).1
    rw [if_pos (by omega)] at e3
    have hn : i.next = (true, { i with v := i.values.getD i.index.toNat V.zero, index := i.index + 1 }) := by
      unfold IterV.next; rw [if_pos]
      show 0 ≤ (runIter (n.iter h) ops).index ∧ (runIter (n.iter h) ops).index < (runIter (n.iter h) ops).values.length
      rw [e2]; omega
    have hv' : i.values.getD i.index.toNat V.zero = v := by
      show (runIter (n.iter h) ops).values.getD (runIter (n.iter h) ops).index.toNat V.zero = v
      rw [e2, e3]; simp [hv]
    refine ⟨by rw [hn], ?_, ?_, ?_⟩
    · show i.next.2.v = v; rw [hn]; exact hv'
    · show i.next.2.value = _; rw [hn]
      show i.node.with_ (i.values.getD i.index.toNat V.zero).id = _
      rw [hv', show i.node = n from e1]
    · show i.next.2.indexOf = _; rw [hn]
      show i.index + 1 - 1 = _
      rw [show i.index = _ from e3]; omega
  · obtain ⟨e1, e2, e3⟩ := r1 h0 hc
    have hn : i.next = (false, { i with v := { i.v with id := maxUint }, index := -1 }) := by
      unfold IterV.next; rw [if_neg]
      show ¬ (0 ≤ (runIter (n.iter h) ops).index ∧ (runIter (n.iter h) ops).index < (runIter (n.iter h) ops).values.length)
      rw [e2]
      split at e3 <;> omega
    refine ⟨by rw [hn], ?_, ?_⟩
    · show i.next.2.value = _; rw [hn]
      show i.node.with_ maxUint = _
      rw [show i.node = n from e1]
    · show i.next.2.indexOf = _; rw [hn]; rfl
  · obtain ⟨e1, e2⟩ := r2 h0 hc
    have hn : i.next = (false, { i with v := { i.v with id := maxUint }, index := -1 }) := by
      unfold IterV.next; rw [if_neg]
      show ¬ (0 ≤ (runIter (n.iter h) ops).index ∧ (runIter (n.iter h) ops).index < (runIter (n.iter h) ops).values.length)
      rw [e2]; simp
    refine ⟨by rw [hn], ?_, ?_⟩
    · show i.next.2.value = _; rw [hn]
      show i.node.with_ maxUint = _
      rw [show i.node = Node.zero from e1]; rfl
    · show i.next.2.indexOf = _; rw [hn]; rfl

/-- **C34, dead nodes**: an iterator over a dead node never yields anything. -/
theorem C34_dead (h : Heap) (n : Node) (hd : Dead h n) (ops : List IterOp) :
    (runIter (n.iter h) ops).next.1 = false := by
  have h0 : IterClosed (n.iter h) := by
    unfold Node.iter; rw [show n.get h = none from hd]; exact ⟨rfl, rfl⟩
  obtain ⟨_, _, r⟩ := run_at n [] ops (n.iter h) 0
  obtain ⟨e1, e2⟩ := r h0
  unfold IterV.next; rw [if_neg]; rw [e2]; simp

/-- **C34, Len**: at any time `Len()` is the number of children, until the iterator is closed; then, and over a dead node, it is 0. -/
theorem C34_len (h : Heap) (n : Node) (ops : List IterOp) :
    (¬ Dead h n → .close ∉ ops → (runIter (n.iter h) ops).len = (n.values h).length) ∧
    (Dead h n ∨ .close ∈ ops → (runIter (n.iter h) ops).len = 0) := by
  have closed : ∀ {i : IterV}, IterClosed i → i.len = 0 := fun hi => by unfold IterV.len; rw [hi.2]; rfl
  cases hg : n.get h with
  | none =>
    have h0 : IterClosed (n.iter h) := by unfold Node.iter; rw [hg]; exact ⟨rfl, rfl⟩
    refine ⟨fun hl => absurd hg hl, fun _ => closed ((run_at n [] ops (n.iter h) 0).2.2 h0)⟩
  | some d =>
    have hvals : n.values h = d.values.vis := by unfold Node.values; rw [hg]
    have h0 : IterAt n (n.values h) 0 (n.iter h) := by
      unfold Node.iter; rw [hg]; exact ⟨rfl, hvals.symm, by simp⟩
    obtain ⟨r1, r2, _⟩ := run_at n (n.values h) ops (n.iter h) 0
    refine ⟨fun _ hc => ?_, ?_⟩
    · obtain ⟨_, e2, _⟩ := r1 h0 hc
      unfold IterV.len; rw [e2]
    · rintro (hd | hc)
      · unfold Dead at hd; rw [hg] at hd; simp at hd
      · exact closed (r2 h0 hc)

/-- A caveat of the code: before the first `Next` the embedded id is the Go zero value, so `Value()` is the root of
the document, not a dead node (after `Reset` it is dead). -/
theorem C34_before_first (h : Heap) (n : Node) (hlive : ¬ Dead h n) :
    (n.iter h).value = n.with_ 0 ∧ (n.iter h).reset.value = n.with_ maxUint := by
  cases hg : n.get h with
  | none => exact absurd hg hlive
  | some d => unfold Node.iter; rw [hg]; exact ⟨rfl, rfl⟩

-- two children visited, end, end, reset, first child again, close, nothing
example : let it := Node.iter parsedHeap ⟨1, 0, some 0⟩
    ((runIter it []).next.1, (runIter it [.next]).next.1, (runIter it [.next, .next]).next.1,
      (runIter it [.next, .next, .next]).next.1, (runIter it [.next, .next, .next, .reset]).next.1,
      (runIter it [.next, .close]).next.1, (runIter it [.next, .close, .reset]).next.1) =
    (true, true, false, false, true, false, false) := by
  decide +kernel

/-! ## C35 -/

theorem toInterface_all {F : Type} (pf : Bytes → Option F) (get : Nat → Option NodeD) :
    (∀ t : JVal, ∀ id, Reps (contOf get) t id → ∀ fuel, t.size ≤ fuel →
      (∃ g, toInterface pf get fuel id = some (some g) ∧ IsGo pf t g ∧ NumsParse pf t) ∨
      (toInterface pf get fuel id = some none ∧ ¬ NumsParse pf t)) ∧
    (∀ xs, ∀ vs, RepsElems (contOf get) xs vs → ∀ fuel, sizeElems xs ≤ fuel → ∀ acc,
      (∃ gs, toInterfaceSlice (toInterface pf get fuel) vs acc = some (some (.slice (acc ++ gs))) ∧ IsGoElems pf xs gs ∧
        AllRawElems (fun _ => True) (fun _ => True) (fun raw => pf raw ≠ none) xs) ∨
      (toInterfaceSlice (toInterface pf get fuel) vs acc = some none ∧
        ¬ AllRawElems (fun _ => True) (fun _ => True) (fun raw => pf raw ≠ none) xs)) ∧
    (∀ ms, ∀ vs, RepsMembers (contOf get) ms vs → ∀ fuel, sizeMembers ms ≤ fuel → ∀ m0,
      (∃ m, toInterfaceMap (toInterface pf get fuel) vs m0 = some (some (.map m)) ∧ IsGoMembers pf ms m ∧
        (∀ k, k ∉ ms.map (·.1) → m k = m0 k) ∧
        AllRawMembers (fun _ => True) (fun _ => True) (fun raw => pf raw ≠ none) ms) ∨
      (toInterfaceMap (toInterface pf get fuel) vs m0 = some none ∧
        ¬ AllRawMembers (fun _ => True) (fun _ => True) (fun raw => pf raw ≠ none) ms)) := by
  have step : ∀ {id : Nat} {c : Cont}, contOf get id = some c → ∀ fuel, 1 ≤ fuel → ∃ f, fuel = f + 1 ∧ ∃ n, get id = some n ∧
      n.typ = c.typ ∧ n.raw = c.raw ∧ n.values.vis = c.vals := by
    intro id c h fuel hf
    obtain ⟨n, h1, h2⟩ := contOf_some h
    exact ⟨fuel - 1, by omega, n, h1, h2⟩
  apply jval_ind
  · intro id h fuel hf
    obtain ⟨f, rfl, n, hn, e1, e2, e3⟩ := step h fuel hf
    left
    refine ⟨.nil, ?_, by simp [IsGo], by simp [NumsParse, AllRaw]⟩
    rw [toInterface, hn]; simp only; rw [e1, if_neg (by decide), if_neg (by decide), if_neg (by decide), if_neg (by decide), if_pos rfl]
  · intro b id h fuel hf
    left
    refine ⟨.bool b, ?_, by simp [IsGo], by simp [NumsParse, AllRaw]⟩
    cases b
    · obtain ⟨f, rfl, n, hn, e1, e2, e3⟩ := step h fuel hf
      rw [toInterface, hn]; simp only; rw [e1, e2, if_neg (by decide), if_neg (by decide), if_neg (by decide), if_pos rfl,
        if_neg (by decide), if_pos (by decide)]
    · obtain ⟨f, rfl, n, hn, e1, e2, e3⟩ := step h fuel hf
      rw [toInterface, hn]; simp only; rw [e1, e2, if_neg (by decide), if_neg (by decide), if_neg (by decide), if_pos rfl,
        if_pos (by decide)]
  · intro r id h fuel hf
    obtain ⟨f, rfl, n, hn, e1, e2, e3⟩ := step h fuel hf
    simp only at e1 e2 e3
    have : toInterface pf get (f + 1) id = match pf r with | some x => some (some (.float x)) | none => some none := by
      rw [toInterface, hn]; simp only; rw [e1, e2, if_neg (by decide), if_neg (by decide), if_neg (by decide), if_neg (by decide),
        if_neg (by decide), if_pos rfl]
      cases pf r <;> rfl
    rw [this]
    cases hp : pf r with
    | none => right; exact ⟨rfl, by simp [NumsParse, AllRaw, hp]⟩
    | some x => left; exact ⟨_, rfl, ⟨x, hp, rfl⟩, by simp [NumsParse, AllRaw, hp]⟩
  · intro r id h fuel hf
    obtain ⟨f, rfl, n, hn, e1, e2, e3⟩ := step h fuel (by simpa [JVal.size] using hf)
    simp only at e1 e2 e3
    left
    refine ⟨.str (StrJson.unescaped r), ?_, by simp [IsGo], by simp [NumsParse, AllRaw]⟩
    rw [toInterface, hn]; simp only; rw [e1, e2, if_neg (by decide), if_neg (by decide), if_pos rfl]
  · intro xs ih id h fuel hf
    obtain ⟨vs, h, hr⟩ := h
    simp only [JVal.size] at hf
    obtain ⟨f, rfl, n, hn, e1, e2, e3⟩ := step h fuel (by omega)
    simp only at e1 e2 e3
    have : toInterface pf get (f + 1) id = toInterfaceSlice (toInterface pf get f) vs [] := by
      rw [toInterface, hn]; simp only; rw [e1, e3, if_neg (by decide), if_pos rfl]
    rw [this]
    rcases ih vs hr f (by omega) [] with ⟨gs, h1, h2, h3⟩ | ⟨h1, h2⟩
    · left; exact ⟨_, h1, ⟨gs, rfl, h2⟩, h3⟩
    · right; exact ⟨h1, h2⟩
  · intro ms ih id h fuel hf
    obtain ⟨vs, h, hr⟩ := h
    simp only [JVal.size] at hf
    obtain ⟨f, rfl, n, hn, e1, e2, e3⟩ := step h fuel (by omega)
    simp only at e1 e2 e3
    have : toInterface pf get (f + 1) id = toInterfaceMap (toInterface pf get f) vs (fun _ => none) := by
      rw [toInterface, hn]; simp only; rw [e1, e3, if_pos rfl]
    rw [this]
    rcases ih vs hr f (by omega) (fun _ => none) with ⟨m, h1, h2, h3, h4⟩ | ⟨h1, h2⟩
    · left
      refine ⟨_, h1, ⟨m, rfl, fun k hk => ?_, h2⟩, h4⟩
      exact Classical.byContradiction fun hc => hk (h3 k hc)
    · right; exact ⟨h1, h2⟩
  · intro vs h fuel hf acc
    simp only [RepsElems] at h; subst h
    left; exact ⟨[], by simp [toInterfaceSlice], by simp [IsGoElems], by simp [AllRawElems]⟩
  · intro x xs ih1 ih2 vs h fuel hf acc
    obtain ⟨id, vs', rfl, h1, h2⟩ := h
    simp only [sizeElems] at hf
    rw [toInterfaceSlice]
    rcases ih1 id h1 fuel (by omega) with ⟨g, e1, e2, e3⟩ | ⟨e1, e2⟩
    · simp only [e1]
      rcases ih2 vs' h2 fuel (by omega) (acc ++ [g]) with ⟨gs, f1, f2, f3⟩ | ⟨f1, f2⟩
      · left; exact ⟨g :: gs, by rw [f1]; simp, ⟨g, gs, rfl, e2, f2⟩, e3, f3⟩
      · right; exact ⟨f1, fun h => f2 h.2⟩
    · simp only [e1]
      right; exact ⟨trivial, fun h => e2 h.1⟩
  · intro vs h fuel hf m0
    simp only [RepsMembers] at h; subst h
    left; exact ⟨m0, by simp [toInterfaceMap], by simp [IsGoMembers], fun _ _ => rfl, by simp [AllRawMembers]⟩
  · intro k x ms ih1 ih2 vs h fuel hf m0
    obtain ⟨id, vs', rfl, h1, h2⟩ := h
    simp only [sizeMembers] at hf
    rw [toInterfaceMap]
    rcases ih1 id h1 fuel (by omega) with ⟨g, e1, e2, e3⟩ | ⟨e1, e2⟩
    · simp only [e1]
      rcases ih2 vs' h2 fuel (by omega) (fun k' => if k' = k then some g else m0 k') with ⟨m, f1, f2, f3, f4⟩ | ⟨f1, f2⟩
      · left
        refine ⟨m, f1, ⟨?_, f2⟩, fun k' hk' => ?_, trivial, e3, f4⟩
        · by_cases hk : k ∈ ms.map (·.1)
          · exact Or.inl hk
          · refine Or.inr ⟨g, ?_, e2⟩
            rw [f3 k hk, if_pos rfl]
        · simp only [List.map_cons, List.mem_cons, not_or] at hk'
          rw [f3 k' hk'.2, if_neg hk'.1]
      · right; exact ⟨f1, fun h => f2 h.2.2⟩
    · simp only [e1]
      right; exact ⟨trivial, fun h => e2 h.2.1⟩

/-- **C35**: for every node with a finite tree, `ToInterface` returns the tree as a Go value when every number in it
parses, and fails otherwise. -/
theorem C35_toInterface {F : Type} (pf : Bytes → Option F) (h : Heap) (n : Node) (t : JVal) (ht : Tree h n t) (fuel : Nat)
    (hf : t.size ≤ fuel) :
    (NumsParse pf t → ∃ g, n.toInterface pf h fuel = some (some g) ∧ IsGo pf t g) ∧
    (¬ NumsParse pf t → n.toInterface pf h fuel = some none) := by
  obtain ⟨r, hd, hr⟩ := ht
  rw [doc_cont] at hr
  have e : n.toInterface pf h fuel = toInterface pf (h r).get fuel n.id := by
    unfold Node.toInterface; rw [hd]; rfl
  rw [e]
  rcases (toInterface_all pf _).1 t n.id hr fuel hf with ⟨g, h1, h2, h3⟩ | ⟨h1, h2⟩
  · exact ⟨fun _ => ⟨g, h1, h2⟩, fun h => absurd h3 h⟩
  · exact ⟨fun h => absurd h h2, fun _ => h1⟩

/-- **C35**: the Go value of a tree is unique, so `C35_toInterface` determines the result completely. -/
theorem C35_unique {F : Type} (pf : Bytes → Option F) :
    (∀ t : JVal, ∀ g g', IsGo pf t g → IsGo pf t g' → g = g') ∧
    (∀ xs, ∀ gs gs', IsGoElems pf xs gs → IsGoElems pf xs gs' → gs = gs') ∧
    (∀ ms, ∀ m m', IsGoMembers pf ms m → IsGoMembers pf ms m' → ∀ k ∈ ms.map (·.1), m k = m' k) := by
  apply jval_ind
  · intro g g' h h'; simp only [IsGo] at h h'; rw [h, h']
  · intro b g g' h h'; simp only [IsGo] at h h'; rw [h, h']
  · intro r g g' h h'
    obtain ⟨f, h1, rfl⟩ := h
    obtain ⟨f', h2, rfl⟩ := h'
    rw [h1] at h2; simp at h2; rw [h2]
  · intro b g g' h h'; simp only [IsGo] at h h'; rw [h, h']
  · intro xs ih g g' h h'
    obtain ⟨gs, rfl, h⟩ := h
    obtain ⟨gs', rfl, h'⟩ := h'
    rw [ih _ _ h h']
  · intro ms ih g g' h h'
    obtain ⟨m, rfl, hk, h⟩ := h
    obtain ⟨m', rfl, hk', h'⟩ := h'
    have : m = m' := by
      funext k
      by_cases hm : k ∈ ms.map (·.1)
      · exact ih _ _ h h' k hm
      · have h1 : m k = none := Classical.byContradiction fun hc => hm (hk k hc)
        have h2 : m' k = none := Classical.byContradiction fun hc => hm (hk' k hc)
        rw [h1, h2]
    rw [this]
  · intro gs gs' h h'; simp only [IsGoElems] at h h'; rw [h, h']
  · intro x xs ih1 ih2 gs gs' h h'
    obtain ⟨g, t, rfl, h1, h2⟩ := h
    obtain ⟨g', t', rfl, h1', h2'⟩ := h'
    rw [ih1 _ _ h1 h1', ih2 _ _ h2 h2']
  · intro m m' _ _ k hk; simp at hk
  · intro k x ms ih1 ih2 m m' h h' k' hk'
    by_cases hm : k' ∈ ms.map (·.1)
    · exact ih2 _ _ h.2 h'.2 k' hm
    · have hk : k' = k := by simpa [hm] using hk'
      subst hk
      rcases h.1 with h1 | ⟨g, h1, h2⟩
      · exact absurd h1 hm
      · rcases h'.1 with h1' | ⟨g', h1', h2'⟩
        · exact absurd h1' hm
        · rw [h1, h1', ih1 _ _ h2 h2']

/-- **C35**: a dead node converts to nothing. -/
theorem C35_dead {F : Type} (pf : Bytes → Option F) (h : Heap) (n : Node) (hd : Dead h n) (fuel : Nat) :
    n.toInterface pf h (fuel + 1) = some none := by
  unfold Node.toInterface
  have : getOf h (n.document h) n.id = none := by
    unfold Dead Node.get at hd
    cases hc : n.document h with
    | none => rfl
    | some r => rw [hc] at hd; exact hd
  rw [toInterface, this]

/-- Two consequences of the definition: the keys of the map are the raw (still escaped) keys, and with duplicate keys
the last one counts while `Get` returns the first: in `{"a":[…],"c":null,"a":true}` `ToInterface` has `true` under `a`. -/
theorem C35_last_wins (pf : Bytes → Option Unit) (hpf : pf b!"1" = some ()) :
    (∃ m, Node.toInterface pf parsedHeap 10 ⟨0, 0, some 0⟩ = some (some (.map m)) ∧ m b!"a" = some (.bool true)) ∧
    (Node.typ parsedHeap (Node.getKey parsedHeap ⟨0, 0, some 0⟩ b!"a")) = tArray := by
  constructor
  · obtain ⟨g, h1, m, rfl, h2, _, _, h3, _⟩ := (C35_toInterface pf parsedHeap _ _ parsed_tree 10 (by decide)).1
      (by simp [NumsParse, AllRaw, AllRawElems, AllRawMembers, hpf])
    refine ⟨m, h1, ?_⟩
    rcases h3 with h3 | ⟨g, h3, h4⟩
    · simp at h3
    · simp only [IsGo] at h4; rw [h3, h4]
  · decide +kernel

/-! ## C36 -/

/-- Texts that survive the trip through the parser: they contain a quote or do not end in a backslash. -/
def GoodText (s : Bytes) : Prop := 34 ∈ s ∨ s.getLast? ≠ some 92

/-- `raw` is the escaped form of some text (what `Text`, `TextHTML`, `SetString`, `SetStringHTML` store). -/
def IsEscaped (raw : Bytes) : Prop := ∃ s html, raw = StrJson.escaped s html false

/-- A tree as the API builds it: string values and keys are escaped texts, numbers are RFC 8259 numbers. -/
def ApiTree : JVal → Prop := AllRaw IsEscaped IsEscaped RfcNumber

/-- Escaping preserves and reflects what `GoodText` asks for. -/
theorem goodEnd_escaped (s : Bytes) (html : Bool) : GoodEnd (StrJson.escaped s html false) ↔ GoodText s := by
  rw [StrJson.escaped_eq]
  obtain ⟨h1, h2, _⟩ := StrJson.esc_ends html s
  unfold GoodEnd GoodText
  rw [h1, ne_eq, h2]

theorem allRaw_and {S K N S' K' N' : Bytes → Prop} :
    (∀ t : JVal, AllRaw S K N t → AllRaw S' K' N' t → AllRaw (fun s => S s ∧ S' s) (fun s => K s ∧ K' s) (fun s => N s ∧ N' s) t) ∧
    (∀ xs, AllRawElems S K N xs → AllRawElems S' K' N' xs → AllRawElems (fun s => S s ∧ S' s) (fun s => K s ∧ K' s) (fun s => N s ∧ N' s) xs) ∧
    (∀ ms, AllRawMembers S K N ms → AllRawMembers S' K' N' ms → AllRawMembers (fun s => S s ∧ S' s) (fun s => K s ∧ K' s) (fun s => N s ∧ N' s) ms) := by
  apply jval_ind <;> simp only [AllRaw, AllRawElems, AllRawMembers] <;> grind

/-- **C36 (partial)**: serialise a node whose tree was built through the API and parse the text into any document: the
parse succeeds with the same tree and an empty tail *exactly when* every string value of the tree contains a quote or
does not end in a backslash. Missing from the full claim: the trees with other string values, for which it is false. -/
theorem C36_reparse_partial (h : Heap) (n : Node) (t : JVal) (ht : Tree h n t) (hapi : ApiTree t) (fuel : Nat)
    (hf : t.size ≤ fuel) :
    ∃ j, n.appendJSON h fuel [] = some (j, false) ∧ ∀ d : Doc, d.Wf →
      ((∃ d' id, Parses d j d' id t []) ↔ AllRaw GoodEnd (fun _ => True) (fun _ => True) t) := by
  refine ⟨t.ser, by simpa using C21_appendJSON h n t [] ht fuel hf, fun d hd => ⟨fun ⟨d', id, hp⟩ => ?_, fun hg => ?_⟩⟩
  · obtain ⟨w, v, h1, h2, h3, h4⟩ := (C11_language d hd _ t []).1 ⟨d', id, hp⟩
    have hl := gval_allRaw h3
    have := allRaw_and.1 t hl hapi
    refine (allRaw_mono (fun s hs => ?_) (fun _ _ => trivial) (fun _ _ => trivial)).1 t this
    obtain ⟨hs, x, html, rfl⟩ := hs
    rcases hs with ⟨_, hs⟩ | ⟨p, q, hs, _⟩
    · exact Or.inr hs
    · left; rw [hs]; simp
  · have := allRaw_and.1 t hg hapi
    have hl : AllRaw LenientStr EscBody LenientNum t := by
      refine (allRaw_mono (fun s hs => ?_) (fun s hs => ?_) (fun s hs => ?_)).1 t this
      · obtain ⟨hg, x, html, rfl⟩ := hs
        exact escBody_lenient (rfcBody_escBody (C03_escaped_legal x html).1) hg
      · obtain ⟨_, x, html, rfl⟩ := hs
        exact rfcBody_escBody (C03_escaped_legal x html).1
      · exact rfcNumber_lenient hs.2
    exact (parses_iff hd).2 ⟨_, treeParse_ser hl⟩

/-- The document of the counterexample: a text of one backslash, made with `Text`. -/
def backslashHeap : Heap := fun _ => (Doc.empty.text b!"\\").1

theorem backslash_tree : Tree backslashHeap ⟨0, 0, some 0⟩ (.str b!"\\\\") :=
  ⟨0, by decide +kernel, by simp only [Reps]; decide +kernel⟩

theorem backslash_api : ApiTree (.str b!"\\\\") := ⟨b!"\\", false, by decide +kernel⟩

/-- **C36 is false** of the code: `Document.Text` of a single backslash serialises to `"\\\\"` in JSON syntax, which
`Parse` does not read back. -/
theorem C36_false : ¬ ∀ (h : Heap) (n : Node) (t : JVal), Tree h n t → ApiTree t → ∀ fuel, t.size ≤ fuel →
    ∃ j, n.appendJSON h fuel [] = some (j, false) ∧ ∀ d : Doc, d.Wf → ∃ d' id, Parses d j d' id t [] := by
  intro hall
  obtain ⟨j, h1, h2⟩ := hall _ _ _ backslash_tree backslash_api 1 (by decide)
  obtain ⟨j', h1', h2'⟩ := C36_reparse_partial _ _ _ backslash_tree backslash_api 1 (by decide)
  rw [h1] at h1'; simp at h1'; subst h1'
  have := (h2' Doc.empty empty_wf).1 (h2 _ empty_wf)
  unfold AllRaw at this
  exact absurd this (by unfold GoodEnd; decide +kernel)

/-- An API-built tree whose strings end well, one of them in a backslash. -/
example : ApiTree (.obj [(b!"k\\n", .arr [.str b!"\\\"\\\\", .num b!"-1.5e3"])]) ∧
    AllRaw GoodEnd (fun _ => True) (fun _ => True) (.obj [(b!"k\\n", .arr [.str b!"\\\"\\\\", .num b!"-1.5e3"])]) := by
  refine ⟨⟨⟨b!"k\n", false, by decide +kernel⟩, ⟨⟨b!"\"\\", true, by decide +kernel⟩, ?_, trivial⟩, trivial⟩, ?_⟩
  · refine ⟨[45], b!"1", b!".5", b!"e3", by decide +kernel, Or.inr rfl, Or.inr ⟨⟨by decide, ?_⟩, by decide⟩, Or.inr ⟨b!"5", rfl, by decide, ?_⟩,
      Or.inr ⟨101, [], b!"3", rfl, Or.inl rfl, Or.inl rfl, by decide, ?_⟩⟩ <;>
      (unfold IsDigitByte; decide +kernel)
  · simp only [AllRaw, AllRawElems, AllRawMembers, GoodEnd]; decide +kernel

/-! ## C37 -/

/-- **C37**: for every node with a type, `WrapUnmarshalJSON` calls the hook with exactly the bytes that `AppendJSON(nil)`
yields, and only if that yields no error. -/
theorem C37_json (h : Heap) (n : Node) (fuel : Nat) (ht : n.typ h ≠ tInvalid) :
    n.wrapUnmarshalJSON h (fuel + 1) = (n.appendJSON h (fuel + 1) []).map fun r => if r.2 then Hook.jsonError else .called r.1 := by
  unfold Node.typ at ht
  unfold Node.wrapUnmarshalJSON
  cases hg : n.get h with
  | none => rw [hg] at ht; exact absurd rfl ht
  | some d =>
    rw [hg] at ht
    simp only at ht ⊢
    have hgd : getOf h n.doc n.id = some d := by
      unfold Node.get at hg
      cases hc : n.document h with
      | none => rw [hc] at hg; simp at hg
      | some r => rw [hc] at hg; rw [document_heap hc]; exact hg
    by_cases h1 : d.typ = tArray ∧ d.values.vis.length = 0
    · rw [if_pos h1]
      unfold Node.appendJSON
      rw [hg]; simp only
      rw [Njson.appendJSON, hgd]; simp only
      rw [h1.1, if_neg (by decide), if_pos rfl, List.length_eq_zero_iff.1 h1.2]
      rfl
    · rw [if_neg h1]
      by_cases h2 : d.typ = tObject ∧ d.values.vis.length = 0
      · rw [if_pos h2]
        unfold Node.appendJSON
        rw [hg]; simp only
        rw [Njson.appendJSON, hgd]; simp only
        rw [h2.1, if_pos rfl, List.length_eq_zero_iff.1 h2.2]
        rfl
      · rw [if_neg h2]
        by_cases h3 : d.typ = tString ∧ d.raw = []
        · rw [if_pos h3]
          unfold Node.appendJSON
          rw [hg]; simp only
          rw [Njson.appendJSON, hgd]; simp only
          rw [h3.1, if_neg (by decide), if_neg (by decide), if_pos rfl, h3.2]
          rfl
        · rw [if_neg h3, if_neg ht]
          cases n.appendJSON h (fuel + 1) [] with
          | none => rfl
          | some r =>
            obtain ⟨b, e⟩ := r
            cases e <;> rfl

/-- **C37**: for every node with a finite tree the hook gets the compact text of the tree. -/
theorem C37_tree (h : Heap) (n : Node) (t : JVal) (ht : Tree h n t) (fuel : Nat) (hf : t.size ≤ fuel) :
    n.wrapUnmarshalJSON h fuel = some (.called t.ser) := by
  have hs := size_pos t
  obtain ⟨f, rfl⟩ : ∃ f, fuel = f + 1 := ⟨fuel - 1, by omega⟩
  rw [C37_json, C21_appendJSON h n t [] ht _ hf]
  · simp
  · obtain ⟨r, d, _, _, hg, hg', hr⟩ := tree_cont ht
    unfold Node.typ; rw [hg]
    simp only
    have key : ∀ c, (h r).cont n.id = some c → c.typ ≠ tInvalid → d.typ ≠ tInvalid := by
      intro c hc hne; rw [(cont_get hc hg').1]; exact hne
    cases t with
    | null => exact key _ hr (by simp; decide)
    | bool b => cases b <;> exact key _ hr (by simp; decide)
    | num _ => exact key _ hr (by simp; decide)
    | str _ => exact key _ hr (by simp; decide)
    | arr _ => obtain ⟨vs, hr, _⟩ := hr; exact key _ hr (by simp; decide)
    | obj _ => obtain ⟨vs, hr, _⟩ := hr; exact key _ hr (by simp; decide)

/-- **C37**: for a node without type (a dead node in particular) the hook is not called and a type error returned. -/
theorem C37_invalid (h : Heap) (n : Node) (fuel : Nat) (ht : n.typ h = tInvalid) :
    n.wrapUnmarshalJSON h fuel = some (.typeError tInvalid tAnyValue) := by
  unfold Node.typ at ht
  unfold Node.wrapUnmarshalJSON
  cases hg : n.get h with
  | none => rfl
  | some d =>
    rw [hg] at ht
    simp only at ht ⊢
    rw [ht, if_neg (fun h => absurd h.1 (by decide)), if_neg (fun h => absurd h.1 (by decide)),
      if_neg (fun h => absurd h.1 (by decide)), if_pos rfl]

/-- **C37 (partial)**: `WrapUnmarshalText` calls the hook only for String nodes; it passes the string value when the
raw text has no escapes. Missing: for raw text with escapes it passes the escaped text (`C37_text_false`). -/
theorem C37_text_partial (h : Heap) (n : Node) :
    (n.typ h ≠ tString → n.wrapUnmarshalText h = .typeError (n.typ h) tString) ∧
    (n.typ h = tString → n.wrapUnmarshalText h = .called (n.raw h) ∧
      (92 ∉ n.raw h → n.wrapUnmarshalText h = .called (n.unescaped h))) := by
  unfold Node.typ Node.wrapUnmarshalText Node.raw Node.unescaped
  cases n.get h with
  | none => exact ⟨fun _ => rfl, fun hc => absurd hc (by decide)⟩
  | some d =>
    simp only
    refine ⟨fun hne => by rw [if_neg hne], fun he => ⟨by rw [if_pos he], fun h92 => ?_⟩⟩
    rw [if_pos he, if_pos he, StrJson.unescaped_eq]
    have := StrJson.unesc_append (p := d.raw) [] (fun c hc h => h92 (h ▸ hc))
    simp at this; rw [this]

/-- **C37 is false** of `WrapUnmarshalText`: for the string `a<newline>` the hook gets `a\\n`. -/
theorem C37_text_false : ¬ ∀ (h : Heap) (n : Node), n.typ h = tString → n.wrapUnmarshalText h = .called (n.unescaped h) := by
  intro hall
  have := hall (fun _ => (Doc.empty.text b!"a\n").1) ⟨0, 0, some 0⟩ (by decide +kernel)
  exact absurd this (by decide +kernel)

/-- **C60**: `PrintJSON` passes the writer exactly the bytes of `AppendJSON(nil)` in one call, and writes nothing on error. -/
theorem C60_printJSON (h : Heap) (n : Node) (fuel : Nat) :
    n.printJSON h fuel = (n.appendJSON h fuel []).map fun r => if r.2 then (none, true) else (some r.1, false) := by
  unfold Node.printJSON
  cases n.appendJSON h fuel [] with
  | none => rfl
  | some r => obtain ⟨b, e⟩ := r; cases e <;> rfl

example : Node.wrapUnmarshalJSON parsedHeap 10 ⟨3, 0, some 0⟩ = some (.called b!"{\"b\":\"x\"}") := by decide +kernel

end Verif.Props
