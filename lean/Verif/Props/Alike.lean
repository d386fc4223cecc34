import Verif.Proofs.Alike

/-!
# Property C143: nodes with the same tree cannot be told apart
-/

namespace Verif.Props
open Verif Verif.Spec Verif.Njson

/-- **C143**: two nodes with the same tree, in the same state or in two states, cannot be told apart: after any chain of calls of `Get`, `Index`, `Lookup` and steps of an
iteration, made on both, all reading calls return the same for both. It does not matter how the documents were made. -/
theorem C143_same (h h' : Heap) (hlen : ∀ r, (h r).len ≤ maxUint) (hlen' : ∀ r, (h' r).len ≤ maxUint) (n n' : Node) (t : JVal) (h1 : Tree h n t) (h2 : Tree h' n' t)
    (ws : List Walk) : ReadsSame h h' (ws.foldl (Walk.run h) n) (ws.foldl (Walk.run h') n') := by
  have : ∀ (ws : List Walk) (n n' : Node), BothAlike h h' n n' → BothAlike h h' (ws.foldl (Walk.run h) n) (ws.foldl (Walk.run h') n') := by
    intro ws
    induction ws with
    | nil => intro _ _ ha; exact ha
    | cons w ws ih => intro n n' ha; exact ih _ _ (alike_step hlen hlen' ha w)
  exact reads_alike (this ws n n' (.inr ⟨t, h1, h2⟩))

/-- **C143**: nodes with different trees can be told apart: some chain of steps of iterations leads to nodes whose `Data` or whose keys differ. -/
theorem C143_different (h h' : Heap) (n n' : Node) (t t' : JVal) (h1 : Tree h n t) (h2 : Tree h' n' t') (hne : t ≠ t') :
    ∃ ws : List Walk, (∀ w ∈ ws, ∃ i, w = .child i) ∧ ¬ ((ws.foldl (Walk.run h) n).data h = (ws.foldl (Walk.run h') n').data h' ∧
      ((ws.foldl (Walk.run h) n).values h).map (·.key) = ((ws.foldl (Walk.run h') n').values h').map (·.key)) := by
  have : ¬ LooksSame h h' n n' := fun hl => hne (looks_same_tree t n n' t' h1 h2 hl)
  unfold LooksSame at this
  rw [Classical.not_forall] at this
  obtain ⟨p, hp⟩ := this
  refine ⟨p.map Walk.child, by simp, ?_⟩
  rw [List.foldl_map, List.foldl_map]
  exact hp

/-- **C143**: they stay alike: the same edit of both nodes, with inserted values that are alike too, leaves them alike. -/
theorem C143_edits (h h' : Heap) (hw : h.Wf) (hw' : h'.Wf) (hlen : ∀ r, (h r).len < maxUint) (hlen' : ∀ r, (h' r).len < maxUint) (fuel : Nat) (n n' v v' : Node) (t x : JVal)
    (h1 : Tree h n t) (h2 : Tree h' n' t) (h3 : Tree h v x) (h4 : Tree h' v' x) (i1 : Insertable h n v) (i2 : Insertable h' n' v') (hf : x.size ≤ fuel) :
    (∀ k, n.typ h = tObject → ∃ a a' y, n.set h fuel k v = some a ∧ n'.set h' fuel k v' = some a' ∧ Tree a n y ∧ Tree a' n' y) ∧
    (∀ i : Nat, n.typ h = tArray → i < (n.values h).length →
      ∃ a a' y, n.replace h fuel i v = some a ∧ n'.replace h' fuel i v' = some a' ∧ Tree a n y ∧ Tree a' n' y) ∧
    (n.typ h = tArray → ∃ a a' y, n.append h fuel [v] = some a ∧ n'.append h' fuel [v'] = some a' ∧ Tree a n y ∧ Tree a' n' y) ∧
    (∀ i : Nat, n.typ h = tArray → i < (n.values h).length → ∃ y, Tree (n.remove h i) n y ∧ Tree (n'.remove h' i) n' y) := by
  have hdt := data_tree h1
  have htyp : n.typ h = (n.data h).2 := by unfold Node.typ Node.data; cases n.get h <;> rfl
  have hobj : n.typ h = tObject → ∃ ms, t = .obj ms := by
    intro e
    cases t with
    | obj ms => exact ⟨ms, rfl⟩
    | _ => simp only at hdt; rw [htyp, hdt] at e; exact absurd (show _ = _ from e) (by show ¬ (_ : Typ) = _; dsimp only; decide)
  have harr : n.typ h = tArray → ∃ xs, t = .arr xs := by
    intro e
    cases t with
    | arr xs => exact ⟨xs, rfl⟩
    | _ => simp only at hdt; rw [htyp, hdt] at e; exact absurd (show _ = _ from e) (by show ¬ (_ : Typ) = _; dsimp only; decide)
  refine ⟨fun k e => ?_, fun i e hi => ?_, fun e => ?_, fun i e hi => ?_⟩
  · obtain ⟨ms, rfl⟩ := hobj e
    obtain ⟨a, e1, e2⟩ := C22_set h hw fuel n v ms k x h1 h3 i1 hlen hf
    obtain ⟨a', e3, e4⟩ := C22_set h' hw' fuel n' v' ms k x h2 h4 i2 hlen' hf
    exact ⟨a, a', _, e1, e3, e2, e4⟩
  · obtain ⟨xs, rfl⟩ := harr e
    have hi' : i < xs.length := by rw [← (C19_values_array h n xs h1).1]; exact hi
    obtain ⟨a, e1, e2⟩ := C25_replace h hw fuel n v xs i x h1 hi' h3 i1 hlen hf
    obtain ⟨a', e3, e4⟩ := C25_replace h' hw' fuel n' v' xs i x h2 hi' h4 i2 hlen' hf
    exact ⟨a, a', _, e1, e3, e2, e4⟩
  · obtain ⟨xs, rfl⟩ := harr e
    have one : ∀ (h : Heap) (n v : Node), Tree h v x → Insertable h n v → ∀ (i : Nat) (w : Node) (t : JVal), [v][i]? = some w → [x][i]? = some t →
        Tree h w t ∧ Insertable h n w ∧ t.size ≤ fuel := by
      intro h n v hv hi i w t g1 g2
      cases i with
      | zero => simp at g1 g2; subst g1 g2; exact ⟨hv, hi, hf⟩
      | succ i => simp at g1
    obtain ⟨a, e1, e2⟩ := C24_append h hw fuel n [v] xs [x] h1 rfl (one h n v h3 i1)
    obtain ⟨a', e3, e4⟩ := C24_append h' hw' fuel n' [v'] xs [x] h2 rfl (one h' n' v' h4 i2)
    exact ⟨a, a', _, e1, e3, e2, e4⟩
  · obtain ⟨xs, rfl⟩ := harr e
    have hi' : i < xs.length := by rw [← (C19_values_array h n xs h1).1]; exact hi
    exact ⟨_, (C25_remove h hw n xs h1).1 i hi', (C25_remove h' hw' n' xs h2).1 i hi'⟩

/-- a heap holding ` [0, [ 7,8 ]]`: its inner array has other ids than the array of `arrHeap` -/
def innerHeap : Heap := fun _ => (Doc.empty.parse b!" [0, [ 7,8 ]]").1

theorem inner_tree : Tree innerHeap ⟨2, 0, some 0⟩ (.arr [.num b!"7", .num b!"8"]) :=
  ⟨0, by decide +kernel, [⟨3, []⟩, ⟨4, []⟩], by decide +kernel, 3, _, rfl, by unfold Reps; decide +kernel, 4, _, rfl,
    by unfold Reps; decide +kernel, rfl⟩

-- the hypotheses of `C143_same` hold for an array that is a document and for one inside of another array, with other ids
example (ws : List Walk) : ReadsSame arrHeap innerHeap (ws.foldl (Walk.run arrHeap) ⟨0, 0, some 0⟩) (ws.foldl (Walk.run innerHeap) ⟨2, 0, some 0⟩) :=
  C143_same _ _ (fun _ => show (Doc.empty.parse b!"[7,8]").1.len ≤ maxUint by decide +kernel)
    (fun _ => show (Doc.empty.parse b!" [0, [ 7,8 ]]").1.len ≤ maxUint by decide +kernel) _ _ _ arr_tree inner_tree ws

-- the chain `Index(1)` ends at different nodes, which read the same
example : (Walk.nav (.index 1)).run arrHeap ⟨0, 0, some 0⟩ = ⟨2, 0, some 0⟩ ∧ (Walk.nav (.index 1)).run innerHeap ⟨2, 0, some 0⟩ = ⟨4, 0, some 0⟩ ∧
    Node.raw arrHeap ⟨2, 0, some 0⟩ = b!"8" ∧ Node.raw innerHeap ⟨4, 0, some 0⟩ = b!"8" := by
  refine ⟨?_, ?_, ?_, ?_⟩ <;> decide +kernel

-- and those of `C143_edits`, for the first elements of the two arrays as values
example : ∃ a a' y, Node.append arrHeap 3 ⟨0, 0, some 0⟩ [⟨1, 0, some 0⟩] = some a ∧ Node.append innerHeap 3 ⟨2, 0, some 0⟩ [⟨3, 0, some 0⟩] = some a' ∧
    Tree a ⟨0, 0, some 0⟩ y ∧ Tree a' ⟨2, 0, some 0⟩ y := by
  have na : ∀ (s : Bytes) (n v : Node) (d : NodeD), v.document (fun _ => (Doc.empty.parse s).1) = some 0 → (Doc.empty.parse s).1.get v.id = some d → d.root = false →
      Insertable (fun _ => (Doc.empty.parse s).1) n v := by
    rintro s n v d e1 e2 e3 ⟨⟨r, d', _, g1, _, _, g2, g3⟩, _⟩
    rw [e2] at g2
    simp only [Option.some.injEq] at g2
    rw [← g2, e3] at g3
    exact absurd g3 (by decide)
  refine (C143_edits arrHeap innerHeap (fun _ => show (Doc.empty.parse b!"[7,8]").1.len ≤ (Doc.empty.parse b!"[7,8]").1.arr.length by decide +kernel) (fun _ => show (Doc.empty.parse b!" [0, [ 7,8 ]]").1.len ≤ (Doc.empty.parse b!" [0, [ 7,8 ]]").1.arr.length by decide +kernel)
    (fun _ => show (Doc.empty.parse b!"[7,8]").1.len < maxUint by decide +kernel)
    (fun _ => show (Doc.empty.parse b!" [0, [ 7,8 ]]").1.len < maxUint by decide +kernel) 3 _ _ ⟨1, 0, some 0⟩ ⟨3, 0, some 0⟩ _ (.num b!"7") arr_tree inner_tree
    ⟨0, by decide +kernel, by unfold Reps; decide +kernel⟩ ⟨0, by decide +kernel, by unfold Reps; decide +kernel⟩
    (na b!"[7,8]" _ ⟨1, 0, some 0⟩ (((Doc.empty.parse b!"[7,8]").1.get 1).getD NodeD.zero) (by decide +kernel) (by decide +kernel) (by decide +kernel))
    (na b!" [0, [ 7,8 ]]" _ ⟨3, 0, some 0⟩ (((Doc.empty.parse b!" [0, [ 7,8 ]]").1.get 3).getD NodeD.zero) (by decide +kernel) (by decide +kernel) (by decide +kernel)) (by decide)).2.2.1
    (by decide +kernel)

end Verif.Props
