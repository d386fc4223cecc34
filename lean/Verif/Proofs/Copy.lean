import Verif.Proofs.Abs
import Verif.Spec.Edit

/-! Copying and adopting: what `copyOrAdopt` does to the trees of a heap. -/

namespace Verif.Njson
open Verif Verif.Spec

/-! ## reading trees through two content functions -/

theorem reps_congr_all (g g' : Nat → Option Cont) :
    (∀ t : JVal, ∀ id, Reps g t id → (∀ j, Reach g id j → g' j = g j) → Reps g' t id) ∧
    (∀ xs, ∀ vs, RepsElems g xs vs → (∀ v ∈ vs, ∀ j, Reach g v.id j → g' j = g j) → RepsElems g' xs vs) ∧
    (∀ ms, ∀ vs, RepsMembers g ms vs → (∀ v ∈ vs, ∀ j, Reach g v.id j → g' j = g j) → RepsMembers g' ms vs) := by
  have here : ∀ {id : Nat} {c : Cont}, g id = some c → (∀ j, Reach g id j → g' j = g j) → g' id = some c := by
    intro id c h h'; rw [h' id (.refl id), h]
  apply jval_ind
  · intro id h h'; exact here h h'
  · intro b id h h'; cases b <;> exact here h h'
  · intro r id h h'; exact here h h'
  · intro r id h h'; exact here h h'
  · intro xs ih id h h'
    obtain ⟨vs, h1, h2⟩ := h
    exact ⟨vs, here h1 h', ih vs h2 fun v hv j hj => h' j (.step h1 hv hj)⟩
  · intro xs ih id h h'
    obtain ⟨vs, h1, h2⟩ := h
    exact ⟨vs, here h1 h', ih vs h2 fun v hv j hj => h' j (.step h1 hv hj)⟩
  · intro vs h h'; exact h
  · intro x xs h1 h2 vs h h'
    obtain ⟨id, vs', rfl, e1, e2⟩ := h
    exact ⟨id, vs', rfl, h1 id e1 (h' _ List.mem_cons_self), h2 vs' e2 fun v hv => h' v (by simp [hv])⟩
  · intro vs h h'; exact h
  · intro k x xs h1 h2 vs h h'
    obtain ⟨id, vs', rfl, e1, e2⟩ := h
    exact ⟨id, vs', rfl, h1 id e1 (h' _ List.mem_cons_self), h2 vs' e2 fun v hv => h' v (by simp [hv])⟩

theorem reps_congr {g g' : Nat → Option Cont} {t : JVal} {id : Nat} (h : Reps g t id) (h' : ∀ j, Reach g id j → g' j = g j) :
    Reps g' t id := (reps_congr_all g g').1 t id h h'
theorem repsElems_congr {g g' : Nat → Option Cont} {xs : List JVal} {vs : List V} (h : RepsElems g xs vs)
    (h' : ∀ v ∈ vs, ∀ j, Reach g v.id j → g' j = g j) : RepsElems g' xs vs := (reps_congr_all g g').2.1 xs vs h h'
theorem repsMembers_congr {g g' : Nat → Option Cont} {xs : List (Bytes × JVal)} {vs : List V} (h : RepsMembers g xs vs)
    (h' : ∀ v ∈ vs, ∀ j, Reach g v.id j → g' j = g j) : RepsMembers g' xs vs := (reps_congr_all g g').2.2 xs vs h h'

/-- everything reachable from a node with a tree exists -/
theorem reps_reach_all (g : Nat → Option Cont) :
    (∀ t : JVal, ∀ id, Reps g t id → ∀ j, Reach g id j → ∃ t' : JVal, Reps g t' j ∧ t'.size ≤ t.size ∧ (j = id ∨ t'.size < t.size)) ∧
    (∀ xs, ∀ vs, RepsElems g xs vs → ∀ v ∈ vs, ∃ t : JVal, Reps g t v.id ∧ t.size ≤ sizeElems xs ∧
        ∀ j, Reach g v.id j → ∃ t' : JVal, Reps g t' j ∧ t'.size ≤ sizeElems xs) ∧
    (∀ ms, ∀ vs, RepsMembers g ms vs → ∀ v ∈ vs, ∃ t : JVal, Reps g t v.id ∧ t.size ≤ sizeMembers ms ∧
        ∀ j, Reach g v.id j → ∃ t' : JVal, Reps g t' j ∧ t'.size ≤ sizeMembers ms) := by
  have scalar : ∀ {id : Nat} {t : JVal} {typ : Typ} {raw : Bytes}, Reps g t id → g id = some ⟨typ, raw, []⟩ → ∀ j, Reach g id j →
      ∃ t' : JVal, Reps g t' j ∧ t'.size ≤ t.size ∧ (j = id ∨ t'.size < t.size) := by
    intro id t typ raw hr h j hj
    cases hj with
    | refl => exact ⟨t, hr, Nat.le_refl _, Or.inl rfl⟩
    | step h1 h2 h3 => rw [h] at h1; simp at h1; subst h1; simp at h2
  apply jval_ind
  · intro id h; exact scalar h h
  · intro b id h; cases b <;> exact scalar h h
  · intro r id h; exact scalar h h
  · intro r id h; exact scalar h h
  · intro xs ih id h j hj
    obtain ⟨vs, h1, h2⟩ := h
    cases hj with
    | refl => exact ⟨.arr xs, ⟨vs, h1, h2⟩, Nat.le_refl _, Or.inl rfl⟩
    | step e1 e2 e3 =>
      rw [h1] at e1; simp at e1; subst e1
      obtain ⟨t, _, _, e4⟩ := ih vs h2 _ e2
      obtain ⟨t', a1, a2⟩ := e4 j e3
      exact ⟨t', a1, by simp [JVal.size]; omega, Or.inr (by simp [JVal.size]; omega)⟩
  · intro xs ih id h j hj
    obtain ⟨vs, h1, h2⟩ := h
    cases hj with
    | refl => exact ⟨.obj xs, ⟨vs, h1, h2⟩, Nat.le_refl _, Or.inl rfl⟩
    | step e1 e2 e3 =>
      rw [h1] at e1; simp at e1; subst e1
      obtain ⟨t, _, _, e4⟩ := ih vs h2 _ e2
      obtain ⟨t', a1, a2⟩ := e4 j e3
      exact ⟨t', a1, by simp [JVal.size]; omega, Or.inr (by simp [JVal.size]; omega)⟩
  · intro vs h v hv; simp only [RepsElems] at h; subst h; simp at hv
  · intro x xs h1 h2 vs h v hv
    obtain ⟨id, vs', rfl, e1, e2⟩ := h
    rcases List.mem_cons.1 hv with rfl | hv
    · refine ⟨x, e1, by simp [sizeElems], fun j hj => ?_⟩
      obtain ⟨t', a1, a2, _⟩ := h1 id e1 j hj
      exact ⟨t', a1, by simp [sizeElems]; omega⟩
    · obtain ⟨t, a1, a2, a3⟩ := h2 vs' e2 v hv
      refine ⟨t, a1, by simp [sizeElems]; omega, fun j hj => ?_⟩
      obtain ⟨t', b1, b2⟩ := a3 j hj
      exact ⟨t', b1, by simp [sizeElems]; omega⟩
  · intro vs h v hv; simp only [RepsMembers] at h; subst h; simp at hv
  · intro k x xs h1 h2 vs h v hv
    obtain ⟨id, vs', rfl, e1, e2⟩ := h
    rcases List.mem_cons.1 hv with rfl | hv
    · refine ⟨x, e1, by simp [sizeMembers], fun j hj => ?_⟩
      obtain ⟨t', a1, a2, _⟩ := h1 id e1 j hj
      exact ⟨t', a1, by simp [sizeMembers]; omega⟩
    · obtain ⟨t, a1, a2, a3⟩ := h2 vs' e2 v hv
      refine ⟨t, a1, by simp [sizeMembers]; omega, fun j hj => ?_⟩
      obtain ⟨t', b1, b2⟩ := a3 j hj
      exact ⟨t', b1, by simp [sizeMembers]; omega⟩

theorem reps_some {g : Nat → Option Cont} {t : JVal} {id : Nat} (h : Reps g t id) : ∃ c, g id = some c := by
  obtain ⟨c, h, _⟩ := reps_kind h; exact ⟨c, h⟩

theorem reps_reach {g : Nat → Option Cont} {t : JVal} {id j : Nat} (h : Reps g t id) (hj : Reach g id j) :
    ∃ t' : JVal, Reps g t' j ∧ t'.size ≤ t.size := by
  obtain ⟨t', a, b, _⟩ := (reps_reach_all g).1 t id h j hj
  exact ⟨t', a, b⟩

/-- a child of a node with a tree does not lead back to it -/
theorem reps_child_no_loop {g : Nat → Option Cont} {t : JVal} {id : Nat} {c : Cont} {v : V} (h : Reps g t id)
    (hc : g id = some c) (hv : v ∈ c.vals) : ¬ Reach g v.id id := by
  intro hr
  have hchild : ∃ t' : JVal, Reps g t' v.id ∧ t'.size < t.size := by
    cases t with
    | bool b => cases b <;> (simp only [Reps] at h; rw [h] at hc; simp at hc; subst hc; simp at hv)
    | arr xs =>
      obtain ⟨vs, h1, h2⟩ := h
      rw [h1] at hc; simp at hc; subst hc
      obtain ⟨t', a1, a2, _⟩ := (reps_reach_all g).2.1 xs vs h2 v hv
      exact ⟨t', a1, by simp [JVal.size]; omega⟩
    | obj xs =>
      obtain ⟨vs, h1, h2⟩ := h
      rw [h1] at hc; simp at hc; subst hc
      obtain ⟨t', a1, a2, _⟩ := (reps_reach_all g).2.2 xs vs h2 v hv
      exact ⟨t', a1, by simp [JVal.size]; omega⟩
    | _ => simp only [Reps] at h; rw [h] at hc; simp at hc; subst hc; simp at hv
  obtain ⟨t', h1, h2⟩ := hchild
  obtain ⟨t'', h3, h4⟩ := reps_reach h1 hr
  rw [reps_unique h3 h] at h4
  omega

theorem Reach.trans {g : Nat → Option Cont} {a b c : Nat} (h : Reach g a b) (h' : Reach g b c) : Reach g a c := by
  induction h with
  | refl => exact h'
  | step h1 h2 _ ih => exact .step h1 h2 (ih h')

/-- reachability is the same through content functions that agree on what is reachable -/
theorem reach_congr {g g' : Nat → Option Cont} {a b : Nat} (h : Reach g a b) (h' : ∀ j, Reach g a j → g' j = g j) : Reach g' a b := by
  induction h with
  | refl => exact .refl _
  | @step a b c v h1 h2 h3 ih =>
    refine .step (c := c) (v := v) (by rw [h' a (.refl a), h1]) h2 (ih fun j hj => h' j (.step h1 h2 hj))

/-! ## list of nodes as content -/

def lcont (l : List ANode) (id : Nat) : Option Cont := (l[id]?).map ANode.cont

def A.cont (a : AH) (r : Ref) : Nat → Option Cont := lcont (a r).nodes

theorem abs_cont (h : Heap) (r : Ref) : (h r).cont = A.cont h.abs r := by
  funext id; exact cont_eq_view (h r) id

theorem lcont_lt {l : List ANode} {id : Nat} {c : Cont} (h : lcont l id = some c) : id < l.length := by
  unfold lcont at h
  cases hl : l[id]? with
  | none => rw [hl] at h; simp at h
  | some a => exact (List.getElem?_eq_some_iff.1 hl).1

theorem lcont_append {l m : List ANode} {id : Nat} (h : id < l.length) : lcont (l ++ m) id = lcont l id := by
  unfold lcont; rw [List.getElem?_append_left h]

/-! ## ncopy -/

theorem ncopyVals_ext {get : List ANode → Nat → Option ANode} {rec : List ANode → ANode → Option (List ANode × Nat)}
    (hrec : ∀ d n d' id, rec d n = some (d', id) → id = d.length ∧ ∃ a ns, d' = d ++ a :: ns ∧ a.typ = n.typ ∧ a.root = n.root ∧ a.raw = n.raw) :
    ∀ vs d values d' values', A.ncopyVals get rec vs d values = some (d', values') → ∃ ns, d' = d ++ ns
  | [], d, values, d', values', h => by simp [A.ncopyVals] at h; exact ⟨[], by simp [h.1]⟩
  | v :: vs, d, values, d', values', h => by
    unfold A.ncopyVals at h
    split at h
    · exact ncopyVals_ext hrec vs _ _ _ _ h
    · rename_i n hn
      split at h
      · simp at h
      · rename_i d1 id1 hr
        obtain ⟨_, a, ns, rfl, _⟩ := hrec _ _ _ _ hr
        obtain ⟨ns', rfl⟩ := ncopyVals_ext hrec vs _ _ _ _ h
        exact ⟨a :: (ns ++ ns'), by simp⟩

theorem modify_append_length {α : Type} (l : List α) (a : α) (m : List α) (f : α → α) :
    (l ++ a :: m).modify l.length f = l ++ f a :: m := by
  induction l with
  | nil => rfl
  | cons x l ih => simp [ih]

theorem ncopy_ext (get : List ANode → Nat → Option ANode) : ∀ fuel d n d' id, A.ncopy get fuel d n = some (d', id) →
    id = d.length ∧ ∃ a ns, d' = d ++ a :: ns ∧ a.typ = n.typ ∧ a.root = n.root ∧ a.raw = n.raw := by
  intro fuel
  induction fuel with
  | zero => intro d n d' id h; simp [A.ncopy] at h
  | succ fuel ih =>
    intro d n d' id h
    unfold A.ncopy at h
    split at h
    · simp at h
    · rename_i d1 values hc
      obtain ⟨ns, rfl⟩ := ncopyVals_ext ih _ _ _ _ _ hc
      simp at h
      obtain ⟨rfl, rfl⟩ := h
      refine ⟨rfl, _, ns, modify_append_length d _ ns _, rfl, rfl, rfl⟩

theorem ncopy_reps_all (g : Nat → Option Cont) (get : List ANode → Nat → Option ANode) (d0 : List ANode)
    (hg : ∀ ns id c, g id = some c → ∃ a, get (d0 ++ ns) id = some a ∧ a.cont = c) :
    (∀ t : JVal, ∀ id, Reps g t id → ∀ fuel, t.size ≤ fuel → ∀ ns n, g id = some n.cont →
      ∃ ms, A.ncopy get fuel (d0 ++ ns) n = some (d0 ++ ns ++ ms, (d0 ++ ns).length) ∧
        ms.map ANode.cont = (flat (d0 ++ ns).length t).map ANode.cont) ∧
    (∀ xs, ∀ vs, RepsElems g xs vs → ∀ fuel, sizeElems xs ≤ fuel → ∀ ns values,
      ∃ ms, A.ncopyVals get (A.ncopy get fuel) vs (d0 ++ ns) values = some (d0 ++ ns ++ ms, values ++ elemRefs (d0 ++ ns).length xs) ∧
        ms.map ANode.cont = (flatElems (d0 ++ ns).length xs).map ANode.cont) ∧
    (∀ xs, ∀ vs, RepsMembers g xs vs → ∀ fuel, sizeMembers xs ≤ fuel → ∀ ns values,
      ∃ ms, A.ncopyVals get (A.ncopy get fuel) vs (d0 ++ ns) values = some (d0 ++ ns ++ ms, values ++ memberRefs (d0 ++ ns).length xs) ∧
        ms.map ANode.cont = (flatMembers (d0 ++ ns).length xs).map ANode.cont) := by
  have scalar : ∀ {typ : Typ} {raw : Bytes} {n : ANode}, n.cont = ⟨typ, raw, []⟩ → ∀ fuel, 1 ≤ fuel → ∀ ns,
      ∃ ms, A.ncopy get fuel (d0 ++ ns) n = some (d0 ++ ns ++ ms, (d0 ++ ns).length) ∧ ms.map ANode.cont = [⟨typ, raw, []⟩] := by
    intro typ raw n hn fuel hf ns
    obtain ⟨f, rfl⟩ : ∃ f, fuel = f + 1 := ⟨fuel - 1, by omega⟩
    simp only [ANode.cont, Cont.mk.injEq] at hn
    obtain ⟨rfl, rfl, h3⟩ := hn
    refine ⟨[⟨n.typ, n.root, n.raw, []⟩], ?_, by simp [ANode.cont]⟩
    rw [A.ncopy, h3]
    simp only [A.ncopyVals]
    rw [modify_append_length]
  have keep : ∀ {id : Nat} {c : Cont} {n : ANode}, g id = some c → g id = some n.cont → n.cont = c := by
    intro id c n h1 h2; rw [h1] at h2; simp at h2; exact h2.symm
  have node : ∀ {typ : Typ} {vs : List V} {n : ANode} {fuel k : Nat} {ns : List ANode} {refs : List V} {fl : List ANode},
      n.cont = ⟨typ, [], vs⟩ → 1 + k ≤ fuel →
      (∀ f, k ≤ f → ∃ ms, A.ncopyVals get (A.ncopy get f) vs (d0 ++ ns ++ [⟨n.typ, n.root, n.raw, []⟩]) [] =
        some (d0 ++ ns ++ [⟨n.typ, n.root, n.raw, []⟩] ++ ms, refs) ∧ ms.map ANode.cont = fl.map ANode.cont) →
      ∃ ms, A.ncopy get fuel (d0 ++ ns) n = some (d0 ++ ns ++ ms, (d0 ++ ns).length) ∧
        ms.map ANode.cont = (⟨typ, false, [], refs⟩ :: fl).map ANode.cont := by
    intro typ vs n fuel k ns refs fl hn hf h
    obtain ⟨f, rfl⟩ : ∃ f, fuel = f + 1 := ⟨fuel - 1, by omega⟩
    simp only [ANode.cont, Cont.mk.injEq] at hn
    obtain ⟨rfl, h2, rfl⟩ := hn
    obtain ⟨ms, h3, h4⟩ := h f (by omega)
    refine ⟨⟨n.typ, n.root, n.raw, refs⟩ :: ms, ?_, ?_⟩
    · rw [A.ncopy, h3]
      simp only
      rw [List.append_assoc, List.singleton_append, modify_append_length]
    · simp [ANode.cont, h2]
      simpa using h4
  apply jval_ind
  · intro id h fuel hf ns n hn
    exact scalar (keep h hn) fuel hf ns
  · intro b id h fuel hf ns n hn
    cases b <;> exact scalar (keep h hn) fuel hf ns
  · intro r id h fuel hf ns n hn
    exact scalar (keep h hn) fuel hf ns
  · intro r id h fuel hf ns n hn
    exact scalar (keep h hn) fuel hf ns
  · intro xs ih id h fuel hf ns n hn
    obtain ⟨vs, h1, h2⟩ := h
    refine node (refs := elemRefs ((d0 ++ ns).length + 1) xs) (fl := flatElems ((d0 ++ ns).length + 1) xs) (keep h1 hn) hf fun f hf' => ?_
    obtain ⟨ms, e1, e2⟩ := ih vs h2 f hf' (ns ++ [⟨n.typ, n.root, n.raw, []⟩]) []
    have hl : (d0 ++ (ns ++ [(⟨n.typ, n.root, n.raw, []⟩ : ANode)])).length = (d0 ++ ns).length + 1 := by simp [Nat.add_assoc]
    rw [hl] at e1 e2
    rw [← List.append_assoc] at e1
    exact ⟨ms, e1, e2⟩
  · intro xs ih id h fuel hf ns n hn
    obtain ⟨vs, h1, h2⟩ := h
    refine node (refs := memberRefs ((d0 ++ ns).length + 1) xs) (fl := flatMembers ((d0 ++ ns).length + 1) xs) (keep h1 hn) hf fun f hf' => ?_
    obtain ⟨ms, e1, e2⟩ := ih vs h2 f hf' (ns ++ [⟨n.typ, n.root, n.raw, []⟩]) []
    have hl : (d0 ++ (ns ++ [(⟨n.typ, n.root, n.raw, []⟩ : ANode)])).length = (d0 ++ ns).length + 1 := by simp [Nat.add_assoc]
    rw [hl] at e1 e2
    rw [← List.append_assoc] at e1
    exact ⟨ms, e1, e2⟩
  · intro vs h fuel hf ns values
    simp only [RepsElems] at h; subst h
    exact ⟨[], by simp [A.ncopyVals, elemRefs], by simp [flatElems]⟩
  · intro x xs ih1 ih2 vs h fuel hf ns values
    obtain ⟨id, vs', rfl, h1, h2⟩ := h
    simp only [sizeElems] at hf
    obtain ⟨c, hc⟩ := reps_some h1
    obtain ⟨a, ha, rfl⟩ := hg ns id c hc
    obtain ⟨ms1, e1, e2⟩ := ih1 id h1 fuel (by omega) ns a hc
    obtain ⟨ms2, e3, e4⟩ := ih2 vs' h2 fuel (by omega) (ns ++ ms1) (values ++ [⟨(d0 ++ ns).length, []⟩])
    have hl : ms1.length = x.size := by
      have := congrArg List.length e2
      simpa [flat_length] using this
    rw [← List.append_assoc] at e3 e4
    refine ⟨ms1 ++ ms2, ?_, ?_⟩
    · rw [A.ncopyVals, ha]
      simp only [e1, e3]
      simp [elemRefs, hl, Nat.add_assoc]
    · rw [flatElems, List.map_append, List.map_append, e2, e4]
      simp [hl, Nat.add_assoc]
  · intro vs h fuel hf ns values
    simp only [RepsMembers] at h; subst h
    exact ⟨[], by simp [A.ncopyVals, memberRefs], by simp [flatMembers]⟩
  · intro k x xs ih1 ih2 vs h fuel hf ns values
    obtain ⟨id, vs', rfl, h1, h2⟩ := h
    simp only [sizeMembers] at hf
    obtain ⟨c, hc⟩ := reps_some h1
    obtain ⟨a, ha, rfl⟩ := hg ns id c hc
    obtain ⟨ms1, e1, e2⟩ := ih1 id h1 fuel (by omega) ns a hc
    obtain ⟨ms2, e3, e4⟩ := ih2 vs' h2 fuel (by omega) (ns ++ ms1) (values ++ [⟨(d0 ++ ns).length, k⟩])
    have hl : ms1.length = x.size := by
      have := congrArg List.length e2
      simpa [flat_length] using this
    rw [← List.append_assoc] at e3 e4
    refine ⟨ms1 ++ ms2, ?_, ?_⟩
    · rw [A.ncopyVals, ha]
      simp only [e1, e3]
      simp [memberRefs, hl, Nat.add_assoc]
    · rw [flatMembers, List.map_append, List.map_append, e2, e4]
      simp [hl, Nat.add_assoc]

/-- content laid out after `d` -/
theorem flat_reps_append {d ms : List ANode} {t : JVal} (h : ms.map ANode.cont = (flat d.length t).map ANode.cont) :
    Reps (lcont (d ++ ms)) t d.length := by
  apply flat_reps_all.1
  intro j a hj
  have : (ms[j]?).map ANode.cont = some a.cont := by
    rw [← List.getElem?_map, h, List.getElem?_map, hj]; rfl
  unfold lcont
  rw [List.getElem?_append_right (by omega), show d.length + j - d.length = j by omega, this]

theorem flat_reach_append {d ms : List ANode} {t : JVal} (h : ms.map ANode.cont = (flat d.length t).map ANode.cont) {i j : Nat}
    (hi : d.length ≤ i) (hr : Reach (lcont (d ++ ms)) i j) : d.length ≤ j := by
  induction hr with
  | refl => exact hi
  | @step a b c v h1 h2 h3 ih =>
    apply ih
    unfold lcont at h1
    rw [List.getElem?_append_right hi, ← List.getElem?_map, h, List.getElem?_map] at h1
    cases hf : (flat d.length t)[a - d.length]? with
    | none => rw [hf] at h1; simp at h1
    | some an =>
      rw [hf] at h1
      simp at h1
      subst h1
      have := flat_range_all.1 t d.length _ an hf v h2
      omega

end Verif.Njson
