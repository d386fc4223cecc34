import Verif.Proofs.UnEncTotal

/-! # Decoding ends -/

namespace Verif.Unjson
open Verif Verif.Float Verif.Spec Verif.Njson

theorem toAny_ends (get : Nat → Option NodeD) :
    (∀ j : JVal, ∀ id, Reps (contOf get) j id → ∀ fuel, j.size ≤ fuel → toAny get fuel id ≠ none) ∧
    (∀ js, ∀ vs, RepsElems (contOf get) js vs → ∀ fuel, sizeElems js ≤ fuel → ∀ acc, toAnySlice (toAny get fuel) vs acc ≠ none) ∧
    (∀ ms, ∀ vs, RepsMembers (contOf get) ms vs → ∀ fuel, sizeMembers ms ≤ fuel → ∀ es, toAnyMap (toAny get fuel) vs es ≠ none) := by
  have leaf : ∀ {id : Nat} {c : Cont}, contOf get id = some c → ¬ c.typ = tObject → ¬ c.typ = tArray → ∀ fuel, 1 ≤ fuel → toAny get fuel id ≠ none := by
    intro id c h h1 h2 fuel hf
    obtain ⟨f, rfl⟩ : ∃ f, fuel = f + 1 := ⟨fuel - 1, by omega⟩
    obtain ⟨n, hn, e1, e2, e3⟩ := contOf_some h
    rw [toAny, hn]
    simp only
    rw [if_neg (by rw [e1]; exact h1), if_neg (by rw [e1]; exact h2)]
    repeat' split
    all_goals (intro h; cases h)
  apply jval_ind
  · intro id h fuel hf; exact leaf h (by decide) (by decide) fuel (by simp [JVal.size] at hf; omega)
  · intro b id h fuel hf; cases b <;> exact leaf h (by decide) (by decide) fuel (by simp [JVal.size] at hf; omega)
  · intro r id h fuel hf; exact leaf h (by simp only; decide) (by simp only; decide) fuel (by simp [JVal.size] at hf; omega)
  · intro r id h fuel hf; exact leaf h (by simp only; decide) (by simp only; decide) fuel (by simp [JVal.size] at hf; omega)
  · intro xs ih id h fuel hf
    obtain ⟨vs, h, hr⟩ := h
    obtain ⟨f, rfl⟩ : ∃ f, fuel = f + 1 := ⟨fuel - 1, by simp [JVal.size] at hf; omega⟩
    obtain ⟨n, hn, e1, e2, e3⟩ := contOf_some h
    simp only at e1 e3
    rw [toAny, hn]
    simp only
    rw [e1, e3, if_neg (by decide), if_pos rfl]
    exact ih vs hr f (by simp [JVal.size] at hf; omega) []
  · intro ms ih id h fuel hf
    obtain ⟨vs, h, hr⟩ := h
    obtain ⟨f, rfl⟩ : ∃ f, fuel = f + 1 := ⟨fuel - 1, by simp [JVal.size] at hf; omega⟩
    obtain ⟨n, hn, e1, e2, e3⟩ := contOf_some h
    simp only at e1 e3
    rw [toAny, hn]
    simp only
    rw [e1, e3, if_pos rfl]
    exact ih vs hr f (by simp [JVal.size] at hf; omega) []
  · intro vs h fuel _ acc
    simp only [RepsElems] at h; subst h
    rw [toAnySlice]; intro h; cases h
  · intro x xs ih1 ih2 vs h fuel hf acc
    obtain ⟨id, vs', rfl, h1, h2⟩ := h
    rw [toAnySlice]
    simp only [sizeElems] at hf
    have := ih1 id h1 fuel (by omega)
    simp only
    cases hg : toAny get fuel id with
    | none => exact absurd hg this
    | some g =>
      cases g with
      | none => intro h; cases h
      | some g => exact ih2 vs' h2 fuel (by omega) _
  · intro vs h fuel _ acc
    simp only [RepsMembers] at h; subst h
    rw [toAnyMap]; intro h; cases h
  · intro k x ms ih1 ih2 vs h fuel hf acc
    obtain ⟨id, vs', rfl, h1, h2⟩ := h
    rw [toAnyMap]
    simp only [sizeMembers] at hf
    have := ih1 id h1 fuel (by omega)
    simp only
    cases hg : toAny get fuel id with
    | none => exact absurd hg this
    | some g =>
      cases g with
      | none => intro h; cases h
      | some g => exact ih2 vs' h2 fuel (by omega) _

theorem tree_toAny {h : Heap} {n : Node} {j : JVal} (ht : Tree h n j) {fuel : Nat} (hf : j.size ≤ fuel) :
    toAny (getOf h (n.document h)) fuel n.id ≠ none := by
  obtain ⟨r, hd, hr⟩ := ht
  rw [hd]
  exact (toAny_ends (h r).get).1 j n.id hr fuel hf

theorem document_doc {h : Heap} {n : Node} {r : Ref} (hd : n.document h = some r) : n.doc = some r := by
  unfold Node.document at hd
  repeat' split at hd
  all_goals first | (cases hd; done) | (cases hd; assumption)

theorem decMethod_ends {U : Univ} {h : Heap} {n : Node} {j : JVal} (ht : Tree h n j) {fuel : Nat} (hf : j.size ≤ fuel) (m : Meth) (t : Ty) (v : GV) :
    decMethod U m fuel h n t v ≠ none := by
  have hj : n.wrapUnmarshalJSON h fuel ≠ none := by
    unfold Node.wrapUnmarshalJSON
    obtain ⟨vs, d, hg, _⟩ := tree_shows ht
    obtain ⟨r, hd, hr⟩ := ht
    have : n.appendJSON h fuel [] = some ([] ++ j.ser, false) := by
      unfold Node.appendJSON
      rw [hg, document_doc hd]
      exact appendJSON_reps (get := (h r).get) hr hf []
    rw [hg]
    simp only [this]
    repeat' split
    all_goals (intro h; cases h)
  unfold decMethod
  split
  · split <;> (intro h; cases h)
  · split
    · split <;> (intro h; cases h)
    · intro h; cases h
    · intro h; cases h
  · cases hq : n.wrapUnmarshalJSON h fuel with
    | none => exact absurd hq hj
    | some q =>
      cases q with
      | called s => dsimp only; split <;> (intro h; cases h)
      | _ => intro h; cases h

theorem decMethodRV_ends {U : Univ} {h : Heap} {n : Node} {j : JVal} (ht : Tree h n j) {fuel : Nat} (hf : j.size ≤ fuel) (m : Meth) (rv : RV) :
    decMethodRV U m fuel h n rv ≠ none := by
  unfold decMethodRV
  cases rv.dyn U with
  | none => intro h; cases h
  | some p =>
    obtain ⟨t, v⟩ := p
    simp only
    split
    · have := decMethod_ends (U := U) ht hf m t v
      cases hq : decMethod U m fuel h n t v with
      | none => exact absurd hq this
      | some q =>
        cases U.base rv.t <;> cases q <;> (intro h; cases h)
    · intro h; cases h

theorem decArray_ends {rec : Node → GV → Option (Out GV)} {zero : GV} : ∀ (ns : List Node) (xs : List GV), (∀ n ∈ ns, ∀ x, rec n x ≠ none) →
    decArray rec zero xs ns ≠ none
  | _, [], _ => by rw [decArray]; intro h; cases h
  | [], _ :: _, _ => by rw [decArray]; intro h; cases h
  | n :: ns, x :: xs, hr => by
    rw [decArray]
    have := hr n (by simp) x
    have ih := decArray_ends (zero := zero) ns xs fun m hm => hr m (by simp [hm])
    cases hq : rec n x with
    | none => exact absurd hq this
    | some q =>
      cases q with
      | panic => intro h; cases h
      | done y e =>
        simp only
        cases hq2 : decArray rec zero xs ns with
        | none => exact absurd hq2 ih
        | some q => cases q <;> (intro h; cases h)

theorem decSlice_ends {rec : Node → GV → Option (Out GV)} : ∀ (ns : List Node) (i : Nat) (arr : List GV) (len : Nat), (∀ n ∈ ns, ∀ x, rec n x ≠ none) →
    decSlice rec ns i arr len ≠ none
  | [], _, _, _, _ => by rw [decSlice]; intro h; cases h
  | n :: ns, i, arr, len, hr => by
    rw [decSlice]
    cases arr[i]? with
    | none => intro h; cases h
    | some x =>
      simp only
      have := hr n (by simp) x
      cases hq : rec n x with
      | none => exact absurd hq this
      | some q =>
        cases q with
        | panic => intro h; cases h
        | done y e =>
          cases e with
          | none => exact decSlice_ends ns _ _ _ fun m hm => hr m (by simp [hm])
          | some e => intro h; cases h

theorem andThen_ends {α β : Type} {x : Option (Out α)} {fail : α → β} {f : α → Option (Out β)} (hx : x ≠ none) (hf : ∀ a, f a ≠ none) :
    andThen x fail f ≠ none := by
  rcases x with _ | ⟨⟨a, _ | e⟩ | _⟩
  · exact absurd rfl hx
  · exact hf a
  · intro h; cases h
  · intro h; cases h

theorem decMap_ends {rec : Node → GV → Option (Out GV)} {zero : GV} {b : Bool} : ∀ (ns : List (Bytes × Node)) (m : GV), (∀ p ∈ ns, ∀ x, rec p.2 x ≠ none) →
    decMap rec zero b ns m ≠ none
  | [], _, _ => by rw [decMap]; intro h; cases h
  | (k, n) :: ns, m, hr => by
    rw [decMap]
    refine andThen_ends (hr (k, n) (by simp) _) fun y => ?_
    split
    · cases m with
      | map es => exact decMap_ends ns _ fun p hp => hr p (by simp [hp])
      | _ => intro h; cases h
    · intro h; cases h

theorem decodeAt_ends {U : Univ} {f : RV → Option (Out GV)} (hf : ∀ rv, f rv ≠ none) : ∀ (is : List Int) (rv : RV), decodeAt U f is rv ≠ none
  | [], rv => hf rv
  | i :: is, rv => by
    rw [decodeAt]
    split
    · split
      · rename_i t _ _
        have := decodeAt_ends (U := U) hf is ⟨t, U.zero t, true⟩
        cases hq : decodeAt U f is ⟨t, U.zero t, true⟩ with
        | none => exact absurd hq this
        | some q => cases q <;> (intro h; cases h)
      · rename_i t v _ _
        have := decodeAt_ends (U := U) hf is ⟨t, v, true⟩
        cases hq : decodeAt U f is ⟨t, v, true⟩ with
        | none => exact absurd hq this
        | some q => cases q <;> (intro h; cases h)
      · intro h; cases h
    · split
      · rename_i x fs _ _
        have := decodeAt_ends (U := U) hf is x
        cases hq : decodeAt U f is x with
        | none => exact absurd hq this
        | some q => cases q <;> (intro h; cases h)
      · intro h; cases h

theorem decFields_ends {U : Univ} {rec : Dec → Node → RV → Option (Out GV)} {fs : List Codec} {t : Ty} : ∀ (ns : List (Bytes × Node)) (v : GV),
    (∀ p ∈ ns, ∀ c ∈ fs, ∀ rv, rec c.dec p.2 rv ≠ none) → decFields U rec fs t ns v ≠ none
  | [], _, _ => by rw [decFields]; intro h; cases h
  | (k, n) :: ns, v, hr => by
    rw [decFields]
    have ih := fun v => decFields_ends (U := U) (fs := fs) (t := t) ns v fun p hp => hr p (by simp [hp])
    cases hg : getCodec fs k with
    | none => exact ih v
    | some c =>
      simp only
      split
      · exact ih v
      · refine andThen_ends (decodeAt_ends (fun rv => ?_) _ _) fun v => ih v
        exact hr (k, n) (by simp) c (List.mem_of_find?_eq_some hg) rv

theorem All2.mem_right {α β : Type} {R : α → β → Prop} {l : List α} {m : List β} (h : All2 R l m) : ∀ b ∈ m, ∃ a ∈ l, R a b := by
  induction h with
  | nil => intro a ha; cases ha
  | cons hr _ ih =>
    intro a ha
    rcases List.mem_cons.1 ha with rfl | ha
    · exact ⟨_, by simp, hr⟩
    · obtain ⟨b, hb, h⟩ := ih a ha
      exact ⟨b, by simp [hb], h⟩

/-- Decoding tree `j` ends, into all variables of types whose pointers end. -/
def DecEnds (U : Univ) (objs : List Obj) (j : JVal) : Prop :=
  ∀ t d, DecIs U objs d t → (∀ t', Comp U t t' → PtrEnds U t') →
    ∃ N, ∀ fuel, N ≤ fuel → ∀ h n rv, Tree h n j → decode U objs h fuel d n rv ≠ none

theorem decUint_ends {U : Univ} {h : Heap} {n : Node} {rv : RV} : decUint U h n rv ≠ none := by
  unfold decUint typeErr
  repeat' split
  all_goals (try simp only)
  all_goals (repeat' split)
  all_goals (intro h; cases h)
theorem decInt_ends {U : Univ} {h : Heap} {n : Node} {rv : RV} : decInt U h n rv ≠ none := by
  unfold decInt typeErr
  repeat' split
  all_goals (try simp only)
  all_goals (repeat' split)
  all_goals (intro h; cases h)
theorem decFloat_ends {U : Univ} {h : Heap} {n : Node} {rv : RV} : decFloat U h n rv ≠ none := by
  unfold decFloat typeErr
  repeat' split
  all_goals (try simp only)
  all_goals (repeat' split)
  all_goals (intro h; cases h)
theorem decBool_ends {h : Heap} {n : Node} {rv : RV} : decBool h n rv ≠ none := by
  unfold decBool typeErr
  repeat' split
  all_goals (try simp only)
  all_goals (repeat' split)
  all_goals (intro h; cases h)
theorem decString_ends {h : Heap} {n : Node} {rv : RV} : decString h n rv ≠ none := by
  unfold decString typeErr
  repeat' split
  all_goals (intro h; cases h)

theorem decode_ends {U : Univ} (hE : U.EmbedsStructs) {o : Options} {objs : List Obj} (hs : StoreOk U o objs) (j : JVal) : DecEnds U objs j := by
  -- one tree, with the elements and members of it done
  have node : ∀ j : JVal, (∀ xs, j = .arr xs → ∀ x ∈ xs, DecEnds U objs x) → (∀ ms, j = .obj ms → ∀ m ∈ ms, DecEnds U objs m.2) → DecEnds U objs j := by
    intro j harr hobj t d hd hp
    have hpt := hp t .refl
    revert d hd hp
    induction hpt with
    | @elem t e hb _ ih =>
      intro d hd hp
      have ih := fun d hd => ih d hd (fun t' h => hp t' (.ptr hb h))
      cases d with
      | ptr r =>
        obtain ⟨e', hb', hx⟩ := hd
        rw [hb] at hb'; cases hb'
        obtain ⟨d', hobj, hd'⟩ := store_ptrD hs hx
        obtain ⟨N, hN⟩ := ih d' hd'
        refine ⟨N + 1, fun fuel hf h n rv ht => ?_⟩
        obtain ⟨k, rfl⟩ : ∃ k, fuel = k + 1 := ⟨fuel - 1, by omega⟩
        simp only [decode, hobj]
        cases U.base rv.t with
        | ptr t' =>
          simp only
          split
          · split
            · intro h; cases h
            · generalize hq : decode U objs h k d' n _ = q
              have := hN k (by omega) h n ⟨e, match rv.v with | .ptr v => v | _ => U.zero e, true⟩ ht
              cases q with
              | none => exact absurd hq this
              | some q => cases q <;> (intro h; cases h)
          · intro h; cases h
        | _ => intro h; cases h
      | njson =>
        refine ⟨1, fun fuel hf h n rv ht => ?_⟩
        obtain ⟨k, rfl⟩ : ∃ k, fuel = k + 1 := ⟨fuel - 1, by omega⟩
        simp only [decode]
        unfold decMethodRV decMethod
        repeat' split
        all_goals (try simp only)
        all_goals (repeat' split)
        all_goals (intro h; cases h)
      | json =>
        refine ⟨j.size + 1, fun fuel hf h n rv ht => ?_⟩
        obtain ⟨k, rfl⟩ : ∃ k, fuel = k + 1 := ⟨fuel - 1, by omega⟩
        simp only [decode]
        exact decMethodRV_ends ht (by omega) _ _
      | text =>
        refine ⟨j.size + 1, fun fuel hf h n rv ht => ?_⟩
        obtain ⟨k, rfl⟩ : ∃ k, fuel = k + 1 := ⟨fuel - 1, by omega⟩
        simp only [decode]
        split
        · exact decMethodRV_ends ht (by omega) _ _
        · intro h; cases h
      | _ => simp [DecIs, hb] at hd
    | @leaf t hl =>
      intro d hd hp
      cases d with
      | ptr r => obtain ⟨e, hb, _⟩ := hd; exact absurd hb (hl e)
      | njson =>
        refine ⟨j.size + 1, fun fuel hf h n rv ht => ?_⟩
        obtain ⟨k, rfl⟩ : ∃ k, fuel = k + 1 := ⟨fuel - 1, by omega⟩
        simp only [decode]
        exact decMethodRV_ends ht (by omega) _ _
      | json =>
        refine ⟨j.size + 1, fun fuel hf h n rv ht => ?_⟩
        obtain ⟨k, rfl⟩ : ∃ k, fuel = k + 1 := ⟨fuel - 1, by omega⟩
        simp only [decode]
        exact decMethodRV_ends ht (by omega) _ _
      | text =>
        refine ⟨j.size + 1, fun fuel hf h n rv ht => ?_⟩
        obtain ⟨k, rfl⟩ : ∃ k, fuel = k + 1 := ⟨fuel - 1, by omega⟩
        simp only [decode]
        split
        · exact decMethodRV_ends ht (by omega) _ _
        · intro h; cases h
      | bool =>
        refine ⟨1, fun fuel hf h n rv ht => ?_⟩
        obtain ⟨k, rfl⟩ : ∃ k, fuel = k + 1 := ⟨fuel - 1, by omega⟩
        simp only [decode]; exact decBool_ends
      | int =>
        refine ⟨1, fun fuel hf h n rv ht => ?_⟩
        obtain ⟨k, rfl⟩ : ∃ k, fuel = k + 1 := ⟨fuel - 1, by omega⟩
        simp only [decode]; exact decInt_ends
      | uint =>
        refine ⟨1, fun fuel hf h n rv ht => ?_⟩
        obtain ⟨k, rfl⟩ : ∃ k, fuel = k + 1 := ⟨fuel - 1, by omega⟩
        simp only [decode]; exact decUint_ends
      | float =>
        refine ⟨1, fun fuel hf h n rv ht => ?_⟩
        obtain ⟨k, rfl⟩ : ∃ k, fuel = k + 1 := ⟨fuel - 1, by omega⟩
        simp only [decode]; exact decFloat_ends
      | string =>
        refine ⟨1, fun fuel hf h n rv ht => ?_⟩
        obtain ⟨k, rfl⟩ : ∃ k, fuel = k + 1 := ⟨fuel - 1, by omega⟩
        simp only [decode]; exact decString_ends
      | iface =>
        refine ⟨j.size + 1, fun fuel hf h n rv ht => ?_⟩
        obtain ⟨k, rfl⟩ : ∃ k, fuel = k + 1 := ⟨fuel - 1, by omega⟩
        simp only [decode]
        unfold decIface typeErr
        have := tree_toAny ht (fuel := k) (by omega)
        cases hq : toAny (getOf h (n.document h)) k n.id with
        | none => exact absurd hq this
        | some q =>
          cases q with
          | none => intro h; cases h
          | some q => simp only; split <;> (intro h; cases h)
      | slice r =>
        obtain ⟨e, hb, hx⟩ := hd
        obtain ⟨d', hob, hd'⟩ := store_sliceD hs hb hx
        obtain ⟨N, hN⟩ : ∃ N, ∀ fuel, N ≤ fuel → ∀ x ∈ (match j with | .arr xs => xs | _ => []), ∀ h n rv, Tree h n x → decode U objs h fuel d' n rv ≠ none := by
          apply exists_bound
          intro x hx
          cases j with
          | arr xs => exact harr xs rfl x hx e d' hd' fun t' h => hp t' (.slice hb h)
          | _ => cases hx
        refine ⟨N + 1, fun fuel hf h n rv ht => ?_⟩
        obtain ⟨k, rfl⟩ : ∃ k, fuel = k + 1 := ⟨fuel - 1, by omega⟩
        simp only [decode, hob]
        split
        · split <;> (intro h; cases h)
        · split
          · rename_i htyp
            have htj : jtyp j = tArray := by rw [← tree_typ ht]; exact htyp
            cases j with
            | arr xs =>
              have hel := tree_elems ht
              have hk : ∀ m ∈ (kids h n).map (·.2), ∀ x, decode U objs h k d' m ⟨U.elem t, x, true⟩ ≠ none := by
                intro m hm x
                obtain ⟨y, hy, hty⟩ := hel.mem_left m hm
                exact hN k (by omega) y hy h m _ hty
              split
              · intro h; cases h
              · rename_i arr _
                have := decSlice_ends ((kids h n).map (·.2)) 0 arr ((kids h n).map (·.2)).length hk
                split
                · rename_i hq; exact absurd hq this
                · intro h; cases h
                · intro h; cases h
            | bool b => cases b <;> exact absurd htj (by decide)
            | _ => exact absurd htj (by simp only [jtyp]; decide)
          · intro h; cases h
      | array r =>
        obtain ⟨m, e, hb, hx⟩ := hd
        obtain ⟨d', hob, hd'⟩ := store_arrayD hs hx
        obtain ⟨N, hN⟩ : ∃ N, ∀ fuel, N ≤ fuel → ∀ x ∈ (match j with | .arr xs => xs | _ => []), ∀ h n rv, Tree h n x → decode U objs h fuel d' n rv ≠ none := by
          apply exists_bound
          intro x hx
          cases j with
          | arr xs => exact harr xs rfl x hx e d' hd' fun t' h => hp t' (.array hb h)
          | _ => cases hx
        refine ⟨N + 1, fun fuel hf h n rv ht => ?_⟩
        obtain ⟨k, rfl⟩ : ∃ k, fuel = k + 1 := ⟨fuel - 1, by omega⟩
        simp only [decode, hob]
        cases rv.v with
        | array vs =>
          simp only
          split
          · split
            · rename_i htyp
              have htj : jtyp j = tArray := by rw [← tree_typ ht]; exact htyp
              cases j with
              | arr xs =>
                have hel := tree_elems ht
                have hk : ∀ m ∈ (kids h n).map (·.2), ∀ x, decode U objs h k d' m ⟨e, x, true⟩ ≠ none := by
                  intro m hm x
                  obtain ⟨y, hy, hty⟩ := hel.mem_left m hm
                  exact hN k (by omega) y hy h m _ hty
                have := decArray_ends (zero := U.zero e) ((kids h n).map (·.2)) vs hk
                split
                · rename_i hq; exact absurd hq this
                · intro h; cases h
                · intro h; cases h
              | bool b => cases b <;> exact absurd htj (by decide)
              | _ => exact absurd htj (by simp only [jtyp]; decide)
            · split <;> (intro h; cases h)
          · intro h; cases h
        | _ => intro h; cases h
      | map r =>
        obtain ⟨kt, e, hb, _, hx⟩ := hd
        obtain ⟨d', hob, hd'⟩ := store_mapD hs hb hx
        obtain ⟨N, hN⟩ : ∃ N, ∀ fuel, N ≤ fuel → ∀ x ∈ (match j with | .obj ms => ms | _ => []), ∀ h n rv, Tree h n x.2 → decode U objs h fuel d' n rv ≠ none := by
          apply exists_bound
          intro x hx
          cases j with
          | obj ms => exact hobj ms rfl x hx e d' hd' fun t' h => hp t' (.map hb h)
          | _ => cases hx
        refine ⟨N + 1, fun fuel hf h n rv ht => ?_⟩
        obtain ⟨k, rfl⟩ : ∃ k, fuel = k + 1 := ⟨fuel - 1, by omega⟩
        simp only [decode, hob]
        split
        · intro h; cases h
        · split
          · rename_i htyp
            have htj : jtyp j = tObject := by rw [← tree_typ ht]; exact htyp
            cases j with
            | obj ms =>
              have hel := tree_members ht
              apply decMap_ends
              intro p hp x
              obtain ⟨y, hy, _, hty⟩ := hel.mem_left p hp
              exact hN k (by omega) y hy h p.2 _ hty
            | bool b => cases b <;> exact absurd htj (by decide)
            | _ => exact absurd htj (by simp only [jtyp]; decide)
          · intro h; cases h
      | struct r =>
        obtain ⟨i, hb, hx⟩ := hd
        obtain ⟨fs, cs, hob, hc, hall⟩ := store_struct hs hb hx
        have hpath := cands_path0 hE hb hc
        obtain ⟨N, hN⟩ : ∃ N, ∀ fuel, N ≤ fuel → ∀ x ∈ (match j with | .obj ms => ms | _ => []), ∀ c ∈ fs, ∀ h n rv, Tree h n x.2 → decode U objs h fuel c.dec n rv ≠ none := by
          apply exists_bound
          intro x hx
          cases j with
          | obj ms =>
            apply exists_bound
            intro c hc'
            obtain ⟨q, hq, hf⟩ := hall.mem_left c hc'
            exact hobj ms rfl x hx q.typ c.dec hf.dec fun t' h => hp t' ((path_comp (hpath q hq)).trans h)
          | _ => cases hx
        refine ⟨N + 1, fun fuel hf h n rv ht => ?_⟩
        obtain ⟨k, rfl⟩ : ∃ k, fuel = k + 1 := ⟨fuel - 1, by omega⟩
        simp only [decode, hob]
        split
        · intro h; cases h
        · split
          · rename_i htyp
            have htj : jtyp j = tObject := by rw [← tree_typ ht]; exact htyp
            cases j with
            | obj ms =>
              have hel := tree_members ht
              apply decFields_ends
              intro p hp c hc' rv'
              obtain ⟨y, hy, _, hty⟩ := hel.mem_left p hp
              exact hN k (by omega) y hy c hc' h p.2 _ hty
            | bool b => cases b <;> exact absurd htj (by decide)
            | _ => exact absurd htj (by simp only [jtyp]; decide)
          · intro h; cases h
  refine (jval_ind (P := DecEnds U objs) (L := fun xs => ∀ x ∈ xs, DecEnds U objs x) (M := fun ms => ∀ m ∈ ms, DecEnds U objs m.2)
    ?_ ?_ ?_ ?_ ?_ ?_ ?_ ?_ ?_ ?_).1 j
  · exact node _ (by intro _ h; cases h) (by intro _ h; cases h)
  · intro b; exact node _ (by intro _ h; cases h) (by intro _ h; cases h)
  · intro r; exact node _ (by intro _ h; cases h) (by intro _ h; cases h)
  · intro r; exact node _ (by intro _ h; cases h) (by intro _ h; cases h)
  · intro xs ih; exact node _ (by intro _ h; cases h; exact ih) (by intro _ h; cases h)
  · intro ms ih; exact node _ (by intro _ h; cases h) (by intro _ h; cases h; exact ih)
  · intro x hx; cases hx
  · intro x xs h1 h2 y hy
    rcases List.mem_cons.1 hy with rfl | hy
    · exact h1
    · exact h2 y hy
  · intro x hx; cases hx
  · intro k x xs h1 h2 y hy
    rcases List.mem_cons.1 hy with rfl | hy
    · exact h1
    · exact h2 y hy

end Verif.Unjson
