import Verif.Spec.AnySame
import Verif.Proofs.UnDecode

/-! # `ToInterface` and decoding into `interface{}` -/

namespace Verif.Unjson
open Verif Verif.Float Verif.Njson

theorem setEntry_str (key : Bytes) (x : GV) : ∀ {es : List (GV × GV)}, (∀ p ∈ es, ∃ k, p.1 = .str k) → ∀ p ∈ setEntry key x es, ∃ k, p.1 = .str k
  | [], _, p, h => by simp only [setEntry, List.mem_singleton] at h; exact ⟨key, by rw [h]⟩
  | (k0, y) :: es, hs, p, h => by
    obtain ⟨k, hk⟩ := hs _ List.mem_cons_self
    simp only at hk
    subst hk
    simp only [setEntry] at h
    split at h
    · rcases List.mem_cons.1 h with rfl | h
      · exact ⟨_, rfl⟩
      · exact hs _ (List.mem_cons_of_mem _ h)
    · rcases List.mem_cons.1 h with rfl | h
      · exact ⟨_, rfl⟩
      · exact setEntry_str key x (fun p hp => hs p (List.mem_cons_of_mem _ hp)) p h

/-- The keys afterwards. -/
theorem setEntry_keys (key : Bytes) (x : GV) : ∀ {es : List (GV × GV)}, (∀ p ∈ es, ∃ k, p.1 = .str k) →
    ∀ k, k ∈ (setEntry key x es).map Prod.fst ↔ k = .str key ∨ k ∈ es.map Prod.fst
  | [], _, k => by simp [setEntry]
  | (k0, y) :: es, hs, k => by
    obtain ⟨k1, hk⟩ := hs _ List.mem_cons_self
    simp only at hk
    subst hk
    simp only [setEntry]
    split
    · rename_i h
      subst h
      simp only [List.map_cons, List.mem_cons]
      constructor
      · exact .inr
      · rintro (h | h | h)
        · exact .inl h
        · exact .inl h
        · exact .inr h
    · simp only [List.map_cons, List.mem_cons, setEntry_keys key x (fun p hp => hs p (List.mem_cons_of_mem _ hp)) k]
      constructor
      · rintro (h | h | h)
        · exact .inr (.inl h)
        · exact .inl h
        · exact .inr (.inr h)
      · rintro (h | h | h)
        · exact .inr (.inl h)
        · exact .inl h
        · exact .inr (.inr h)

theorem setEntry_nodup (key : Bytes) (x : GV) : ∀ {es : List (GV × GV)}, (∀ p ∈ es, ∃ k, p.1 = .str k) → (es.map Prod.fst).Nodup →
    ((setEntry key x es).map Prod.fst).Nodup
  | [], _, _ => by simp [setEntry]
  | (k0, y) :: es, hs, hn => by
    obtain ⟨k1, hk⟩ := hs _ List.mem_cons_self
    simp only at hk
    subst hk
    simp only [setEntry]
    simp only [List.map_cons, List.nodup_cons] at hn
    split
    · exact List.nodup_cons.2 hn
    · rename_i hne
      simp only [List.map_cons, List.nodup_cons]
      have hs' := fun p hp => hs p (List.mem_cons_of_mem (GV.str k1, y) hp)
      refine ⟨fun h => ?_, setEntry_nodup key x hs' hn.2⟩
      rcases (setEntry_keys key x hs' _).1 h with h | h
      · cases h; exact hne rfl
      · exact hn.1 h

/-- The entries afterwards. -/
theorem setEntry_mem (key : Bytes) (x : GV) : ∀ {es : List (GV × GV)}, (∀ p ∈ es, ∃ k, p.1 = .str k) → (es.map Prod.fst).Nodup →
    ∀ k y, (.str k, y) ∈ setEntry key x es ↔ k = key ∧ y = x ∨ k ≠ key ∧ (.str k, y) ∈ es
  | [], _, _, k, y => by simp [setEntry]
  | (k0, z) :: es, hs, hn, k, y => by
    obtain ⟨k1, hk⟩ := hs _ List.mem_cons_self
    simp only at hk
    subst hk
    simp only [List.map_cons, List.nodup_cons] at hn
    have hs' := fun p hp => hs p (List.mem_cons_of_mem (GV.str k1, z) hp)
    simp only [setEntry]
    split
    · rename_i h
      subst h
      simp only [List.mem_cons, Prod.mk.injEq, GV.str.injEq]
      constructor
      · rintro (⟨rfl, rfl⟩ | h)
        · exact .inl ⟨rfl, rfl⟩
        · by_cases hk : k = k1
          · subst hk; exact absurd (List.mem_map_of_mem h) hn.1
          · exact .inr ⟨hk, .inr h⟩
      · rintro (⟨rfl, rfl⟩ | ⟨h1, ⟨rfl, rfl⟩ | h2⟩)
        · exact .inl ⟨rfl, rfl⟩
        · exact absurd rfl h1
        · exact .inr h2
    · rename_i hne
      simp only [List.mem_cons, Prod.mk.injEq, GV.str.injEq, setEntry_mem key x hs' hn.2 k y]
      constructor
      · rintro (⟨rfl, rfl⟩ | h | ⟨h1, h2⟩)
        · exact .inr ⟨hne, .inl ⟨rfl, rfl⟩⟩
        · exact .inl h
        · exact .inr ⟨h1, .inr h2⟩
      · rintro (h | ⟨h1, h | h2⟩)
        · exact .inr (.inl h)
        · exact .inl h
        · exact .inr (.inr ⟨h1, h2⟩)

/-- What holds in the loop over the members. -/
structure MapInv (m : Bytes → Option (GoVal Flt)) (es : List (GV × GV)) : Prop where
  nodup : (es.map Prod.fst).Nodup
  str : ∀ p ∈ es, ∃ k, p.1 = .str k
  absent : ∀ k, m k = none ↔ ∀ x, (.str k, x) ∉ es
  same : ∀ k g x, m k = some g → (.str k, x) ∈ es → AsAny g x

theorem MapInv.set {m : Bytes → Option (GoVal Flt)} {es : List (GV × GV)} (h : MapInv m es) (key : Bytes) {g : GoVal Flt} {x : GV} (hg : AsAny g x) :
    MapInv (fun k => if k = key then some g else m k) (setEntry key x es) where
  nodup := setEntry_nodup key x h.str h.nodup
  str := setEntry_str key x h.str
  absent := by
    intro k
    by_cases hk : k = key
    · simp only [hk, if_true]
      exact ⟨(fun h' => by cases h'), fun h' => absurd ((setEntry_mem key x h.str h.nodup key x).2 (.inl ⟨rfl, rfl⟩)) (h' x)⟩
    · simp only [if_neg hk, h.absent k]
      constructor
      · intro h1 y hy
        rcases (setEntry_mem key x h.str h.nodup k y).1 hy with ⟨h2, _⟩ | ⟨_, h2⟩
        · exact hk h2
        · exact h1 y h2
      · intro h1 y hy
        exact h1 y ((setEntry_mem key x h.str h.nodup k y).2 (.inr ⟨hk, hy⟩))
  same := by
    intro k g' y h1 h2
    rcases (setEntry_mem key x h.str h.nodup k y).1 h2 with ⟨rfl, rfl⟩ | ⟨h3, h4⟩
    · simp only [if_true, Option.some.injEq] at h1; subst h1; exact hg
    · rw [if_neg h3] at h1; exact h.same k g' y h1 h4

/-- The results of the two recursions. -/
inductive SameRes : Option (Option (GoVal Flt)) → Option (Option GV) → Prop
  | endless : SameRes none none
  | fail : SameRes (some none) (some none)
  | ok {g x} : AsAny g x → SameRes (some (some g)) (some (some x))

theorem asAnys_append : ∀ {gs : List (GoVal Flt)} {xs : List GV} {g : GoVal Flt} {x : GV}, AsAnys gs xs → AsAny g x → AsAnys (gs ++ [g]) (xs ++ [x])
  | _, _, _, _, .nil, h => .cons h .nil
  | _, _, _, _, .cons h1 h2, h => .cons h1 (asAnys_append h2 h)

theorem slice_same {rec : Nat → Option (Option (GoVal Flt))} {rec' : Nat → Option (Option GV)} (h : ∀ id, SameRes (rec id) (rec' id)) :
    ∀ (vs : List V) {gs : List (GoVal Flt)} {xs : List GV}, AsAnys gs xs → SameRes (toInterfaceSlice rec vs gs) (toAnySlice rec' vs xs)
  | [], _, _, hs => .ok (.slice hs)
  | v :: vs, gs, xs, hs => by
    rw [toInterfaceSlice, toAnySlice]
    have := h v.id
    generalize rec v.id = a at this ⊢
    generalize rec' v.id = b at this ⊢
    cases this with
    | endless => exact .endless
    | fail => exact .fail
    | ok hg => exact slice_same h vs (asAnys_append hs hg)

theorem map_same {rec : Nat → Option (Option (GoVal Flt))} {rec' : Nat → Option (Option GV)} (h : ∀ id, SameRes (rec id) (rec' id)) :
    ∀ (vs : List V) {m : Bytes → Option (GoVal Flt)} {es : List (GV × GV)}, MapInv m es → SameRes (toInterfaceMap rec vs m) (toAnyMap rec' vs es)
  | [], _, _, hs => .ok (.map hs.nodup hs.str hs.absent hs.same)
  | v :: vs, gs, xs, hs => by
    rw [toInterfaceMap, toAnyMap]
    have := h v.id
    generalize rec v.id = a at this ⊢
    generalize rec' v.id = b at this ⊢
    cases this with
    | endless => exact .endless
    | fail => exact .fail
    | ok hg => exact map_same h vs (hs.set v.key hg)

/-- The two models of `toInterface` agree. -/
theorem any_same (get : Nat → Option NodeD) : ∀ fuel id, SameRes (toInterface floatOf get fuel id) (toAny get fuel id)
  | 0, _ => .endless
  | fuel + 1, id => by
    rw [toInterface, toAny]
    cases get id with
    | none => exact .fail
    | some n =>
      simp only
      by_cases h1 : n.typ = tObject
      · rw [if_pos h1, if_pos h1]
        exact map_same (any_same get fuel) _ ⟨List.nodup_nil, by simp, by simp, by simp⟩
      rw [if_neg h1, if_neg h1]
      by_cases h1 : n.typ = tArray
      · rw [if_pos h1, if_pos h1]
        exact slice_same (any_same get fuel) _ .nil
      rw [if_neg h1, if_neg h1]
      by_cases h1 : n.typ = tString
      · rw [if_pos h1, if_pos h1]; exact .ok .str
      rw [if_neg h1, if_neg h1]
      by_cases h1 : n.typ = tBoolean
      · rw [if_pos h1, if_pos h1]
        by_cases h2 : n.raw = strTrue
        · rw [if_pos h2, if_pos h2]; exact .ok .bool
        rw [if_neg h2, if_neg h2]
        by_cases h2 : n.raw = strFalse
        · rw [if_pos h2, if_pos h2]; exact .ok .bool
        rw [if_neg h2, if_neg h2]
        exact .fail
      rw [if_neg h1, if_neg h1]
      by_cases h1 : n.typ = tNull
      · rw [if_pos h1, if_pos h1]; exact .ok .nil
      rw [if_neg h1, if_neg h1]
      by_cases h1 : n.typ = tNumber
      · rw [if_pos h1, if_pos h1, floatOf]
        cases NumJson.parseFloat n.raw with
        | nan => exact .fail
        | num s m => exact .ok .float
      rw [if_neg h1, if_neg h1]
      exact .fail

end Verif.Unjson
