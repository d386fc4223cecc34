import Verif.Model.Depth
import Verif.Spec.Depth
import Verif.Proofs.TreeParse
import Verif.Proofs.Bound
import Verif.Proofs.Serial

/-! # How deep the parser and `AppendJSON` recurse -/

namespace Verif.Njson
open Verif Verif.Spec

theorem node_wf {p p' : P} {id : Nat} (hp : p.Wf) (hn : p.node = (p', some id)) (typ : Typ) :
    (p'.setNode id (setContainer typ)).Wf ∧ id < (p'.setNode id (setContainer typ)).n := by
  obtain ⟨h1, -, h2⟩ := node_grown hp hn
  refine ⟨by simpa [P.Wf, P.setNode] using h2, ?_⟩
  unfold P.node at hn
  split at hn
  · cases hn; simp [P.setNode]
  · dsimp only at hn
    split at hn
    · cases hn; simp [P.setNode]
    · cases hn

theorem node_some {p : P} (hp : p.Wf) : ∃ p' id, p.node = (p', some id) := by
  unfold P.Wf at hp
  unfold P.node
  split
  · exact ⟨_, _, rfl⟩
  · dsimp only
    rw [if_pos (by simp; omega)]
    exact ⟨_, _, rfl⟩

theorem levels_pos (t : JVal) : 1 ≤ levels t := by cases t <;> simp [levels]

theorem levels_literal {t t' : JVal} {typ : Typ} {lit : Bytes} {pos pos' : Nat} {s r : Bytes} (h : tLiteral t typ lit pos s = .ok t' pos' r) : t' = t := by
  unfold tLiteral at h
  split at h
  · split at h
    · cases h; rfl
    · cases h
  · cases h

/-- The values that are accepted: the depth is that of the tree. -/
theorem depth_all : ∀ fuel : Nat,
    (∀ (p : P) (pos : Nat) (rest : Bytes) (t : JVal) (pos' : Nat) (rest' : Bytes), p.Wf → tVal fuel pos rest = .ok t pos' rest' →
      valueDepth fuel p pos rest = levels t) ∧
    (∀ (p : P) (id : Nat) (nv : Slice) (vs : List V) (k pos : Nat) (rest : Bytes) (xs : List JVal) (pos' : Nat) (rest' : Bytes), p.Wf →
      tElems fuel pos rest = .ok xs pos' rest' → elemDepth fuel p id nv vs k pos rest = levelsElems xs) ∧
    (∀ (p : P) (id : Nat) (nv : Slice) (vs : List V) (k pos : Nat) (rest : Bytes) (ms : List (Bytes × JVal)) (pos' : Nat) (rest' : Bytes), p.Wf →
      tMembers fuel pos rest = .ok ms pos' rest' → memberDepth fuel p id nv vs k pos rest = levelsMembers ms) := by
  intro fuel
  induction fuel with
  | zero =>
    refine ⟨fun p pos rest t pos' rest' _ h => ?_, fun p id nv vs k pos rest xs pos' rest' _ h => ?_, fun p id nv vs k pos rest ms pos' rest' _ h => ?_⟩
    · rw [tVal] at h; cases h
    · rw [tElems] at h; cases h
    · rw [tMembers] at h; cases h
  | succ fuel ih =>
    obtain ⟨ihV, ihE, ihM⟩ := ih
    refine ⟨fun p pos rest t pos' rest' hp h => ?_, fun p id nv vs k pos rest xs pos' rest' hp h => ?_, fun p id nv vs k pos rest ms pos' rest' hp h => ?_⟩
    · rw [tVal] at h
      rw [valueDepth]
      generalize skipSpace pos rest = q at h ⊢
      obtain ⟨pos1, rest1⟩ := q
      cases rest1 with
      | nil => cases h
      | cons c r =>
        simp only at h ⊢
        by_cases h34 : c = 34
        · rw [if_pos h34] at h
          subst h34
          rw [if_neg (by decide), if_neg (by decide)]
          match r, h with
          | b :: r, h =>
            simp only at h
            split at h
            · cases h
            · cases h; rfl
        rw [if_neg h34] at h
        by_cases h123 : c = 123
        · rw [if_pos h123] at h ⊢
          obtain ⟨p', id, hn⟩ := node_some hp
          rw [hn]
          simp only
          generalize skipSpace (pos1 + 1) r = q2 at h ⊢
          obtain ⟨pos2, rest2⟩ := q2
          cases rest2 with
          | nil => cases h
          | cons c2 r2 =>
            simp only at h ⊢
            by_cases h125 : c2 = 125
            · rw [if_pos h125] at h
              subst h125
              cases h
              rw [if_neg (by decide)]
              rfl
            rw [if_neg h125] at h
            by_cases h34' : c2 = 34
            · rw [if_pos h34'] at h ⊢
              generalize hm : tMembers fuel (pos2 + 1) r2 = o at h
              cases o with
              | ok ms pos3 rest3 =>
                cases h
                rw [ihM _ _ _ _ _ _ _ _ _ _ (node_wf hp hn _).1 hm, levels]
              | err => cases h
              | crash => cases h
            · rw [if_neg h34'] at h; cases h
        rw [if_neg h123] at h ⊢
        by_cases h91 : c = 91
        · rw [if_pos h91] at h ⊢
          obtain ⟨p', id, hn⟩ := node_some hp
          rw [hn]
          simp only
          generalize skipSpace (pos1 + 1) r = q2 at h ⊢
          obtain ⟨pos2, rest2⟩ := q2
          cases rest2 with
          | nil => cases h
          | cons c2 r2 =>
            simp only at h ⊢
            by_cases h93 : c2 = 93
            · rw [if_pos h93] at h ⊢
              cases h
              rfl
            rw [if_neg h93] at h ⊢
            generalize hm : tElems fuel pos2 (c2 :: r2) = o at h
            cases o with
            | ok ms pos3 rest3 =>
              cases h
              rw [ihE _ _ _ _ _ _ _ _ _ _ (node_wf hp hn _).1 hm, levels]
            | err => cases h
            | crash => cases h
        rw [if_neg h91] at h ⊢
        split at h
        · cases h; rfl
        split at h
        · rw [levels_literal h]; rfl
        split at h
        · cases h; rfl
        split at h
        · rw [levels_literal h]; rfl
        split at h
        · rw [levels_literal h]; rfl
        · cases h
    · rw [tElems] at h
      rw [elemDepth]
      have hr := (refine_all fuel).1 p pos rest hp
      generalize hv : tVal fuel pos rest = o at h hr
      cases o with
      | crash => cases h
      | err => cases h
      | ok x pos1 rest1 =>
        obtain ⟨p', he, hk, -⟩ := hr
        rw [he, ihV _ _ _ _ _ _ hp hv]
        simp only at h ⊢
        generalize skipSpace pos1 rest1 = q at h ⊢
        obtain ⟨pos2, rest2⟩ := q
        cases rest2 with
        | nil => cases h
        | cons c r =>
          simp only at h ⊢
          by_cases h44 : c = 44
          · rw [if_pos h44] at h ⊢
            generalize hm : tElems fuel (pos2 + 1) r = o at h
            cases o with
            | ok xs pos3 rest3 =>
              cases h
              rw [ihE _ _ _ _ _ _ _ _ _ _ hk.wf hm, levelsElems]
            | err => cases h
            | crash => cases h
          rw [if_neg h44] at h ⊢
          split at h
          · cases h; rfl
          · cases h
    · rw [tMembers] at h
      rw [memberDepth]
      generalize scanQuote rest 0 = o at h ⊢
      cases o with
      | none => cases h
      | some i =>
        simp only at h ⊢
        generalize skipSpace (pos + 1 + i) (rest.drop (i + 1)) = q at h ⊢
        obtain ⟨pos1, rest1⟩ := q
        cases rest1 with
        | nil => cases h
        | cons c r =>
          simp only at h ⊢
          by_cases h58 : c = 58
          · rw [if_pos h58] at h ⊢
            have hr := (refine_all fuel).1 p (pos1 + 1) r hp
            generalize hv : tVal fuel (pos1 + 1) r = o at h hr
            cases o with
            | crash => cases h
            | err => cases h
            | ok x pos2 rest2 =>
              obtain ⟨p', he, hk, -⟩ := hr
              rw [he, ihV _ _ _ _ _ _ hp hv]
              simp only at h ⊢
              generalize skipSpace pos2 rest2 = q at h ⊢
              obtain ⟨pos3, rest3⟩ := q
              cases rest3 with
              | nil => cases h
              | cons c2 r2 =>
                simp only at h ⊢
                by_cases h44 : c2 = 44
                · rw [if_pos h44] at h ⊢
                  generalize skipSpace (pos3 + 1) r2 = q at h ⊢
                  obtain ⟨pos4, rest4⟩ := q
                  cases rest4 with
                  | nil => cases h
                  | cons c3 r3 =>
                    simp only at h ⊢
                    by_cases h34 : c3 = 34
                    · rw [if_pos h34] at h ⊢
                      generalize hm : tMembers fuel (pos4 + 1) r3 = o at h
                      cases o with
                      | ok xs pos3 rest3 =>
                        cases h
                        rw [ihM _ _ _ _ _ _ _ _ _ _ hk.wf hm, levelsMembers]
                      | err => cases h
                      | crash => cases h
                    · rw [if_neg h34] at h; cases h
                rw [if_neg h44] at h ⊢
                split at h
                · cases h; simp [levelsMembers]
                · cases h
          · rw [if_neg h58] at h; cases h

theorem value_rest {fuel : Nat} {p p' : P} {pos pos' : Nat} {rest rest' : Bytes} (hp : p.Wf) (h : parseValue fuel p pos rest = .ok p' pos' rest') :
    p'.Wf ∧ rest'.length ≤ rest.length := by
  have hb := (parse_bounded fuel).1 p pos rest hp
  rw [h] at hb
  obtain ⟨h1, h2, h3⟩ := hb
  have := h2.1
  exact ⟨h3, by omega⟩

/-- All texts: no more calls in progress than there are bytes. -/
theorem depth_le : ∀ fuel : Nat,
    (∀ (p : P) (pos : Nat) (rest : Bytes), p.Wf → valueDepth fuel p pos rest ≤ rest.length + 1) ∧
    (∀ (p : P) (id : Nat) (nv : Slice) (vs : List V) (k pos : Nat) (rest : Bytes), p.Wf → elemDepth fuel p id nv vs k pos rest ≤ rest.length + 1) ∧
    (∀ (p : P) (id : Nat) (nv : Slice) (vs : List V) (k pos : Nat) (rest : Bytes), p.Wf → memberDepth fuel p id nv vs k pos rest ≤ rest.length + 1) := by
  intro fuel
  induction fuel with
  | zero =>
    refine ⟨fun p pos rest _ => ?_, fun p id nv vs k pos rest _ => ?_, fun p id nv vs k pos rest _ => ?_⟩
    · rw [valueDepth]; omega
    · rw [elemDepth]; omega
    · rw [memberDepth]; omega
  | succ fuel ih =>
    obtain ⟨ihV, ihE, ihM⟩ := ih
    refine ⟨fun p pos rest hp => ?_, fun p id nv vs k pos rest hp => ?_, fun p id nv vs k pos rest hp => ?_⟩
    · rw [valueDepth]
      generalize hs : skipSpace pos rest = q
      obtain ⟨pos1, rest1⟩ := q
      cases rest1 with
      | nil => simp only; omega
      | cons c r =>
        have hl := skipSpace_len' hs
        simp only
        obtain ⟨p', id, hn⟩ := node_some hp
        rw [hn]
        simp only
        generalize hs2 : skipSpace (pos1 + 1) r = q2
        obtain ⟨pos2, rest2⟩ := q2
        split
        · cases rest2 with
          | nil => simp only; omega
          | cons c2 r2 =>
            have hl2 := skipSpace_len' hs2
            simp only
            split
            · have := ihM _ id (p'.nodes.getD id NodeD.zero).values (p'.nodes.getD id NodeD.zero).values.arr 0 (pos2 + 1) r2 (node_wf hp hn tObject).1
              omega
            · omega
        split
        · cases rest2 with
          | nil => simp only; omega
          | cons c2 r2 =>
            have hl2 := skipSpace_len' hs2
            simp only
            split
            · omega
            · have := ihE _ id (p'.nodes.getD id NodeD.zero).values (p'.nodes.getD id NodeD.zero).values.arr 0 pos2 (c2 :: r2) (node_wf hp hn tArray).1
              simp only [List.length_cons] at this
              omega
        · omega
    · rw [elemDepth]
      have hv := ihV p pos rest hp
      generalize hr : parseValue fuel p pos rest = o
      cases o with
      | crash => simp only; omega
      | err => simp only; omega
      | ok p' pos1 rest1 =>
        obtain ⟨w, l⟩ := value_rest hp hr
        simp only
        generalize hs : skipSpace pos1 rest1 = q
        obtain ⟨pos2, rest2⟩ := q
        cases rest2 with
        | nil => simp only; omega
        | cons c r =>
          have hl := skipSpace_len' hs
          simp only
          split
          · have := ihE p' id nv (appendV vs [] p.n k) (k + 1) (pos2 + 1) r w
            omega
          · omega
    · rw [memberDepth]
      generalize scanQuote rest 0 = o
      cases o with
      | none => simp only; omega
      | some i =>
        simp only
        generalize hs : skipSpace (pos + 1 + i) (rest.drop (i + 1)) = q
        obtain ⟨pos1, rest1⟩ := q
        cases rest1 with
        | nil => simp only; omega
        | cons c r =>
          have hl := skipSpace_len' hs
          rw [List.length_drop] at hl
          simp only
          split
          · have hv := ihV p (pos1 + 1) r hp
            generalize hr : parseValue fuel p (pos1 + 1) r = o
            cases o with
            | crash => simp only; omega
            | err => simp only; omega
            | ok p' pos2 rest2 =>
              obtain ⟨w, l⟩ := value_rest hp hr
              simp only
              generalize hs2 : skipSpace pos2 rest2 = q
              obtain ⟨pos3, rest3⟩ := q
              cases rest3 with
              | nil => simp only; omega
              | cons c2 r2 =>
                have hl2 := skipSpace_len' hs2
                simp only
                split
                · generalize hs3 : skipSpace (pos3 + 1) r2 = q
                  obtain ⟨pos4, rest4⟩ := q
                  cases rest4 with
                  | nil => simp only; omega
                  | cons c3 r3 =>
                    have hl3 := skipSpace_len' hs3
                    simp only
                    split
                    · have := ihM p' id nv (appendV vs (rest.take i) p.n k) (k + 1) (pos4 + 1) r3 w
                      omega
                    · omega
                · omega
          · omega

theorem skip_bracket (pos : Nat) (r : Bytes) : skipSpace pos (91 :: r) = (pos, 91 :: r) := by
  unfold skipSpace
  rw [if_neg (by decide)]

/-- Brackets only. -/
theorem depth_ge : ∀ (n fuel : Nat) (p : P) (pos : Nat), p.Wf → 2 * n ≤ fuel → n ≤ valueDepth fuel p pos (List.replicate n 91)
  | 0, _, _, _, _, _ => Nat.zero_le _
  | 1, fuel + 1, p, pos, _, _ => by rw [valueDepth]; omega
  | n + 2, fuel + 2, p, pos, hp, hf => by
    rw [List.replicate_succ, valueDepth, skip_bracket]
    obtain ⟨p', id, hn⟩ := node_some hp
    simp only
    rw [if_neg (by decide), if_pos trivial, hn, List.replicate_succ, skip_bracket]
    simp only
    rw [if_neg (by decide), elemDepth, ← List.replicate_succ]
    have := depth_ge (n + 1) fuel (p'.setNode id (setContainer tArray)) (pos + 1) (node_wf hp hn tArray).1 (by omega)
    omega
  | 1, 0, _, _, _, h => by omega
  | n + 2, 0, _, _, _, h => by omega
  | n + 2, 1, _, _, _, h => by omega

/-- `appendJSON`. -/
theorem append_depth (get : Nat → Option NodeD) :
    (∀ t : JVal, ∀ id, Reps (contOf get) t id → ∀ fuel, t.size ≤ fuel → appendDepth get fuel id = levels t) ∧
    (∀ xs, ∀ vs, RepsElems (contOf get) xs vs → ∀ fuel, sizeElems xs ≤ fuel →
      childDepth (appendDepth get fuel) (fun id => (appendJSON get fuel [] id).any fun r => !r.2) vs = levelsElems xs) ∧
    (∀ ms, ∀ vs, RepsMembers (contOf get) ms vs → ∀ fuel, sizeMembers ms ≤ fuel →
      childDepth (appendDepth get fuel) (fun id => (appendJSON get fuel [] id).any fun r => !r.2) vs = levelsMembers ms) := by
  have scalar : ∀ {id : Nat} {typ : Typ} {raw : Bytes}, contOf get id = some ⟨typ, raw, []⟩ → typ ≠ tObject → typ ≠ tArray →
      ∀ fuel, 1 ≤ fuel → appendDepth get fuel id = 1 := by
    intro id typ raw h h1 h2 fuel hf
    obtain ⟨n, hn, e1, e2, e3⟩ := contOf_some h
    obtain ⟨f, rfl⟩ : ∃ f, fuel = f + 1 := ⟨fuel - 1, by omega⟩
    simp only at e1
    rw [appendDepth, hn]
    simp only
    rw [e1, if_neg (by rintro (h | h) <;> contradiction)]
  apply jval_ind
  · intro id h fuel hf
    exact scalar h (by decide) (by decide) fuel hf
  · intro b id h fuel hf
    cases b <;> exact scalar h (by decide) (by decide) fuel hf
  · intro r id h fuel hf
    exact scalar h (by decide) (by decide) fuel hf
  · intro r id h fuel hf
    exact scalar h (by decide) (by decide) fuel hf
  · intro xs ih id h fuel hf
    obtain ⟨vs, h, hr⟩ := h
    obtain ⟨n, hn, e1, e2, e3⟩ := contOf_some h
    simp only [JVal.size] at hf
    obtain ⟨f, rfl⟩ : ∃ f, fuel = f + 1 := ⟨fuel - 1, by omega⟩
    rw [appendDepth, hn]
    simp only at e1 e2 e3 ⊢
    rw [e1, e3, if_pos (.inr rfl), ih vs hr f (by omega), levels]
  · intro ms ih id h fuel hf
    obtain ⟨vs, h, hr⟩ := h
    obtain ⟨n, hn, e1, e2, e3⟩ := contOf_some h
    simp only [JVal.size] at hf
    obtain ⟨f, rfl⟩ : ∃ f, fuel = f + 1 := ⟨fuel - 1, by omega⟩
    rw [appendDepth, hn]
    simp only at e1 e2 e3 ⊢
    rw [e1, e3, if_pos (.inl rfl), ih vs hr f (by omega), levels]
  · intro vs h fuel hf
    simp only [RepsElems] at h; subst h
    simp [childDepth, levelsElems]
  · intro x xs ih1 ih2 vs h fuel hf
    obtain ⟨id, vs', rfl, h1, h2⟩ := h
    simp only [sizeElems] at hf
    rw [childDepth, ih1 id h1 fuel (by omega), appendJSON_reps h1 (by omega), ih2 vs' h2 fuel (by omega), levelsElems]
    simp
  · intro vs h fuel hf
    simp only [RepsMembers] at h; subst h
    simp [childDepth, levelsMembers]
  · intro k x xs ih1 ih2 vs h fuel hf
    obtain ⟨id, vs', rfl, h1, h2⟩ := h
    simp only [sizeMembers] at hf
    rw [childDepth, ih1 id h1 fuel (by omega), appendJSON_reps h1 (by omega), ih2 vs' h2 fuel (by omega), levelsMembers]
    simp

end Verif.Njson
