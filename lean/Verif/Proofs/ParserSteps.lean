import Verif.Model.ParserSteps
import Verif.Proofs.Bound
import Verif.Proofs.BoundSlots
import Verif.Proofs.Lex

/-! # Bounds on the steps of the parser -/

namespace Verif.Njson
open Verif Verif.Spec

theorem space_steps {s : Bytes} : ∀ {pos pos' : Nat} {s' : Bytes}, skipSpace pos s = (pos', s') → spaceSteps s + s'.length = s.length + 1 := by
  induction s with
  | nil =>
    intro pos pos' s' h
    simp only [skipSpace, Prod.mk.injEq] at h
    obtain ⟨-, rfl⟩ := h
    rfl
  | cons c r ih =>
    intro pos pos' s' h
    unfold skipSpace at h
    unfold spaceSteps
    split at h
    · rename_i hc
      rw [if_pos hc]
      have := ih h
      simp only [List.length_cons]
      omega
    · rename_i hc
      rw [if_neg hc]
      cases h
      simp only [List.length_cons]
      omega

theorem quote_steps_le : ∀ (n : Nat) (s : Bytes), s.length ≤ n → quoteSteps s ≤ s.length + 1
  | 0, s, h => by
    have : s = [] := List.length_eq_zero_iff.1 (by omega)
    subst this; simp [quoteSteps]
  | n + 1, [], _ => by simp [quoteSteps]
  | n + 1, c :: r, h => by
    unfold quoteSteps
    simp only [List.length_cons] at h ⊢
    split
    · omega
    · split
      · cases r with
        | nil => simp
        | cons d r' =>
          have := quote_steps_le n r' (by simp only [List.length_cons] at h; omega)
          simp only [List.length_cons]
          omega
      · have := quote_steps_le n r (by omega)
        omega

theorem quote_steps : ∀ (n : Nat) (s : Bytes) (i j : Nat), s.length ≤ n → scanQuote s i = some j → i ≤ j ∧ j - i + 1 ≤ s.length ∧ quoteSteps s ≤ j - i + 1
  | 0, s, i, j, hn, h => by
    have : s = [] := List.length_eq_zero_iff.1 (by omega)
    subst this; simp [scanQuote] at h
  | n + 1, [], i, j, hn, h => by simp [scanQuote] at h
  | n + 1, c :: r, i, j, hn, h => by
    rw [scanQuote_cons] at h
    unfold quoteSteps
    simp only [List.length_cons] at hn ⊢
    split
    · rename_i hc
      rw [if_pos hc] at h
      cases h
      omega
    · rename_i hc
      rw [if_neg hc] at h
      split
      · rename_i hc2
        rw [if_pos hc2] at h
        cases r with
        | nil => cases h
        | cons d r' =>
          simp only [List.length_cons] at hn ⊢
          have := quote_steps n r' (i + 2) j (by omega) h
          omega
      · rename_i hc2
        rw [if_neg hc2] at h
        have := quote_steps n r (i + 1) j (by omega) h
        omega

theorem index_lt {s : Bytes} {i : Nat} (h : StrJson.indexByte s 34 = some i) : i < s.length := by
  unfold StrJson.indexByte at h
  rw [List.findIdx?_eq_some_iff_getElem] at h
  exact h.1

theorem string_steps_le (s : Bytes) : stringSteps s ≤ 2 * s.length + 2 := by
  unfold stringSteps indexSteps
  generalize hi : StrJson.indexByte s 34 = o
  match o with
  | none => simp only; omega
  | some 0 => have := index_lt hi; simp only; omega
  | some (i + 1) =>
    have := index_lt hi
    simp only
    split
    · have := quote_steps_le _ (s.drop (i + 2)) (Nat.le_refl _)
      rw [List.length_drop] at this
      omega
    · omega

theorem string_steps {s : Bytes} {k : Nat} (h : scanString s = some k) : k + 1 ≤ s.length ∧ stringSteps s ≤ 2 * k + 3 := by
  unfold scanString at h
  unfold stringSteps indexSteps
  generalize hi : StrJson.indexByte s 34 = o at h
  match o, h with
  | some 0, h => cases h; have := index_lt hi; simp only; omega
  | some (i + 1), h =>
    have := index_lt hi
    simp only at h ⊢
    split
    · rename_i hc
      rw [if_pos hc] at h
      have := quote_steps _ _ _ _ (Nat.le_refl _) h
      rw [List.length_drop] at this
      omega
    · rename_i hc
      rw [if_neg hc] at h
      cases h
      omega

/-- The children of all nodes of the array. -/
def P.kids (p : P) : Nat := (p.nodes.map fun n => n.values.len).sum

/-- What is saved for later: six for each node handed out, of which three pay for an element of the array; and the children that can be cleared. -/
def P.pot (p : P) : Nat := 6 * p.n - 3 * p.nodes.length + p.kids

theorem kids_le_pot (p : P) : p.kids ≤ p.pot := by unfold P.pot; omega

theorem sum_modify (f : NodeD → NodeD) : ∀ (l : List NodeD) (i : Nat), i < l.length →
    ((l.modify i f).map fun n => n.values.len).sum + (l.getD i NodeD.zero).values.len = (l.map fun n => n.values.len).sum + (f (l.getD i NodeD.zero)).values.len
  | [], i, h => absurd h (Nat.not_lt_zero _)
  | x :: l, 0, _ => by simp; omega
  | x :: l, i + 1, h => by
    have := sum_modify f l i (by simpa using h)
    simp only [List.modify_succ_cons, List.map_cons, List.sum_cons, List.getD_cons_succ] at this ⊢
    omega

theorem setNode_pot {p : P} {i : Nat} (f : NodeD → NodeD) (h : i < p.nodes.length) :
    (p.setNode i f).pot + (p.sl i).len = p.pot + (f (p.nodes.getD i NodeD.zero)).values.len := by
  have := sum_modify f p.nodes i h
  unfold P.pot P.kids P.setNode P.sl
  simp only [List.length_modify]
  omega

theorem node_pot {p p' : P} {id : Nat} (hp : p.n ≤ p.nodes.length) (h : p.node = (p', some id)) :
    p.nodeSteps + p'.pot ≤ p.pot + 7 ∧ p'.kids = p.kids ∧ id < p'.n ∧ p'.n ≤ p'.nodes.length := by
  unfold P.node at h
  unfold P.nodeSteps P.pot P.kids
  split at h
  · rename_i hlt
    cases h
    rw [if_pos hlt]
    refine ⟨?_, rfl, by simp, by simp; omega⟩
    simp only
    omega
  · rename_i hlt
    dsimp only at h
    split at h
    · cases h
      rw [if_neg hlt]
      refine ⟨?_, ?_, by simp, by simp; omega⟩
      · simp [NodeD.zero, Slice.nil]
        omega
      · simp [NodeD.zero, Slice.nil]
    · cases h

/-- How many steps a parser function takes that starts in state `p` with `rest` to read: at most twenty for each byte that it consumes, beyond what is
saved and `extra`. -/
def PRes.Timed (p : P) (rest : Bytes) (extra cost : Nat) : PRes → Prop
  | .ok p' _ rest' => cost + p'.pot + 20 * rest'.length ≤ p.pot + 20 * rest.length + extra
  | .err p' _ => cost + p'.kids ≤ p.pot + 20 * rest.length + 20 + extra
  | .crash => cost ≤ p.pot + 20 * rest.length + 20 + extra

theorem Timed.step {p q : P} {rest rest' : Bytes} {e e' c c' : Nat} {r : PRes} (h : PRes.Timed q rest' e' c' r)
    (hc : c + q.pot + 20 * rest'.length + e' ≤ p.pot + 20 * rest.length + e) : PRes.Timed p rest e (c + c') r := by
  cases r with
  | ok p' pos r =>
    unfold PRes.Timed at h ⊢
    omega
  | err p' er =>
    unfold PRes.Timed at h ⊢
    omega
  | crash =>
    unfold PRes.Timed at h ⊢
    omega

theorem PRes.Timed.cast {p : P} {rest : Bytes} {e c c' : Nat} {r : PRes} (h : PRes.Timed p rest e c r) (hc : c = c') : PRes.Timed p rest e c' r := hc ▸ h

theorem timed_err {p q : P} {rest : Bytes} {e c : Nat} {er : PErr} (hc : c + q.pot ≤ p.pot + 20 * rest.length + 20 + e) : PRes.Timed p rest e c (.err q er) := by
  have := kids_le_pot q
  unfold PRes.Timed
  omega

theorem scalar_timed {p : P} (hp : p.n ≤ p.nodes.length) {typ : Typ} {raw : Bytes} {pos : Nat} {rest : Bytes} :
    PRes.Timed p rest 8 p.scalarSteps (p.scalar typ raw pos rest) := by
  unfold P.scalar P.scalarSteps
  generalize hn : p.node = q
  obtain ⟨p', o⟩ := q
  cases o with
  | none =>
    exfalso
    unfold P.node at hn
    split at hn
    · cases hn
    · dsimp only at hn
      rw [if_pos (by simp; omega)] at hn
      cases hn
  | some i =>
    obtain ⟨h1, h2, h3, h4⟩ := node_pot hp hn
    obtain ⟨s1, s2, s3⟩ := node_sl hn
    unfold PRes.Timed
    simp only
    have e := setNode_pot (p := p') (i := i) (fun n => { typ := typ, root := false, raw := raw, values := ⟨n.values.zeroVis, 0⟩ }) (by omega)
    rw [s3 i, s1] at e
    simp only [P.sl, s1] at e ⊢
    omega

theorem literal_timed {p : P} (hp : p.n ≤ p.nodes.length) {typ : Typ} {lit : Bytes} {pos c : Nat} {rest s : Bytes}
    (hc : c + 20 * s.length + 8 ≤ 20 * rest.length + 19 * lit.length) (hc' : c + 1 ≤ 20 * rest.length + 20) :
    PRes.Timed p rest 0 (c + p.literalSteps lit s) (p.literal typ lit pos s) := by
  unfold P.literal P.literalSteps
  split
  · rename_i h
    split
    · rw [← Nat.add_assoc]
      refine Timed.step (scalar_timed hp) ?_
      rw [List.length_drop]
      omega
    · exact timed_err (by omega)
  · exact timed_err (by omega)

theorem appendV_steps (vs : List V) (key : Bytes) (n k : Nat) (h : k ≤ vs.length) :
    appendVSteps vs k + (6 * (k + 1) - 3 * (appendV vs key n k).length) ≤ 6 * k - 3 * vs.length + 7 ∧ k + 1 ≤ (appendV vs key n k).length := by
  rw [appendV_length _ _ _ _ h]
  unfold appendVSteps
  split <;> omega

theorem finish_len {nv : Slice} {vs : List V} {k : Nat} (h : k ≤ vs.length) : (finishValues nv vs k).len = k := by
  unfold finishValues
  split
  · rfl
  · split
    · rfl
    · simp only; omega

/-- The end of a container: the children are cleared that are no longer used. -/
theorem finish_pot {p : P} {id : Nat} {nv : Slice} {vs : List V} {k : Nat} (hid : id < p.nodes.length) (hnv : (p.sl id).len = nv.len) (hk : k ≤ vs.length) :
    nv.len - k + (p.setNode id (setValues (finishValues nv vs k))).pot ≤ p.pot + k := by
  have e := setNode_pot (setValues (finishValues nv vs k)) hid
  simp only [setValues, finish_len hk, hnv] at e
  omega

theorem empty_pot {p : P} {id : Nat} {nv : Slice} (hid : id < p.nodes.length) (hnv : (p.sl id).len = nv.len) :
    nv.len + (p.setNode id (setValues ⟨nv.zeroVis, 0⟩)).pot ≤ p.pot := by
  have e := setNode_pot (setValues ⟨nv.zeroVis, 0⟩) hid
  simp only [setValues, hnv] at e
  omega

/-- The state after the container's node has been made. -/
theorem container_pot {p p' : P} {id : Nat} (hp : p.n ≤ p.nodes.length) (hn : p.node = (p', some id)) (typ : Typ) :
    p.nodeSteps + (p'.setNode id (setContainer typ)).pot ≤ p.pot + 7 ∧
    id < (p'.setNode id (setContainer typ)).n ∧ (p'.setNode id (setContainer typ)).n ≤ (p'.setNode id (setContainer typ)).nodes.length ∧
    ((p'.setNode id (setContainer typ)).sl id).len = (p'.nodes.getD id NodeD.zero).values.len := by
  obtain ⟨h1, h2, h3, h4⟩ := node_pot hp hn
  have e := setNode_pot (setContainer typ) (p := p') (i := id) (by omega)
  simp only [setContainer, P.sl] at e
  refine ⟨by omega, h3, by simpa [P.setNode] using h4, ?_⟩
  rw [setNode_sl _ (by omega)]
  rfl

theorem timed_all : ∀ fuel : Nat,
    (∀ (p : P) (pos : Nat) (rest : Bytes), p.n ≤ p.nodes.length → PRes.Timed p rest 0 (valueSteps fuel p pos rest) (parseValue fuel p pos rest)) ∧
    (∀ (p : P) (id : Nat) (nv : Slice) (vs : List V) (k pos : Nat) (rest : Bytes), p.n ≤ p.nodes.length → id < p.n → k ≤ vs.length → (p.sl id).len = nv.len →
      PRes.Timed p rest (8 + (6 * k - 3 * vs.length) + k) (elemSteps fuel p id nv vs k pos rest) (parseElems fuel p id nv vs k pos rest)) ∧
    (∀ (p : P) (id : Nat) (nv : Slice) (vs : List V) (k pos : Nat) (rest : Bytes), p.n ≤ p.nodes.length → id < p.n → k ≤ vs.length → (p.sl id).len = nv.len →
      PRes.Timed p rest (8 + (6 * k - 3 * vs.length) + k) (memberSteps fuel p id nv vs k pos rest) (parseMembers fuel p id nv vs k pos rest)) := by
  intro fuel
  induction fuel with
  | zero =>
    refine ⟨fun p pos rest _ => ?_, fun p id nv vs k pos rest _ _ _ _ => ?_, fun p id nv vs k pos rest _ _ _ _ => ?_⟩
    · rw [parseValue, valueSteps]; exact Nat.zero_le _
    · rw [parseElems, elemSteps]; exact Nat.zero_le _
    · rw [parseMembers, memberSteps]; exact Nat.zero_le _
  | succ fuel ih =>
    obtain ⟨ihV, ihE, ihM⟩ := ih
    refine ⟨fun p pos rest hp => ?_, fun p id nv vs k pos rest hp hid hk hnv => ?_, fun p id nv vs k pos rest hp hid hk hnv => ?_⟩
    · rw [parseValue, valueSteps]
      generalize hs : skipSpace pos rest = q
      obtain ⟨pos1, rest1⟩ := q
      have hsp := space_steps hs
      cases rest1 with
      | nil =>
        simp only [List.length_nil] at hsp
        exact timed_err (by simp only; omega)
      | cons c r =>
        have hsl := skipSpace_len' hs
        simp only [List.length_cons] at hsp
        simp only
        by_cases h34 : c = 34
        · rw [if_pos h34, if_pos h34]
          match r with
          | [] => exact timed_err (by simp only; omega)
          | b :: r =>
            simp only
            generalize hq : scanString (b :: r) = o
            cases o with
            | none =>
              have := string_steps_le (b :: r)
              exact timed_err (by simp only; omega)
            | some i =>
              simp only
              obtain ⟨e1, e2⟩ := string_steps hq
              rw [← Nat.add_assoc]
              refine Timed.step (scalar_timed hp) ?_
              rw [List.length_drop]
              omega
        rw [if_neg h34, if_neg h34]
        by_cases h123 : c = 123
        · rw [if_pos h123, if_pos h123]
          generalize hn : p.node = q
          obtain ⟨p', o⟩ := q
          cases o with
          | none => exact (show _ ≤ _ by simp only; omega)
          | some id =>
            obtain ⟨g1, g2, g3, g4⟩ := container_pot hp hn tObject
            simp only
            generalize hs2 : skipSpace (pos1 + 1) r = q2
            obtain ⟨pos2, rest2⟩ := q2
            have hsp2 := space_steps hs2
            cases rest2 with
            | nil =>
              simp only [List.length_nil] at hsp2
              exact timed_err (by simp only; omega)
            | cons c2 r2 =>
              have hsl2 := skipSpace_len' hs2
              simp only [List.length_cons] at hsp2
              simp only
              by_cases h125 : c2 = 125
              · rw [if_pos h125, if_pos h125]
                have g5 := empty_pot (Nat.lt_of_lt_of_le g2 g3) g4
                unfold PRes.Timed
                simp only
                omega
              rw [if_neg h125, if_neg h125]
              by_cases h34' : c2 = 34
              · rw [if_pos h34', if_pos h34', ← Nat.add_assoc]
                refine Timed.step (ihM _ id _ _ 0 (pos2 + 1) r2 g3 g2 (Nat.zero_le _) g4) ?_
                omega
              · rw [if_neg h34', if_neg h34']
                exact timed_err (by omega)
        rw [if_neg h123, if_neg h123]
        by_cases h91 : c = 91
        · rw [if_pos h91, if_pos h91]
          generalize hn : p.node = q
          obtain ⟨p', o⟩ := q
          cases o with
          | none => exact (show _ ≤ _ by simp only; omega)
          | some id =>
            obtain ⟨g1, g2, g3, g4⟩ := container_pot hp hn tArray
            simp only
            generalize hs2 : skipSpace (pos1 + 1) r = q2
            obtain ⟨pos2, rest2⟩ := q2
            have hsp2 := space_steps hs2
            cases rest2 with
            | nil =>
              simp only [List.length_nil] at hsp2
              exact timed_err (by simp only; omega)
            | cons c2 r2 =>
              have hsl2 := skipSpace_len' hs2
              simp only [List.length_cons] at hsp2
              simp only
              by_cases h93 : c2 = 93
              · rw [if_pos h93, if_pos h93]
                have g5 := empty_pot (Nat.lt_of_lt_of_le g2 g3) g4
                unfold PRes.Timed
                simp only
                omega
              · rw [if_neg h93, if_neg h93, ← Nat.add_assoc]
                refine Timed.step (ihE _ id _ _ 0 pos2 (c2 :: r2) g3 g2 (Nat.zero_le _) g4) ?_
                simp only [List.length_cons]
                omega
        rw [if_neg h91, if_neg h91]
        have num : (isDigit c = true ∨ c = 45) → PRes.Timed p rest 0 (spaceSteps rest + 1 + (numberLen (c :: r) + 1 + p.scalarSteps))
            (p.scalar tNumber ((c :: r).take (numberLen (c :: r))) (pos1 + numberLen (c :: r)) ((c :: r).drop (numberLen (c :: r)))) := by
          intro hc
          have h1 := numberLen_pos (r := r) (number_first c hc)
          have h2 := (numberLen_sound (c :: r)).1
          rw [← Nat.add_assoc]
          refine Timed.step (scalar_timed hp) ?_
          rw [List.length_drop]
          simp only [List.length_cons] at h2 ⊢
          omega
        have lit : ∀ (typ : Typ) (l : Bytes), 1 ≤ l.length →
            PRes.Timed p rest 0 (spaceSteps rest + 1 + p.literalSteps l (c :: r)) (p.literal typ l pos1 (c :: r)) := by
          intro typ l hl
          refine literal_timed hp ?_ ?_ <;> (try simp only [List.length_cons]) <;> omega
        by_cases hdig : isDigit c = true
        · rw [if_pos hdig, if_pos hdig]
          exact num (.inl hdig)
        rw [if_neg hdig, if_neg hdig]
        by_cases h110 : c = 110
        · rw [if_pos h110, if_pos h110]
          exact lit _ _ (by decide)
        rw [if_neg h110, if_neg h110]
        by_cases h45 : c = 45
        · rw [if_pos h45, if_pos h45]
          exact num (.inr h45)
        rw [if_neg h45, if_neg h45]
        by_cases h102 : c = 102
        · rw [if_pos h102, if_pos h102]
          exact lit _ _ (by decide)
        rw [if_neg h102, if_neg h102]
        by_cases h116 : c = 116
        · rw [if_pos h116, if_pos h116]
          exact lit _ _ (by decide)
        rw [if_neg h116, if_neg h116]
        exact timed_err (by omega)
    · rw [parseElems, elemSteps]
      obtain ⟨a1, a2⟩ := appendV_steps vs [] p.n k hk
      have hv := ihV p pos rest hp
      have hb := (parse_bounded fuel).1 p pos rest hp
      have ho := (slots_all fuel).1 p pos rest hp
      generalize parseValue fuel p pos rest = res at hv hb ho ⊢
      cases res with
      | crash =>
        unfold PRes.Timed at hv ⊢
        simp only
        omega
      | err p' e =>
        unfold PRes.Timed at hv ⊢
        simp only
        omega
      | ok p' pos' rest' =>
        obtain ⟨-, b1, b2⟩ := hb
        have b0 : p.n ≤ p'.n := b1.1
        have b3 : ∀ i, i < p.n → p'.sl i = p.sl i := fun i hi => (ho i).old hi
        unfold PRes.Timed at hv
        simp only at hv ⊢
        generalize hs : skipSpace pos' rest' = q
        obtain ⟨pos1, rest1⟩ := q
        have hsp := space_steps hs
        cases rest1 with
        | nil =>
          simp only [List.length_nil] at hsp
          exact timed_err (by simp only; omega)
        | cons c r =>
          have hsl := skipSpace_len' hs
          simp only [List.length_cons] at hsp
          simp only
          by_cases h44 : c = 44
          · rw [if_pos h44, if_pos h44, ← Nat.add_assoc]
            refine Timed.step (ihE _ id nv _ (k + 1) (pos1 + 1) r b2 (by omega) a2 ((congrArg Slice.len (b3 id hid)).trans hnv)) ?_
            omega
          rw [if_neg h44, if_neg h44]
          by_cases h93 : c = 93
          · rw [if_pos h93, if_pos h93]
            unfold PRes.Timed
            simp only
            have := finish_pot (p := p') (id := id) (by omega) ((congrArg Slice.len (b3 id hid)).trans hnv) a2
            omega
          · rw [if_neg h93, if_neg h93]
            exact timed_err (by omega)
    · rw [parseMembers, memberSteps]
      generalize hq : scanQuote rest 0 = o
      cases o with
      | none =>
        have := quote_steps_le _ rest (Nat.le_refl _)
        exact timed_err (by simp only; omega)
      | some i =>
        obtain ⟨-, q1, q2⟩ := quote_steps _ _ _ _ (Nat.le_refl _) hq
        obtain ⟨a1, a2⟩ := appendV_steps vs (rest.take i) p.n k hk
        simp only
        generalize hs : skipSpace (pos + 1 + i) (rest.drop (i + 1)) = q
        obtain ⟨pos1, rest1⟩ := q
        have hsp := space_steps hs
        rw [List.length_drop] at hsp
        cases rest1 with
        | nil =>
          simp only [List.length_nil] at hsp
          exact timed_err (by simp only; omega)
        | cons c r =>
          have hsl := skipSpace_len' hs
          rw [List.length_drop] at hsl
          simp only [List.length_cons] at hsp
          simp only
          rcases Classical.em (¬ c = 58) with h58 | h58
          · rw [if_neg h58, if_neg h58]
            exact timed_err (by omega)
          have h58 := Classical.not_not.1 h58
          rw [if_pos h58, if_pos h58]
          have hv := ihV p (pos1 + 1) r hp
          have hb := (parse_bounded fuel).1 p (pos1 + 1) r hp
          have ho := (slots_all fuel).1 p (pos1 + 1) r hp
          generalize parseValue fuel p (pos1 + 1) r = res at hv hb ho ⊢
          cases res with
          | crash =>
            unfold PRes.Timed at hv ⊢
            simp only
            omega
          | err p' e =>
            unfold PRes.Timed at hv ⊢
            simp only
            omega
          | ok p' pos' rest' =>
            obtain ⟨-, b1, b2⟩ := hb
            have b0 : p.n ≤ p'.n := b1.1
            have b3 : ∀ i, i < p.n → p'.sl i = p.sl i := fun i hi => (ho i).old hi
            unfold PRes.Timed at hv
            simp only at hv ⊢
            generalize hs2 : skipSpace pos' rest' = q
            obtain ⟨pos2, rest2⟩ := q
            have hsp2 := space_steps hs2
            cases rest2 with
            | nil =>
              simp only [List.length_nil] at hsp2
              exact timed_err (by simp only; omega)
            | cons c2 r2 =>
              have hsl2 := skipSpace_len' hs2
              simp only [List.length_cons] at hsp2
              simp only
              by_cases h44 : c2 = 44
              · rw [if_pos h44, if_pos h44]
                generalize hs3 : skipSpace (pos2 + 1) r2 = q
                obtain ⟨pos3, rest3⟩ := q
                have hsp3 := space_steps hs3
                cases rest3 with
                | nil =>
                  simp only [List.length_nil] at hsp3
                  exact timed_err (by simp only; omega)
                | cons c3 r3 =>
                  have hsl3 := skipSpace_len' hs3
                  simp only [List.length_cons] at hsp3
                  simp only
                  by_cases h34 : c3 = 34
                  · rw [if_pos h34, if_pos h34]
                    have := ihM _ id nv _ (k + 1) (pos3 + 1) r3 b2 (by omega) a2 ((congrArg Slice.len (b3 id hid)).trans hnv)
                    refine PRes.Timed.cast (Timed.step (c := quoteSteps rest + appendVSteps vs k + spaceSteps (rest.drop (i + 1)) + valueSteps fuel p (pos1 + 1) r + spaceSteps rest' + spaceSteps r2) this ?_) (by omega)
                    omega
                  · rw [if_neg h34, if_neg h34]
                    exact timed_err (by omega)
              rw [if_neg h44, if_neg h44]
              by_cases h125 : c2 = 125
              · rw [if_pos h125, if_pos h125]
                unfold PRes.Timed
                simp only
                have := finish_pot (p := p') (id := id) (by omega) ((congrArg Slice.len (b3 id hid)).trans hnv) a2
                omega
              · rw [if_neg h125, if_neg h125]
                exact timed_err (by omega)

/-! ## No byte is skipped for free -/

/-- Two bytes for each step, at most. -/
def PRes.Took (rest : Bytes) (cost : Nat) : PRes → Prop
  | .ok _ _ rest' => rest.length ≤ rest'.length + 2 * cost
  | _ => True

theorem took_scalar {p : P} {typ : Typ} {raw : Bytes} {pos c : Nat} {rest rest' : Bytes} (h : rest.length ≤ rest'.length + 2 * c) :
    PRes.Took rest c (p.scalar typ raw pos rest') := by
  unfold P.scalar
  split
  · trivial
  · exact h

theorem took_literal {p : P} {typ : Typ} {lit : Bytes} {pos c : Nat} {rest s : Bytes} (h : rest.length ≤ s.length + 2 * c) :
    PRes.Took rest (c + p.literalSteps lit s) (p.literal typ lit pos s) := by
  unfold P.literal P.literalSteps
  split
  · split
    · refine took_scalar ?_
      rw [List.length_drop]
      omega
    · trivial
  · trivial

theorem quote_steps_ge : ∀ (n : Nat) (s : Bytes) (i j : Nat), s.length ≤ n → scanQuote s i = some j → j - i + 1 ≤ 2 * quoteSteps s
  | 0, s, i, j, hn, h => by
    have : s = [] := List.length_eq_zero_iff.1 (by omega)
    subst this; simp [scanQuote] at h
  | n + 1, [], i, j, hn, h => by simp [scanQuote] at h
  | n + 1, c :: r, i, j, hn, h => by
    rw [scanQuote_cons] at h
    unfold quoteSteps
    simp only [List.length_cons] at hn ⊢
    split
    · rename_i hc
      rw [if_pos hc] at h
      cases h
      omega
    · rename_i hc
      rw [if_neg hc] at h
      split
      · rename_i hc2
        rw [if_pos hc2] at h
        cases r with
        | nil => cases h
        | cons d r' =>
          simp only [List.length_cons] at hn ⊢
          have := quote_steps_ge n r' (i + 2) j (by omega) h
          omega
      · rename_i hc2
        rw [if_neg hc2] at h
        have := quote_steps_ge n r (i + 1) j (by omega) h
        omega

theorem string_steps_ge {s : Bytes} {k : Nat} (h : scanString s = some k) : k + 1 ≤ 2 * stringSteps s := by
  unfold scanString at h
  unfold stringSteps indexSteps
  generalize hi : StrJson.indexByte s 34 = o at h
  match o, h with
  | some 0, h => cases h; simp only; omega
  | some (i + 1), h =>
    simp only at h ⊢
    split
    · rename_i hc
      rw [if_pos hc] at h
      have := quote_steps_ge _ _ _ _ (Nat.le_refl _) h
      have := quote_steps _ _ _ _ (Nat.le_refl _) h
      omega
    · rename_i hc
      rw [if_neg hc] at h
      cases h
      omega

theorem took_all : ∀ fuel : Nat,
    (∀ (p : P) (pos : Nat) (rest : Bytes), PRes.Took rest (valueSteps fuel p pos rest) (parseValue fuel p pos rest)) ∧
    (∀ (p : P) (id : Nat) (nv : Slice) (vs : List V) (k pos : Nat) (rest : Bytes),
      PRes.Took rest (elemSteps fuel p id nv vs k pos rest) (parseElems fuel p id nv vs k pos rest)) ∧
    (∀ (p : P) (id : Nat) (nv : Slice) (vs : List V) (k pos : Nat) (rest : Bytes),
      PRes.Took rest (memberSteps fuel p id nv vs k pos rest) (parseMembers fuel p id nv vs k pos rest)) := by
  intro fuel
  induction fuel with
  | zero =>
    refine ⟨fun p pos rest => ?_, fun p id nv vs k pos rest => ?_, fun p id nv vs k pos rest => ?_⟩
    · rw [parseValue]; trivial
    · rw [parseElems]; trivial
    · rw [parseMembers]; trivial
  | succ fuel ih =>
    obtain ⟨ihV, ihE, ihM⟩ := ih
    refine ⟨fun p pos rest => ?_, fun p id nv vs k pos rest => ?_, fun p id nv vs k pos rest => ?_⟩
    · rw [parseValue, valueSteps]
      generalize hs : skipSpace pos rest = q
      obtain ⟨pos1, rest1⟩ := q
      have hsp := space_steps hs
      cases rest1 with
      | nil => trivial
      | cons c r =>
        simp only [List.length_cons] at hsp
        simp only
        by_cases h34 : c = 34
        · rw [if_pos h34, if_pos h34]
          match r with
          | [] => trivial
          | b :: r =>
            simp only
            generalize hq : scanString (b :: r) = o
            cases o with
            | none => trivial
            | some i =>
              simp only
              have := string_steps_ge hq
              refine took_scalar ?_
              rw [List.length_drop]
              omega
        rw [if_neg h34, if_neg h34]
        by_cases h123 : c = 123
        · rw [if_pos h123, if_pos h123]
          generalize hn : p.node = q
          obtain ⟨p', o⟩ := q
          cases o with
          | none => trivial
          | some id =>
            simp only
            generalize hs2 : skipSpace (pos1 + 1) r = q2
            obtain ⟨pos2, rest2⟩ := q2
            have hsp2 := space_steps hs2
            cases rest2 with
            | nil => trivial
            | cons c2 r2 =>
              simp only [List.length_cons] at hsp2
              simp only
              by_cases h125 : c2 = 125
              · rw [if_pos h125, if_pos h125]
                unfold PRes.Took
                simp only
                omega
              rw [if_neg h125, if_neg h125]
              by_cases h34' : c2 = 34
              · rw [if_pos h34', if_pos h34']
                have := ihM (p'.setNode id (setContainer tObject)) id (p'.nodes.getD id NodeD.zero).values (p'.nodes.getD id NodeD.zero).values.arr 0 (pos2 + 1) r2
                revert this
                generalize parseMembers fuel (p'.setNode id (setContainer tObject)) id (p'.nodes.getD id NodeD.zero).values (p'.nodes.getD id NodeD.zero).values.arr 0 (pos2 + 1) r2 = res
                intro this
                cases res with
                | ok => unfold PRes.Took at this ⊢; simp only at this ⊢; omega
                | err => trivial
                | crash => trivial
              · rw [if_neg h34', if_neg h34']
                trivial
        rw [if_neg h123, if_neg h123]
        by_cases h91 : c = 91
        · rw [if_pos h91, if_pos h91]
          generalize hn : p.node = q
          obtain ⟨p', o⟩ := q
          cases o with
          | none => trivial
          | some id =>
            simp only
            generalize hs2 : skipSpace (pos1 + 1) r = q2
            obtain ⟨pos2, rest2⟩ := q2
            have hsp2 := space_steps hs2
            cases rest2 with
            | nil => trivial
            | cons c2 r2 =>
              simp only [List.length_cons] at hsp2
              simp only
              by_cases h93 : c2 = 93
              · rw [if_pos h93, if_pos h93]
                unfold PRes.Took
                simp only
                omega
              · rw [if_neg h93, if_neg h93]
                have := ihE (p'.setNode id (setContainer tArray)) id (p'.nodes.getD id NodeD.zero).values (p'.nodes.getD id NodeD.zero).values.arr 0 pos2 (c2 :: r2)
                revert this
                generalize parseElems fuel (p'.setNode id (setContainer tArray)) id (p'.nodes.getD id NodeD.zero).values (p'.nodes.getD id NodeD.zero).values.arr 0 pos2 (c2 :: r2) = res
                intro this
                cases res with
                | ok => unfold PRes.Took at this ⊢; simp only [List.length_cons] at this ⊢; omega
                | err => trivial
                | crash => trivial
        rw [if_neg h91, if_neg h91]
        have num : PRes.Took rest (spaceSteps rest + 1 + (numberLen (c :: r) + 1 + p.scalarSteps))
            (p.scalar tNumber ((c :: r).take (numberLen (c :: r))) (pos1 + numberLen (c :: r)) ((c :: r).drop (numberLen (c :: r)))) := by
          refine took_scalar ?_
          rw [List.length_drop]
          simp only [List.length_cons]
          omega
        have lit : ∀ (typ : Typ) (l : Bytes),
            PRes.Took rest (spaceSteps rest + 1 + p.literalSteps l (c :: r)) (p.literal typ l pos1 (c :: r)) := by
          intro typ l
          refine took_literal ?_
          simp only [List.length_cons]
          omega
        by_cases hdig : isDigit c = true
        · rw [if_pos hdig, if_pos hdig]
          exact num
        rw [if_neg hdig, if_neg hdig]
        by_cases h110 : c = 110
        · rw [if_pos h110, if_pos h110]
          exact lit _ _
        rw [if_neg h110, if_neg h110]
        by_cases h45 : c = 45
        · rw [if_pos h45, if_pos h45]
          exact num
        rw [if_neg h45, if_neg h45]
        by_cases h102 : c = 102
        · rw [if_pos h102, if_pos h102]
          exact lit _ _
        rw [if_neg h102, if_neg h102]
        by_cases h116 : c = 116
        · rw [if_pos h116, if_pos h116]
          exact lit _ _
        rw [if_neg h116, if_neg h116]
        trivial
    · rw [parseElems, elemSteps]
      have hv := ihV p pos rest
      generalize parseValue fuel p pos rest = res at hv ⊢
      cases res with
      | crash => trivial
      | err p' e => trivial
      | ok p' pos' rest' =>
        unfold PRes.Took at hv
        simp only at hv ⊢
        generalize hs : skipSpace pos' rest' = q
        obtain ⟨pos1, rest1⟩ := q
        have hsp := space_steps hs
        cases rest1 with
        | nil => trivial
        | cons c r =>
          simp only [List.length_cons] at hsp
          simp only
          by_cases h44 : c = 44
          · rw [if_pos h44, if_pos h44]
            have := ihE p' id nv (appendV vs [] p.n k) (k + 1) (pos1 + 1) r
            revert this
            generalize parseElems fuel p' id nv (appendV vs [] p.n k) (k + 1) (pos1 + 1) r = res
            intro this
            cases res with
            | ok => unfold PRes.Took at this ⊢; simp only at this ⊢; omega
            | err => trivial
            | crash => trivial
          rw [if_neg h44, if_neg h44]
          by_cases h93 : c = 93
          · rw [if_pos h93, if_pos h93]
            unfold PRes.Took
            simp only
            omega
          · rw [if_neg h93, if_neg h93]
            trivial
    · rw [parseMembers, memberSteps]
      generalize hq : scanQuote rest 0 = o
      cases o with
      | none => trivial
      | some i =>
        have q2 := quote_steps_ge _ _ _ _ (Nat.le_refl _) hq
        simp only
        generalize hs : skipSpace (pos + 1 + i) (rest.drop (i + 1)) = q
        obtain ⟨pos1, rest1⟩ := q
        have hsp := space_steps hs
        rw [List.length_drop] at hsp
        cases rest1 with
        | nil => trivial
        | cons c r =>
          simp only [List.length_cons] at hsp
          simp only
          rcases Classical.em (¬ c = 58) with h58 | h58
          · rw [if_neg h58, if_neg h58]
            trivial
          have h58 := Classical.not_not.1 h58
          rw [if_pos h58, if_pos h58]
          have hv := ihV p (pos1 + 1) r
          generalize parseValue fuel p (pos1 + 1) r = res at hv ⊢
          cases res with
          | crash => trivial
          | err p' e => trivial
          | ok p' pos' rest' =>
            unfold PRes.Took at hv
            simp only at hv ⊢
            generalize hs2 : skipSpace pos' rest' = q
            obtain ⟨pos2, rest2⟩ := q
            have hsp2 := space_steps hs2
            cases rest2 with
            | nil => trivial
            | cons c2 r2 =>
              simp only [List.length_cons] at hsp2
              simp only
              by_cases h44 : c2 = 44
              · rw [if_pos h44, if_pos h44]
                generalize hs3 : skipSpace (pos2 + 1) r2 = q
                obtain ⟨pos3, rest3⟩ := q
                have hsp3 := space_steps hs3
                cases rest3 with
                | nil => trivial
                | cons c3 r3 =>
                  simp only [List.length_cons] at hsp3
                  simp only
                  by_cases h34 : c3 = 34
                  · rw [if_pos h34, if_pos h34]
                    have := ihM p' id nv (appendV vs (rest.take i) p.n k) (k + 1) (pos3 + 1) r3
                    revert this
                    generalize parseMembers fuel p' id nv (appendV vs (rest.take i) p.n k) (k + 1) (pos3 + 1) r3 = res
                    intro this
                    cases res with
                    | ok => unfold PRes.Took at this ⊢; simp only at this ⊢; omega
                    | err => trivial
                    | crash => trivial
                  · rw [if_neg h34, if_neg h34]
                    trivial
              rw [if_neg h44, if_neg h44]
              by_cases h125 : c2 = 125
              · rw [if_pos h125, if_pos h125]
                unfold PRes.Took
                simp only
                omega
              · rw [if_neg h125, if_neg h125]
                trivial

end Verif.Njson
