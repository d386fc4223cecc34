import Verif.Proofs.Lex
import Verif.Spec.Tree

/-!
The tree parser and the grammar: soundness, error positions, completion of truncated input and fuel in one
walk (`spec_all`); then completeness, fuel independence and stability under extension of the input.
-/

namespace Verif.Njson
open Verif Verif.Spec

abbrev LElems := GElems LenientStr EscBody LenientNum
abbrev LMembers := GMembers LenientStr EscBody LenientNum

theorem BadEnd.prepend {typ : Typ} {s : Bytes} (h : BadEnd typ s) (p : Bytes) : BadEnd typ (p ++ s) := by
  obtain ⟨pre, c, q, lit, rfl, h⟩ := h
  exact ⟨p ++ pre, c, q, lit, by simp, h⟩

theorem numFollow_delim {t : JVal} {w r : Bytes} {c : UInt8} (hw : IsWs w) (hc : c = 44 ∨ c = 93 ∨ c = 125) :
    NumFollow t (w ++ c :: r) := by
  cases t <;> try exact trivial
  right
  cases w with
  | nil => exact ⟨c, r, rfl, by rcases hc with rfl | rfl | rfl <;> simp [NumberEnd]⟩
  | cons b w =>
    refine ⟨b, w ++ c :: r, rfl, ?_⟩
    have := hw b (by simp)
    unfold NumberEnd
    rcases this with h | h | h | h <;> simp [h]

/-! ## soundness, errors, fuel -/

def SpecVal (fuel pos : Nat) (rest : Bytes) : TR JVal → Prop
  | .ok t pos' rest' => ∃ w v, rest = w ++ v ++ rest' ∧ IsWs w ∧ LenientValue v t ∧ NumFollow t rest' ∧
      pos' = pos + w.length + v.length ∧ v ≠ []
  | .err (.abort p _ _ _) => pos ≤ p ∧ p < pos + rest.length
  | .err (.eof a) => BadEnd a rest ∨ ∃ x w v t, rest ++ x = w ++ v ∧ IsWs w ∧ LenientValue v t ∧ ∀ r, NumFollow t r
  | .crash => fuel ≤ 2 * rest.length

def SpecElems (fuel pos : Nat) (rest : Bytes) : TR (List JVal) → Prop
  | .ok xs pos' rest' => ∃ w body, rest = w ++ body ++ 93 :: rest' ∧ IsWs w ∧ LElems body xs ∧
      pos' = pos + w.length + body.length + 1
  | .err (.abort p _ _ _) => pos ≤ p ∧ p < pos + rest.length
  | .err (.eof a) => BadEnd a rest ∨ ∃ x w body xs, rest ++ x = w ++ body ++ [93] ∧ IsWs w ∧ LElems body xs
  | .crash => fuel ≤ 2 * rest.length + 1

def SpecMembers (fuel pos : Nat) (key : Bytes) : TR (List (Bytes × JVal)) → Prop
  | .ok ms pos' rest' => ∃ body, key = body ++ 125 :: rest' ∧ LMembers (34 :: body) ms ∧ pos' = pos + body.length + 1
  | .err (.abort p _ _ _) => pos ≤ p ∧ p < pos + key.length
  | .err (.eof a) => BadEnd a key ∨ ∃ x body ms, key ++ x = body ++ [125] ∧ LMembers (34 :: body) ms
  | .crash => fuel ≤ 2 * key.length + 1

theorem prefix_of_take {s lit : Bytes} (h : s.take lit.length = lit) : s = lit ++ s.drop lit.length := by
  conv => lhs; rw [← List.take_append_drop lit.length s]
  rw [h]

theorem spec_literal {fuel pos : Nat} {w : Bytes} {c : UInt8} {r : Bytes} (t : JVal) (typ : Typ) (lit : Bytes)
    (hw : IsWs w) (hg : LenientValue lit t) (hn : ∀ r, NumFollow t r) (hne : lit ≠ [])
    (hl : (typ = tNull ∧ lit = b!"null") ∨ (typ = tBoolean ∧ (lit = b!"true" ∨ lit = b!"false"))) (hh : lit.head? = some c) :
    SpecVal fuel pos (w ++ c :: r) (tLiteral t typ lit (pos + w.length) (c :: r)) := by
  unfold tLiteral
  split
  · rename_i hle
    split
    · rename_i he
      refine ⟨w, lit, ?_, hw, hg, hn _, rfl, hne⟩
      rw [List.append_assoc, ← prefix_of_take he]
    · refine ⟨by omega, ?_⟩
      rw [List.length_append, List.length_cons]
      omega
  · rename_i hlt
    by_cases hp : (c :: r) <+: lit
    · obtain ⟨x, hx⟩ := hp
      exact Or.inr ⟨x, w, lit, t, by rw [List.append_assoc, hx], hw, hg, hn⟩
    · exact Or.inl ⟨w, c, r, lit, rfl, hl, hh, by omega, hp⟩

theorem spec_number {fuel pos : Nat} {w : Bytes} {c : UInt8} {r : Bytes} (hw : IsWs w) (hc : IsDigitByte c ∨ c = 45) :
    SpecVal fuel pos (w ++ c :: r) (.ok (.num ((c :: r).take (numberLen (c :: r))))
      (pos + w.length + numberLen (c :: r)) ((c :: r).drop (numberLen (c :: r)))) := by
  obtain ⟨h1, h2, h3⟩ := numberLen_sound (c :: r)
  have hce : isNumberEnd c = false := by
    cases he : isNumberEnd c
    · rfl
    · have := (isNumberEnd_iff c).1 he
      rcases hc with hc | hc
      · unfold IsDigitByte at hc
        rcases this with h | h | h | h | h | h | h <;> subst h <;> simp at hc
      · subst hc; simp at this
  have hpos : numberLen (c :: r) = numberLen r + 1 := by simp [numberLen, hce]
  refine ⟨w, (c :: r).take (numberLen (c :: r)), ?_, hw, .num ⟨⟨c, r.take (numberLen r), by rw [hpos]; rfl, hc⟩, h2⟩, h3, ?_, ?_⟩
  · rw [List.append_assoc, List.take_append_drop]
  · rw [List.length_take]; omega
  · rw [hpos]; simp

theorem spec_all (fuel : Nat) :
    (∀ pos rest, SpecVal fuel pos rest (tVal fuel pos rest)) ∧
    (∀ pos rest, SpecElems fuel pos rest (tElems fuel pos rest)) ∧
    (∀ pos key, SpecMembers fuel pos key (tMembers fuel pos key)) := by
  induction fuel with
  | zero =>
    refine ⟨fun pos rest => ?_, fun pos rest => ?_, fun pos rest => ?_⟩
    · simp [tVal, SpecVal]
    · simp [tElems, SpecElems]
    · simp [tMembers, SpecMembers]
  | succ fuel ih =>
    obtain ⟨ihV, ihE, ihM⟩ := ih
    refine ⟨fun pos rest => ?_, fun pos rest => ?_, fun pos key => ?_⟩
    · -- value
      unfold tVal
      cases hsk : skipSpace pos rest with
      | mk pos1 rest1 =>
      obtain ⟨w, rfl, hw, rfl, hsp⟩ := skipSpace_sound hsk
      clear hsk
      match rest1 with
      | [] =>
        refine Or.inr ⟨b!"null", w, b!"null", .null, by simp, hw, .null, fun _ => trivial⟩
      | c :: r =>
        simp only
        split
        · rename_i hc; subst hc
          match r with
          | [] =>
            exact Or.inr ⟨[34], w, [34] ++ [] ++ [34], .str [], by simp, hw, .str (Or.inl ⟨by simp, by simp⟩), fun _ => trivial⟩
          | c' :: r' =>
            simp only
            generalize c' :: r' = r
            cases hs : scanString r with
            | none =>
              obtain ⟨x, raw, he, hraw⟩ := scanString_none hs
              exact Or.inr ⟨x, w, [34] ++ raw ++ [34], .str raw, by simp [he], hw, .str hraw, fun _ => trivial⟩
            | some j =>
              obtain ⟨raw, r', rfl, hraw, rfl⟩ := scanString_sound hs
              simp only
              rw [List.take_left, show raw ++ 34 :: r' = (raw ++ [34]) ++ r' by simp, List.drop_left' (by simp)]
              exact ⟨w, [34] ++ raw ++ [34], by simp, hw, .str hraw, trivial, by simp; omega, by simp⟩
        · split
          · rename_i hc; subst hc
            cases hsk : skipSpace (pos + w.length + 1) r with
            | mk pos2 rest2 =>
            obtain ⟨w2, rfl, hw2, rfl, hsp2⟩ := skipSpace_sound hsk
            clear hsk
            match rest2 with
            | [] =>
              exact Or.inr ⟨[125], w, [123] ++ w2 ++ [125], .obj [], by simp, hw, .obj0 hw2, fun _ => trivial⟩
            | c :: r =>
              simp only
              split
              · rename_i hc; subst hc
                exact ⟨w, [123] ++ w2 ++ [125], by simp, hw, .obj0 hw2, trivial, by simp; omega, by simp⟩
              · split
                · rename_i hc; subst hc
                  have := ihM (pos + w.length + 1 + w2.length + 1) r
                  revert this
                  generalize tMembers fuel (pos + w.length + 1 + w2.length + 1) r = tr
                  intro this
                  match tr, this with
                  | .crash, this =>
                    simp only [SpecMembers] at this
                    simp only [SpecVal, List.length_append, List.length_cons]
                    omega
                  | .err (.abort p _ _ _), this =>
                    simp only [SpecMembers] at this
                    simp only [SpecVal, List.length_append, List.length_cons]
                    omega
                  | .err (.eof _), this =>
                    rcases this with hb | ⟨x, body, ms, he, hm⟩
                    · left
                      rw [show w ++ 123 :: (w2 ++ 34 :: r) = (w ++ 123 :: (w2 ++ [34])) ++ r by simp]
                      exact hb.prepend _
                    · exact Or.inr ⟨x, w, [123] ++ w2 ++ (34 :: body) ++ [125], .obj ms, by simp [he], hw,
                        .obj hw2 hm, fun _ => trivial⟩
                  | .ok ms pos' rest', this =>
                    obtain ⟨body, rfl, hm, rfl⟩ := this
                    exact ⟨w, [123] ++ w2 ++ (34 :: body) ++ [125], by simp, hw, .obj hw2 hm, trivial,
                      by simp; omega, by simp⟩
                · simp only [SpecVal, List.length_append, List.length_cons]; omega
          · split
            · rename_i hc; subst hc
              cases hsk : skipSpace (pos + w.length + 1) r with
              | mk pos2 rest2 =>
              obtain ⟨w2, rfl, hw2, rfl, hsp2⟩ := skipSpace_sound hsk
              clear hsk
              match rest2 with
              | [] =>
                exact Or.inr ⟨[93], w, [91] ++ w2 ++ [93], .arr [], by simp, hw, .arr0 hw2, fun _ => trivial⟩
              | c :: r =>
                simp only
                split
                · rename_i hc; subst hc
                  exact ⟨w, [91] ++ w2 ++ [93], by simp, hw, .arr0 hw2, trivial, by simp; omega, by simp⟩
                · have := ihE (pos + w.length + 1 + w2.length) (c :: r)
                  revert this
                  generalize tElems fuel (pos + w.length + 1 + w2.length) (c :: r) = tr
                  intro this
                  match tr, this with
                  | .crash, this =>
                    simp only [SpecElems, List.length_cons] at this
                    simp only [SpecVal, List.length_append, List.length_cons]
                    omega
                  | .err (.abort p _ _ _), this =>
                    simp only [SpecElems, List.length_cons] at this
                    simp only [SpecVal, List.length_append, List.length_cons]
                    omega
                  | .err (.eof _), this =>
                    rcases this with hb | ⟨x, w3, body, xs, he, hw3, hm⟩
                    · left
                      rw [show w ++ 91 :: (w2 ++ c :: r) = (w ++ 91 :: w2) ++ c :: r by simp]
                      exact hb.prepend _
                    · refine Or.inr ⟨x, w, [91] ++ (w2 ++ w3) ++ body ++ [93], .arr xs, ?_, hw,
                        .arr (IsWs.append hw2 hw3) hm, fun _ => trivial⟩
                      have : c :: (r ++ x) = w3 ++ body ++ [93] := by rw [← he]; simp
                      simp [this]
                  | .ok xs pos' rest', this =>
                    obtain ⟨w3, body, he, hw3, hm, rfl⟩ := this
                    refine ⟨w, [91] ++ (w2 ++ w3) ++ body ++ [93], by simp [he], hw, .arr (IsWs.append hw2 hw3) hm, trivial,
                      by simp; omega, by simp⟩
            · split
              · rename_i hc
                exact spec_number hw (Or.inl ((isDigit_iff c).1 hc))
              · split
                · rename_i hc; subst hc
                  exact spec_literal _ _ _ hw .null (fun _ => trivial) (by simp [strNull]) (Or.inl ⟨rfl, rfl⟩) rfl
                · split
                  · rename_i hc
                    exact spec_number hw (Or.inr hc)
                  · split
                    · rename_i hc; subst hc
                      exact spec_literal _ _ _ hw .false (fun _ => trivial) (by simp [strFalse]) (Or.inr ⟨rfl, Or.inr rfl⟩) rfl
                    · split
                      · rename_i hc; subst hc
                        exact spec_literal _ _ _ hw .true (fun _ => trivial) (by simp [strTrue]) (Or.inr ⟨rfl, Or.inl rfl⟩) rfl
                      · simp only [SpecVal, List.length_append, List.length_cons]; omega
    · -- elements
      unfold tElems
      have := ihV pos rest
      revert this
      generalize tVal fuel pos rest = tr
      intro this
      match tr, this with
      | .crash, this =>
        simp only [SpecVal] at this
        simp only [SpecElems]
        omega
      | .err (.abort p _ _ _), this => exact this
      | .err (.eof _), this =>
        rcases this with hb | ⟨x, w, v, t, he, hw, hv, hn⟩
        · exact Or.inl hb
        · exact Or.inr ⟨x ++ [93], w, v ++ [], [t], by rw [← List.append_assoc, he]; simp, hw, .one hv IsWs.nil⟩
      | .ok x pos1 rest1, this =>
        obtain ⟨w, v, rfl, hw, hv, hn, rfl, hvne⟩ := this
        have hvpos : 0 < v.length := List.length_pos_iff.2 hvne
        simp only
        cases hsk : skipSpace (pos + w.length + v.length) rest1 with
        | mk pos2 rest2 =>
        obtain ⟨w2, rfl, hw2, rfl, hsp2⟩ := skipSpace_sound hsk
        clear hsk
        match rest2 with
        | [] => exact Or.inr ⟨[93], w, v ++ w2, [x], by simp, hw, .one hv hw2⟩
        | c :: r =>
          simp only
          split
          · rename_i hc; subst hc
            have := ihE (pos + w.length + v.length + w2.length + 1) r
            revert this
            generalize tElems fuel (pos + w.length + v.length + w2.length + 1) r = tr
            intro this
            match tr, this with
            | .crash, this =>
              simp only [SpecElems] at this
              simp only [SpecElems, List.length_append, List.length_cons]
              omega
            | .err (.abort p _ _ _), this =>
              simp only [SpecElems] at this
              simp only [SpecElems, List.length_append, List.length_cons]
              omega
            | .err (.eof _), this =>
              rcases this with hb | ⟨y, w3, body, xs, he, hw3, hm⟩
              · left
                rw [show w ++ v ++ (w2 ++ 44 :: r) = (w ++ v ++ (w2 ++ [44])) ++ r by simp]
                exact hb.prepend _
              · exact Or.inr ⟨y, w, v ++ w2 ++ [44] ++ w3 ++ body, x :: xs, by simp [he], hw, .cons hv hw2 hw3 hm⟩
            | .ok xs pos' rest', this =>
              obtain ⟨w3, body, rfl, hw3, hm, rfl⟩ := this
              exact ⟨w, v ++ w2 ++ [44] ++ w3 ++ body, by simp, hw, .cons hv hw2 hw3 hm, by simp; omega⟩
          · split
            · rename_i hc; subst hc
              exact ⟨w, v ++ w2, by simp, hw, .one hv hw2, by simp; omega⟩
            · simp only [SpecElems, List.length_append, List.length_cons]; omega
    · -- members
      unfold tMembers
      cases hsq : scanQuote key 0 with
      | none =>
        obtain ⟨x, q, he, hq⟩ := scanQuote_none _ _ _ (Nat.le_refl _) hsq
        refine Or.inr ⟨x ++ b!":null}", q ++ [34] ++ [] ++ [58] ++ [] ++ b!"null" ++ [], [(q, .null)], ?_, ?_⟩
        · rw [← List.append_assoc, he]; simp
        · have : LMembers ([34] ++ q ++ [34] ++ [] ++ [58] ++ [] ++ b!"null" ++ []) [(q, .null)] :=
            .one hq IsWs.nil IsWs.nil .null IsWs.nil
          simpa using this
      | some i =>
        obtain ⟨q, r, rfl, hq, rfl⟩ := scanQuote_sound _ _ _ _ (Nat.le_refl _) hsq
        simp only [Nat.zero_add]
        rw [List.take_left, show q ++ 34 :: r = (q ++ [34]) ++ r by simp, List.drop_left' (by simp)]
        cases hsk : skipSpace (pos + 1 + q.length) r with
        | mk pos1 rest1 =>
        obtain ⟨w1, rfl, hw1, rfl, hsp1⟩ := skipSpace_sound hsk
        clear hsk
        match rest1 with
        | [] =>
          refine Or.inr ⟨b!":null}", q ++ [34] ++ w1 ++ [58] ++ [] ++ b!"null" ++ [], [(q, .null)], by simp, ?_⟩
          have : LMembers ([34] ++ q ++ [34] ++ w1 ++ [58] ++ [] ++ b!"null" ++ []) [(q, .null)] :=
            .one hq hw1 IsWs.nil .null IsWs.nil
          simpa using this
        | c :: r =>
          simp only
          split
          · rename_i hc; subst hc
            have := ihV (pos + 1 + q.length + w1.length + 1) r
            revert this
            generalize tVal fuel (pos + 1 + q.length + w1.length + 1) r = tr
            intro this
            match tr, this with
            | .crash, this =>
              simp only [SpecVal] at this
              simp only [SpecMembers, List.length_append, List.length_cons]
              omega
            | .err (.abort p _ _ _), this =>
              simp only [SpecVal] at this
              simp only [SpecMembers, List.length_append, List.length_cons]
              omega
            | .err (.eof _), this =>
              rcases this with hb | ⟨y, w, v, t, he, hw, hv, hn⟩
              · left
                rw [show q ++ [34] ++ (w1 ++ 58 :: r) = (q ++ [34] ++ (w1 ++ [58])) ++ r by simp]
                exact hb.prepend _
              · refine Or.inr ⟨y ++ [125], q ++ [34] ++ w1 ++ [58] ++ w ++ v ++ [], [(q, t)], ?_, ?_⟩
                · have : r ++ (y ++ [125]) = w ++ (v ++ [125]) := by rw [← List.append_assoc, he]; simp
                  simp [this]
                · have : LMembers ([34] ++ q ++ [34] ++ w1 ++ [58] ++ w ++ v ++ []) [(q, t)] :=
                    .one hq hw1 hw hv IsWs.nil
                  simpa using this
            | .ok x pos2 rest2, this =>
              obtain ⟨w, v, rfl, hw, hv, hn, rfl, hvne⟩ := this
              have hvpos : 0 < v.length := List.length_pos_iff.2 hvne
              simp only
              cases hsk : skipSpace (pos + 1 + q.length + w1.length + 1 + w.length + v.length) rest2 with
              | mk pos3 rest3 =>
              obtain ⟨w3, rfl, hw3, rfl, hsp3⟩ := skipSpace_sound hsk
              clear hsk
              match rest3 with
              | [] =>
                refine Or.inr ⟨[125], q ++ [34] ++ w1 ++ [58] ++ w ++ v ++ w3, [(q, x)], by simp, ?_⟩
                have : LMembers ([34] ++ q ++ [34] ++ w1 ++ [58] ++ w ++ v ++ w3) [(q, x)] := .one hq hw1 hw hv hw3
                simpa using this
              | c :: r =>
                simp only
                split
                · rename_i hc; subst hc
                  cases hsk : skipSpace (pos + 1 + q.length + w1.length + 1 + w.length + v.length + w3.length + 1) r with
                  | mk pos4 rest4 =>
                  obtain ⟨w4, rfl, hw4, rfl, hsp4⟩ := skipSpace_sound hsk
                  clear hsk
                  match rest4 with
                  | [] =>
                    refine Or.inr ⟨b!"\"\":null}", q ++ [34] ++ w1 ++ [58] ++ w ++ v ++ w3 ++ [44] ++ w4 ++
                      b!"\"\":null", [(q, x), ([], .null)], by simp, ?_⟩
                    have h0 : LMembers ([34] ++ [] ++ [34] ++ [] ++ [58] ++ [] ++ b!"null" ++ []) [([], .null)] :=
                      .one .nil IsWs.nil IsWs.nil .null IsWs.nil
                    have : LMembers ([34] ++ q ++ [34] ++ w1 ++ [58] ++ w ++ v ++ w3 ++ [44] ++ w4 ++ _) ((q, x) :: _) :=
                      .cons hq hw1 hw hv hw3 hw4 h0
                    simpa using this
                  | c :: r =>
                    simp only
                    split
                    · rename_i hc; subst hc
                      have := ihM (pos + 1 + q.length + w1.length + 1 + w.length + v.length + w3.length + 1 + w4.length + 1) r
                      revert this
                      generalize tMembers fuel (pos + 1 + q.length + w1.length + 1 + w.length + v.length + w3.length +
                        1 + w4.length + 1) r = tr
                      intro this
                      match tr, this with
                      | .crash, this =>
                        simp only [SpecMembers] at this
                        simp only [SpecMembers, List.length_append, List.length_cons]
                        omega
                      | .err (.abort p _ _ _), this =>
                        simp only [SpecMembers] at this
                        simp only [SpecMembers, List.length_append, List.length_cons]
                        omega
                      | .err (.eof _), this =>
                        rcases this with hb | ⟨y, body, ms, he, hm⟩
                        · left
                          rw [show q ++ [34] ++ (w1 ++ 58 :: (w ++ v ++ (w3 ++ 44 :: (w4 ++ 34 :: r)))) =
                            (q ++ [34] ++ (w1 ++ 58 :: (w ++ v ++ (w3 ++ 44 :: (w4 ++ [34]))))) ++ r by simp]
                          exact hb.prepend _
                        · refine Or.inr ⟨y, q ++ [34] ++ w1 ++ [58] ++ w ++ v ++ w3 ++ [44] ++ w4 ++ (34 :: body),
                            (q, x) :: ms, by simp [he], ?_⟩
                          have : LMembers ([34] ++ q ++ [34] ++ w1 ++ [58] ++ w ++ v ++ w3 ++ [44] ++ w4 ++ (34 :: body))
                            ((q, x) :: ms) := .cons hq hw1 hw hv hw3 hw4 hm
                          simpa using this
                      | .ok ms pos' rest', this =>
                        obtain ⟨body, rfl, hm, rfl⟩ := this
                        refine ⟨q ++ [34] ++ w1 ++ [58] ++ w ++ v ++ w3 ++ [44] ++ w4 ++ (34 :: body), by simp, ?_,
                          by simp; omega⟩
                        have : LMembers ([34] ++ q ++ [34] ++ w1 ++ [58] ++ w ++ v ++ w3 ++ [44] ++ w4 ++ (34 :: body))
                          ((q, x) :: ms) := .cons hq hw1 hw hv hw3 hw4 hm
                        simpa using this
                    · simp only [SpecMembers, List.length_append, List.length_cons]; omega
                · split
                  · rename_i hc; subst hc
                    refine ⟨q ++ [34] ++ w1 ++ [58] ++ w ++ v ++ w3, by simp, ?_, by simp; omega⟩
                    have : LMembers ([34] ++ q ++ [34] ++ w1 ++ [58] ++ w ++ v ++ w3) [(q, x)] := .one hq hw1 hw hv hw3
                    simpa using this
                  · simp only [SpecMembers, List.length_append, List.length_cons]; omega
          · simp only [SpecMembers, List.length_append, List.length_cons]; omega

end Verif.Njson
