import Verif.Proofs.Grammar

/-!
Stability of the tree parser under more fuel and more input (`ext_all`), and completeness with respect to the
grammar (`complete_all`).
-/

namespace Verif.Njson
open Verif Verif.Spec

def isNum : JVal → Prop
  | .num _ => True
  | _ => False

def RelV (x : Bytes) : TR JVal → TR JVal → Prop
  | .ok t p r, R => (x = [] ∨ r ≠ [] ∨ ¬ isNum t) → R = .ok t p (r ++ x)
  | .err (.abort p a b c), R => R = .err (.abort p a b c)
  | .err (.eof a), R => x = [] → R = .err (.eof a)
  | .crash, _ => True

def RelL {α : Type} (x : Bytes) : TR α → TR α → Prop
  | .ok t p r, R => R = .ok t p (r ++ x)
  | .err (.abort p a b c), R => R = .err (.abort p a b c)
  | .err (.eof a), R => x = [] → R = .err (.eof a)
  | .crash, _ => True

theorem ext_number {c : UInt8} {r x : Bytes} {pos : Nat} : RelV x
    (.ok (.num ((c :: r).take (numberLen (c :: r)))) (pos + numberLen (c :: r)) ((c :: r).drop (numberLen (c :: r))))
    (.ok (.num ((c :: (r ++ x)).take (numberLen (c :: (r ++ x))))) (pos + numberLen (c :: (r ++ x)))
      ((c :: (r ++ x)).drop (numberLen (c :: (r ++ x))))) := by
  intro h
  rcases h with rfl | h | h
  · simp
  · obtain ⟨h1, h2, h3⟩ := numberLen_sound (c :: r)
    have hs : numberLen (c :: (r ++ x)) = numberLen (c :: r) := by
      rcases h3 with h3 | ⟨b, r', h3, hb⟩
      · exact absurd h3 h
      · have := numberLen_complete (r := b :: (r' ++ x)) h2 (Or.inr ⟨b, _, rfl, hb⟩)
        rw [List.length_take, Nat.min_eq_left h1] at this
        rw [← this]
        congr 1
        rw [← List.cons_append, ← List.cons_append, ← h3, ← List.append_assoc, List.take_append_drop]
    rw [hs, ← List.cons_append, List.take_append_of_le_length h1, List.drop_append_of_le_length h1]
  · exact absurd trivial h

theorem ext_literal {t : JVal} {typ : Typ} {lit : Bytes} {pos : Nat} {s x : Bytes} :
    RelV x (tLiteral t typ lit pos s) (tLiteral t typ lit pos (s ++ x)) := by
  unfold tLiteral
  by_cases hl : lit.length ≤ s.length
  · rw [if_pos hl]
    have hl' : lit.length ≤ (s ++ x).length := by rw [List.length_append]; omega
    rw [if_pos hl', List.take_append_of_le_length hl, List.drop_append_of_le_length hl]
    split
    · intro _; rfl
    · rfl
  · rw [if_neg hl]
    intro hx; subst hx
    rw [List.append_nil, if_neg hl]

theorem ext_all (fuel : Nat) : ∀ (x : Bytes) (fuel' : Nat), fuel ≤ fuel' →
    (∀ pos rest, RelV x (tVal fuel pos rest) (tVal fuel' pos (rest ++ x))) ∧
    (∀ pos rest, RelL x (tElems fuel pos rest) (tElems fuel' pos (rest ++ x))) ∧
    (∀ pos key, RelL x (tMembers fuel pos key) (tMembers fuel' pos (key ++ x))) := by
  induction fuel with
  | zero =>
    intro x fuel' _
    refine ⟨fun pos rest => ?_, fun pos rest => ?_, fun pos rest => ?_⟩
    · simp [tVal, RelV]
    · simp [tElems, RelL]
    · simp [tMembers, RelL]
  | succ fuel ih =>
    intro x fuel' hle
    obtain ⟨f, rfl⟩ : ∃ f, fuel' = f + 1 := ⟨fuel' - 1, by omega⟩
    obtain ⟨ihV, ihE, ihM⟩ := ih x f (by omega)
    refine ⟨fun pos rest => ?_, fun pos rest => ?_, fun pos key => ?_⟩
    · unfold tVal
      cases hsk : skipSpace pos rest with
      | mk pos1 rest1 =>
      match rest1 with
      | [] => intro hx; subst hx; rw [List.append_nil, hsk]
      | c :: r =>
        rw [skipSpace_app hsk]
        clear hsk
        simp only
        split
        · match r with
          | [] => intro hx; subst hx; rfl
          | c' :: r' =>
            simp only [List.cons_append]
            rw [← List.cons_append]
            generalize c' :: r' = r
            cases hs : scanString r with
            | none => intro hx; subst hx; rw [List.append_nil, hs]
            | some j =>
              obtain ⟨raw, r', rfl, hraw, rfl⟩ := scanString_sound hs
              rw [List.append_assoc, List.cons_append, scanString_complete hraw]
              simp only
              rw [List.take_left, List.take_left, show raw ++ 34 :: r' = (raw ++ [34]) ++ r' by simp,
                show raw ++ 34 :: (r' ++ x) = (raw ++ [34]) ++ (r' ++ x) by simp, List.drop_left' (by simp),
                List.drop_left' (by simp)]
              intro _; rfl
        · split
          · cases hsk : skipSpace (pos1 + 1) r with
            | mk pos2 rest2 =>
            match rest2 with
            | [] => intro hx; subst hx; rw [List.append_nil, hsk]
            | c :: r =>
              rw [skipSpace_app hsk]
              clear hsk
              simp only
              split
              · intro _; rfl
              · split
                · have := ihM (pos2 + 1) r
                  revert this
                  generalize tMembers fuel (pos2 + 1) r = tr
                  intro this
                  match tr, this with
                  | .crash, _ => trivial
                  | .err (.abort p _ _ _), this => simp only [RelL] at this; rw [this]; rfl
                  | .err (.eof _), this => intro hx; rw [this hx]
                  | .ok ms p r, this => intro _; simp only [RelL] at this; rw [this]
                · rfl
          · split
            · cases hsk : skipSpace (pos1 + 1) r with
              | mk pos2 rest2 =>
              match rest2 with
              | [] => intro hx; subst hx; rw [List.append_nil, hsk]
              | c :: r =>
                rw [skipSpace_app hsk]
                clear hsk
                simp only
                split
                · intro _; rfl
                · have := ihE pos2 (c :: r)
                  rw [List.cons_append] at this
                  revert this
                  generalize tElems fuel pos2 (c :: r) = tr
                  intro this
                  match tr, this with
                  | .crash, _ => trivial
                  | .err (.abort p _ _ _), this => simp only [RelL] at this; rw [this]; rfl
                  | .err (.eof _), this => intro hx; rw [this hx]
                  | .ok ms p r, this => intro _; simp only [RelL] at this; rw [this]
            · split
              · exact ext_number
              · split
                · rw [← List.cons_append]; exact ext_literal
                · split
                  · exact ext_number
                  · split
                    · rw [← List.cons_append]; exact ext_literal
                    · split
                      · rw [← List.cons_append]; exact ext_literal
                      · rfl
    · unfold tElems
      have := ihV pos rest
      revert this
      generalize tVal fuel pos rest = tr
      intro this
      match tr, this with
      | .crash, _ => trivial
      | .err (.abort p _ _ _), this => simp only [RelV] at this; rw [this]; rfl
      | .err (.eof _), this => intro hx; rw [this hx]
      | .ok t pos1 rest1, this =>
        simp only [RelV] at this
        simp only
        cases hsk : skipSpace pos1 rest1 with
        | mk pos2 rest2 =>
        match rest2 with
        | [] => intro hx; rw [this (Or.inl hx)]; simp only; subst hx; rw [List.append_nil, hsk]
        | c :: r =>
          rw [this (Or.inr (Or.inl (by rintro rfl; simp [skipSpace] at hsk)))]
          simp only
          rw [skipSpace_app hsk]
          clear hsk
          simp only
          split
          · have := ihE (pos2 + 1) r
            revert this
            generalize tElems fuel (pos2 + 1) r = tr
            intro this
            match tr, this with
            | .crash, _ => trivial
            | .err (.abort p _ _ _), this => simp only [RelL] at this; rw [this]; rfl
            | .err (.eof _), this => intro hx; rw [this hx]
            | .ok ms p r, this => simp only [RelL] at this; rw [this]; rfl
          · split
            · rfl
            · rfl
    · unfold tMembers
      cases hsq : scanQuote key 0 with
      | none => intro hx; subst hx; rw [List.append_nil, hsq]
      | some i =>
        obtain ⟨q, r, rfl, hq, rfl⟩ := scanQuote_sound _ _ _ _ (Nat.le_refl _) hsq
        rw [List.append_assoc, List.cons_append, scanQuote_complete hq]
        simp only [Nat.zero_add]
        rw [List.take_left, List.take_left, show q ++ 34 :: r = (q ++ [34]) ++ r by simp,
          show q ++ 34 :: (r ++ x) = (q ++ [34]) ++ (r ++ x) by simp, List.drop_left' (by simp), List.drop_left' (by simp)]
        cases hsk : skipSpace (pos + 1 + q.length) r with
        | mk pos1 rest1 =>
        match rest1 with
        | [] => intro hx; subst hx; rw [List.append_nil, hsk]
        | c :: r =>
          rw [skipSpace_app hsk]
          clear hsk
          simp only
          split
          · have := ihV (pos1 + 1) r
            revert this
            generalize tVal fuel (pos1 + 1) r = tr
            intro this
            match tr, this with
            | .crash, _ => trivial
            | .err (.abort p _ _ _), this => simp only [RelV] at this; rw [this]; rfl
            | .err (.eof _), this => intro hx; rw [this hx]
            | .ok t pos1 rest1, this =>
              simp only [RelV] at this
              simp only
              cases hsk : skipSpace pos1 rest1 with
              | mk pos2 rest2 =>
              match rest2 with
              | [] => intro hx; rw [this (Or.inl hx)]; simp only; subst hx; rw [List.append_nil, hsk]
              | c :: r =>
                rw [this (Or.inr (Or.inl (by rintro rfl; simp [skipSpace] at hsk)))]
                simp only
                rw [skipSpace_app hsk]
                clear hsk
                simp only
                split
                · cases hsk : skipSpace (pos2 + 1) r with
                  | mk pos3 rest3 =>
                  match rest3 with
                  | [] => intro hx; subst hx; rw [List.append_nil, hsk]
                  | c :: r =>
                    rw [skipSpace_app hsk]
                    clear hsk
                    simp only
                    split
                    · have := ihM (pos3 + 1) r
                      revert this
                      generalize tMembers fuel (pos3 + 1) r = tr
                      intro this
                      match tr, this with
                      | .crash, _ => trivial
                      | .err (.abort p _ _ _), this => simp only [RelL] at this; rw [this]; rfl
                      | .err (.eof _), this => intro hx; rw [this hx]
                      | .ok ms p r, this => simp only [RelL] at this; rw [this]; rfl
                    · rfl
                · split
                  · rfl
                  · rfl
          · rfl

/-- More fuel does not change a result. -/
theorem tVal_mono {f f' pos : Nat} {rest : Bytes} (h : f ≤ f') (hc : tVal f pos rest ≠ .crash) :
    tVal f' pos rest = tVal f pos rest := by
  have := (ext_all f [] f' h).1 pos rest
  rw [List.append_nil] at this
  revert hc this
  generalize tVal f pos rest = tr
  intro hc this
  match tr, hc with
  | .ok t p r, _ => simpa [RelV] using this
  | .err (.eof _), _ => exact this rfl
  | .err (.abort _ _ _ _), _ => exact this
  | .crash, hc => exact absurd rfl hc

theorem relL_mono {α : Type} {tr tr' : TR α} (h : RelL [] tr tr') (hc : tr ≠ .crash) : tr' = tr := by
  match tr, hc with
  | .ok t p r, _ => simpa [RelL] using h
  | .err (.eof _), _ => exact h rfl
  | .err (.abort _ _ _ _), _ => exact h
  | .crash, hc => exact absurd rfl hc

theorem tElems_mono {f f' pos : Nat} {rest : Bytes} (h : f ≤ f') (hc : tElems f pos rest ≠ .crash) :
    tElems f' pos rest = tElems f pos rest := by
  have := (ext_all f [] f' h).2.1 pos rest
  rw [List.append_nil] at this
  exact relL_mono this hc

theorem tMembers_mono {f f' pos : Nat} {rest : Bytes} (h : f ≤ f') (hc : tMembers f pos rest ≠ .crash) :
    tMembers f' pos rest = tMembers f pos rest := by
  have := (ext_all f [] f' h).2.2 pos rest
  rw [List.append_nil] at this
  exact relL_mono this hc

/-! ## completeness -/

theorem lval_head {v : Bytes} {t : JVal} (h : LenientValue v t) : ∃ c r, v = c :: r ∧ isSpace c = false ∧ c ≠ 93 ∧ c ≠ 125 := by
  cases h with
  | null => exact ⟨_, _, rfl, by decide, by decide, by decide⟩
  | true => exact ⟨_, _, rfl, by decide, by decide, by decide⟩
  | false => exact ⟨_, _, rfl, by decide, by decide, by decide⟩
  | num h =>
    obtain ⟨⟨c, r, rfl, hc⟩, h2⟩ := h
    have hne := h2 c (by simp)
    refine ⟨c, r, rfl, ?_, ?_, ?_⟩
    · cases hs : isSpace c
      · rfl
      · exfalso; apply hne
        have := (isSpace_iff c).1 hs
        unfold NumberEnd
        rcases this with h | h | h | h <;> simp [h]
    · rintro rfl; apply hne; simp [NumberEnd]
    · rintro rfl; apply hne; simp [NumberEnd]
  | str h => exact ⟨_, _, rfl, by decide, by decide, by decide⟩
  | arr0 h => exact ⟨_, _, rfl, by decide, by decide, by decide⟩
  | arr h => exact ⟨_, _, rfl, by decide, by decide, by decide⟩
  | obj0 h => exact ⟨_, _, rfl, by decide, by decide, by decide⟩
  | obj h => exact ⟨_, _, rfl, by decide, by decide, by decide⟩

theorem lelems_head {b : Bytes} {xs : List JVal} (h : LElems b xs) : ∃ c r, b = c :: r ∧ isSpace c = false ∧ c ≠ 93 := by
  cases h with
  | one h _ => obtain ⟨c, r, rfl, h1, h2, _⟩ := lval_head h; exact ⟨c, _, rfl, h1, h2⟩
  | cons h _ _ _ => obtain ⟨c, r, rfl, h1, h2, _⟩ := lval_head h; exact ⟨c, _, rfl, h1, h2⟩

theorem tLiteral_complete (t : JVal) (typ : Typ) (lit : Bytes) (pos : Nat) (r : Bytes) :
    tLiteral t typ lit pos (lit ++ r) = .ok t (pos + lit.length) r := by
  unfold tLiteral
  rw [if_pos (by simp), if_pos (by simp)]
  simp

def CV (v : Bytes) (t : JVal) : Prop :=
  ∀ w pos r, IsWs w → NumFollow t r → ∃ f, tVal f pos (w ++ v ++ r) = .ok t (pos + w.length + v.length) r
def CE (body : Bytes) (xs : List JVal) : Prop :=
  ∀ w pos r, IsWs w → ∃ f, tElems f pos (w ++ body ++ 93 :: r) = .ok xs (pos + w.length + body.length + 1) r
def CM (body : Bytes) (ms : List (Bytes × JVal)) : Prop :=
  ∃ k, body = 34 :: k ∧ ∀ pos r, ∃ f, tMembers f pos (k ++ 125 :: r) = .ok ms (pos + k.length + 1) r

theorem cv_num {raw : Bytes} (h : LenientNum raw) : CV raw (.num raw) := by
  intro w pos r hw hn
  obtain ⟨c, raw', he, hs, _⟩ := lval_head (.num h)
  obtain ⟨⟨c', r', he', hc⟩, h2⟩ := h
  rw [he] at he'
  simp only [List.cons.injEq] at he'
  obtain ⟨rfl, rfl⟩ := he'
  subst he
  have hl : numberLen (c :: (raw' ++ r)) = (c :: raw').length := by
    rw [← List.cons_append]; exact numberLen_complete h2 hn
  refine ⟨1, ?_⟩
  unfold tVal
  rw [List.append_assoc, List.cons_append, skipSpace_at _ hw hs]
  simp only
  have ht : List.take (c :: raw').length (c :: (raw' ++ r)) = c :: raw' := by
    rw [← List.cons_append, List.take_left]
  have hd : List.drop (c :: raw').length (c :: (raw' ++ r)) = r := by
    rw [← List.cons_append, List.drop_left]
  rw [hl, ht, hd]
  rcases hc with hc | hc
  · have hc1 := (isDigit_iff c).2 hc
    unfold IsDigitByte at hc
    rw [if_neg (by rintro rfl; simp at hc), if_neg (by rintro rfl; simp at hc), if_neg (by rintro rfl; simp at hc), if_pos hc1]
  · subst hc
    rw [if_neg (by decide), if_neg (by decide), if_neg (by decide), if_neg (by decide), if_neg (by decide), if_pos rfl]

theorem complete_elems_cons {v w' w'' body : Bytes} {x : JVal} {xs : List JVal} (hv : CV v x) (hw' : IsWs w')
    (hw'' : IsWs w'') (hb : CE body xs) : CE (v ++ w' ++ [44] ++ w'' ++ body) (x :: xs) := by
  intro w pos r hw
  obtain ⟨f1, h1⟩ := hv w pos (w' ++ 44 :: (w'' ++ body ++ 93 :: r)) hw (numFollow_delim hw' (Or.inl rfl))
  obtain ⟨f2, h2⟩ := hb w'' (pos + w.length + v.length + w'.length + 1) r hw''
  refine ⟨max f1 f2 + 1, ?_⟩
  unfold tElems
  rw [show w ++ (v ++ w' ++ [44] ++ w'' ++ body) ++ 93 :: r = w ++ v ++ (w' ++ 44 :: (w'' ++ body ++ 93 :: r)) by simp]
  rw [tVal_mono (Nat.le_max_left f1 f2) (by rw [h1]; simp), h1]
  simp only
  rw [skipSpace_at _ hw' (by decide)]
  simp only
  rw [if_pos trivial, tElems_mono (Nat.le_max_right f1 f2) (by rw [h2]; simp), h2]
  simp; omega

theorem complete_elems_one {v w' : Bytes} {x : JVal} (hv : CV v x) (hw' : IsWs w') : CE (v ++ w') [x] := by
  intro w pos r hw
  obtain ⟨f1, h1⟩ := hv w pos (w' ++ 93 :: r) hw (numFollow_delim hw' (Or.inr (Or.inl rfl)))
  refine ⟨f1 + 1, ?_⟩
  unfold tElems
  rw [show w ++ (v ++ w') ++ 93 :: r = w ++ v ++ (w' ++ 93 :: r) by simp, h1]
  simp only
  rw [skipSpace_at _ hw' (by decide)]
  simp only
  rw [if_neg (by decide), if_pos trivial]
  simp; omega

theorem complete_members_one {k w₁ w₂ v w : Bytes} {x : JVal} (hk : EscBody k) (hw1 : IsWs w₁) (hw2 : IsWs w₂) (hv : CV v x)
    (hw : IsWs w) : CM ([34] ++ k ++ [34] ++ w₁ ++ [58] ++ w₂ ++ v ++ w) [(k, x)] := by
  refine ⟨k ++ [34] ++ w₁ ++ [58] ++ w₂ ++ v ++ w, by simp, ?_⟩
  intro pos r
  obtain ⟨f1, h1⟩ := hv w₂ (pos + 1 + k.length + w₁.length + 1) (w ++ 125 :: r) hw2 (numFollow_delim hw (Or.inr (Or.inr rfl)))
  refine ⟨f1 + 1, ?_⟩
  unfold tMembers
  rw [show k ++ [34] ++ w₁ ++ [58] ++ w₂ ++ v ++ w ++ 125 :: r = k ++ 34 :: (w₁ ++ 58 :: (w₂ ++ v ++ (w ++ 125 :: r))) by simp]
  rw [scanQuote_complete hk]
  simp only [Nat.zero_add]
  rw [List.take_left, show k ++ 34 :: (w₁ ++ 58 :: (w₂ ++ v ++ (w ++ 125 :: r))) =
    (k ++ [34]) ++ (w₁ ++ 58 :: (w₂ ++ v ++ (w ++ 125 :: r))) by simp, List.drop_left' (by simp)]
  rw [skipSpace_at _ hw1 (by decide)]
  simp only
  rw [if_pos trivial, h1]
  simp only
  rw [skipSpace_at _ hw (by decide)]
  simp only
  rw [if_neg (by decide), if_pos trivial]
  simp; omega

theorem complete_members_cons {k w₁ w₂ v w w' body : Bytes} {x : JVal} {ms : List (Bytes × JVal)} (hk : EscBody k)
    (hw1 : IsWs w₁) (hw2 : IsWs w₂) (hv : CV v x) (hw : IsWs w) (hw' : IsWs w') (hb : CM body ms) :
    CM ([34] ++ k ++ [34] ++ w₁ ++ [58] ++ w₂ ++ v ++ w ++ [44] ++ w' ++ body) ((k, x) :: ms) := by
  obtain ⟨k', rfl, hb⟩ := hb
  refine ⟨k ++ [34] ++ w₁ ++ [58] ++ w₂ ++ v ++ w ++ [44] ++ w' ++ 34 :: k', by simp, ?_⟩
  intro pos r
  obtain ⟨f1, h1⟩ := hv w₂ (pos + 1 + k.length + w₁.length + 1) (w ++ 44 :: (w' ++ 34 :: (k' ++ 125 :: r))) hw2
    (numFollow_delim hw (Or.inl rfl))
  obtain ⟨f2, h2⟩ := hb (pos + 1 + k.length + w₁.length + 1 + w₂.length + v.length + w.length + 1 + w'.length + 1) r
  refine ⟨max f1 f2 + 1, ?_⟩
  unfold tMembers
  rw [show k ++ [34] ++ w₁ ++ [58] ++ w₂ ++ v ++ w ++ [44] ++ w' ++ 34 :: k' ++ 125 :: r =
    k ++ 34 :: (w₁ ++ 58 :: (w₂ ++ v ++ (w ++ 44 :: (w' ++ 34 :: (k' ++ 125 :: r))))) by simp]
  rw [scanQuote_complete hk]
  simp only [Nat.zero_add]
  rw [List.take_left, show k ++ 34 :: (w₁ ++ 58 :: (w₂ ++ v ++ (w ++ 44 :: (w' ++ 34 :: (k' ++ 125 :: r))))) =
    (k ++ [34]) ++ (w₁ ++ 58 :: (w₂ ++ v ++ (w ++ 44 :: (w' ++ 34 :: (k' ++ 125 :: r))))) by simp, List.drop_left' (by simp)]
  rw [skipSpace_at _ hw1 (by decide)]
  simp only
  rw [if_pos trivial, tVal_mono (Nat.le_max_left f1 f2) (by rw [h1]; simp), h1]
  simp only
  rw [skipSpace_at _ hw (by decide)]
  simp only
  rw [if_pos trivial, skipSpace_at _ hw' (by decide)]
  simp only
  rw [if_pos trivial, tMembers_mono (Nat.le_max_right f1 f2) (by rw [h2]; simp), h2]
  simp; omega

theorem cv_literal {t : JVal} {c : UInt8} {l : Bytes} {typ : Typ} (hs : isSpace c = false)
    (h : ∀ pos r, tVal 1 pos (c :: r) = tLiteral t typ (c :: l) pos (c :: r)) : CV (c :: l) t := by
  intro w pos r hw _
  refine ⟨1, ?_⟩
  have : tVal 1 pos (w ++ (c :: l) ++ r) = tVal 1 (pos + w.length) (c :: (l ++ r)) := by
    rw [List.append_assoc, List.cons_append]
    unfold tVal
    rw [skipSpace_at _ hw hs, skipSpace_stop hs]
  rw [this, h, ← List.cons_append, tLiteral_complete]

theorem complete_val {v : Bytes} {t : JVal} (h : LenientValue v t) : CV v t := by
  refine GVal.rec (motive_1 := fun v t _ => CV v t) (motive_2 := fun b xs _ => CE b xs) (motive_3 := fun b ms _ => CM b ms)
    ?_ ?_ ?_ ?_ ?_ ?_ ?_ ?_ ?_ ?_ ?_ ?_ ?_ h
  · refine cv_literal (typ := tNull) (by decide) ?_
    intro pos r
    unfold tVal
    rw [skipSpace_stop (by decide)]
    simp [show isDigit 110 = false by decide, strNull]
  · refine cv_literal (typ := tBoolean) (by decide) ?_
    intro pos r
    unfold tVal
    rw [skipSpace_stop (by decide)]
    simp [show isDigit 116 = false by decide, strTrue]
  · refine cv_literal (typ := tBoolean) (by decide) ?_
    intro pos r
    unfold tVal
    rw [skipSpace_stop (by decide)]
    simp [show isDigit 102 = false by decide, strFalse]
  · intro raw h; exact cv_num h
  · intro raw hraw w pos r hw _
    refine ⟨1, ?_⟩
    unfold tVal
    rw [show w ++ ([34] ++ raw ++ [34]) ++ r = w ++ 34 :: (raw ++ 34 :: r) by simp, skipSpace_at _ hw (by decide)]
    simp only
    rw [if_pos trivial]
    have hs := scanString_complete hraw r
    have : ∃ c' r', raw ++ 34 :: r = c' :: r' := by
      cases raw with
      | nil => exact ⟨_, _, rfl⟩
      | cons a b => exact ⟨_, _, rfl⟩
    have ht : (raw ++ 34 :: r).take raw.length = raw := List.take_left
    have hd : (raw ++ 34 :: r).drop (raw.length + 1) = r := by
      rw [show raw ++ 34 :: r = (raw ++ [34]) ++ r by simp, List.drop_left' (by simp)]
    obtain ⟨c', r', he⟩ := this
    rw [he] at hs ht hd ⊢
    simp only
    rw [hs]
    simp only
    rw [ht, hd]
    simp; omega
  · intro w2 hw2 w pos r hw _
    refine ⟨1, ?_⟩
    unfold tVal
    rw [show w ++ ([91] ++ w2 ++ [93]) ++ r = w ++ 91 :: (w2 ++ 93 :: r) by simp, skipSpace_at _ hw (by decide)]
    simp only
    rw [if_neg (by decide), if_neg (by decide), if_pos trivial, skipSpace_at _ hw2 (by decide)]
    simp only
    rw [if_pos trivial]
    simp; omega
  · intro w2 body xs hw2 hb ih w pos r hw _
    obtain ⟨c, b, rfl, hc1, hc2⟩ := lelems_head hb
    obtain ⟨f, h1⟩ := ih [] (pos + w.length + 1 + w2.length) r IsWs.nil
    refine ⟨f + 1, ?_⟩
    unfold tVal
    rw [show w ++ ([91] ++ w2 ++ (c :: b) ++ [93]) ++ r = w ++ 91 :: (w2 ++ c :: (b ++ 93 :: r)) by simp,
      skipSpace_at _ hw (by decide)]
    simp only
    rw [if_neg (by decide), if_neg (by decide), if_pos trivial, skipSpace_at _ hw2 hc1]
    simp only
    rw [if_neg hc2]
    simp only [List.nil_append, List.cons_append, List.length_nil, Nat.add_zero] at h1
    rw [h1]
    simp; omega
  · intro w2 hw2 w pos r hw _
    refine ⟨1, ?_⟩
    unfold tVal
    rw [show w ++ ([123] ++ w2 ++ [125]) ++ r = w ++ 123 :: (w2 ++ 125 :: r) by simp, skipSpace_at _ hw (by decide)]
    simp only
    rw [if_neg (by decide), if_pos trivial, skipSpace_at _ hw2 (by decide)]
    simp only
    rw [if_pos trivial]
    simp; omega
  · intro w2 body ms hw2 hb ih w pos r hw _
    obtain ⟨k, rfl, ih⟩ := ih
    obtain ⟨f, h1⟩ := ih (pos + w.length + 1 + w2.length + 1) r
    refine ⟨f + 1, ?_⟩
    unfold tVal
    rw [show w ++ ([123] ++ w2 ++ (34 :: k) ++ [125]) ++ r = w ++ 123 :: (w2 ++ 34 :: (k ++ 125 :: r)) by simp,
      skipSpace_at _ hw (by decide)]
    simp only
    rw [if_neg (by decide), if_pos trivial, skipSpace_at _ hw2 (by decide)]
    simp only
    rw [if_neg (by decide), if_pos trivial, h1]
    simp; omega
  · intro v w x _ hw ih; exact complete_elems_one ih hw
  · intro v w w' x body xs _ hw hw' _ ih1 ih2; exact complete_elems_cons ih1 hw hw' ih2
  · intro k w1 w2 v w x hk h1 h2 _ hw ih; exact complete_members_one hk h1 h2 ih hw
  · intro k w1 w2 v w w' x body ms hk h1 h2 _ hw hw' _ ih1 ih2; exact complete_members_cons hk h1 h2 ih1 hw hw' ih2

/-! ## the whole input -/

/-- The tree parser with the fuel `Parse` gives it. -/
def treeParse (s : Bytes) : TR JVal := tVal (2 * s.length + 2) 0 s

theorem treeParse_ne_crash (s : Bytes) : treeParse s ≠ .crash := by
  intro h
  have := (spec_all (2 * s.length + 2)).1 0 s
  unfold treeParse at h
  rw [h] at this
  simp only [SpecVal] at this
  omega

theorem treeParse_eq {f : Nat} {s : Bytes} (h : tVal f 0 s ≠ .crash) : tVal f 0 s = treeParse s := by
  by_cases hle : f ≤ 2 * s.length + 2
  · exact (tVal_mono hle h).symm
  · exact tVal_mono (by omega) (treeParse_ne_crash s)

/-- Exact language of the tree parser. -/
theorem treeParse_ok_iff {s : Bytes} {t : JVal} {pos : Nat} {r : Bytes} : treeParse s = .ok t pos r ↔
    ∃ w v, s = w ++ v ++ r ∧ IsWs w ∧ LenientValue v t ∧ NumFollow t r ∧ pos = w.length + v.length := by
  constructor
  · intro h
    have := (spec_all (2 * s.length + 2)).1 0 s
    unfold treeParse at h
    rw [h] at this
    obtain ⟨w, v, h1, h2, h3, h4, h5, _⟩ := this
    exact ⟨w, v, h1, h2, h3, h4, by omega⟩
  · rintro ⟨w, v, rfl, hw, hv, hn, rfl⟩
    obtain ⟨f, hf⟩ := complete_val hv w 0 r hw hn
    rw [← treeParse_eq (by rw [hf]; simp), hf]
    simp

end Verif.Njson
