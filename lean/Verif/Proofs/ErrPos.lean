import Verif.Proofs.Extend
import Verif.Spec.ErrPos

/-!
Where the tree parser stops: what precedes the position of an error can be continued by everything that is wanted, and whatever follows
the token that was found makes no difference.
-/

namespace Verif.Njson
open Verif Verif.Spec

def CompV (s : Bytes) : Prop := ∃ w v t, s = w ++ v ∧ IsWs w ∧ LenientValue v t
def CompE (s : Bytes) : Prop := ∃ w body xs, s = w ++ body ++ [93] ∧ IsWs w ∧ LElems body xs
def CompM (s : Bytes) : Prop := ∃ body ms, s = body ++ [125] ∧ LMembers (34 :: body) ms

/-- The text ends in the beginning of a value that starts like a literal of type `t`, before it has the length of the literal. -/
def LitEnd (t : Typ) (lit tl : Bytes) : Prop :=
  ((t = tNull ∧ lit = b!"null") ∨ (t = tBoolean ∧ (lit = b!"true" ∨ lit = b!"false"))) ∧ tl ≠ [] ∧ tl.head? = lit.head? ∧ tl.length < lit.length

/-- An error in general: `comp` are the complete texts, `run` the parser, started at `pos`. -/
def ErrIn {α : Type} (comp : Bytes → Prop) (run : Nat → Nat → Bytes → TR α) (pos : Nat) (rest : Bytes) (e : PErr) : Prop :=
  match e with
  | .eof t => t ∈ [tAnyValue, tString, tObject, tArray, tNull, tBoolean] ∧
    (t = tNull ∨ t = tBoolean → ∃ pre tl lit, LitEnd t lit tl ∧ rest = pre ++ tl ∧ (∃ x, comp (pre ++ (lit ++ x))) ∧
      (∀ y, (tl ++ y).length < lit.length → ∃ F, run F pos (pre ++ (tl ++ y)) = .err (.eof t)) ∧
      ∀ y, lit.length ≤ (tl ++ y).length → (tl ++ y).take lit.length ≠ lit →
        ∃ F, run F pos (pre ++ (tl ++ y)) = .err (.abort (pos + pre.length) t (.str ((tl ++ y).take lit.length)) (.str lit)))
  | .abort p typ got want =>
    ErrShape typ got want ∧ ∃ pre tl, rest = pre ++ (gotBytes got ++ tl) ∧ p = pos + pre.length ∧
      (∀ y, Meets want y → ∃ x, comp (pre ++ (y ++ x))) ∧
      ∀ y, ∃ F, run F pos (pre ++ (gotBytes got ++ y)) = .err (.abort p typ got want)

theorem shape_ne {typ : Typ} {got : Got} {want : Want} (h : ErrShape typ got want) : gotBytes got ≠ [] := by
  cases h <;> simp only [gotBytes] <;> simp <;> rintro rfl <;> simp_all

theorem errIn_other {α : Type} {comp : Bytes → Prop} {run : Nat → Nat → Bytes → TR α} {pos : Nat} {rest : Bytes} {t : Typ}
    (h : t ∈ [tAnyValue, tString, tObject, tArray]) : ErrIn comp run pos rest (.eof t) := by
  simp only [List.mem_cons, List.not_mem_nil, or_false] at h
  refine ⟨by rcases h with rfl | rfl | rfl | rfl <;> simp, fun h' => ?_⟩
  rcases h with rfl | rfl | rfl | rfl <;> exact absurd h' (by decide)

/-- An error inside a part of the text. -/
theorem ErrIn.lift {α β : Type} {comp comp' : Bytes → Prop} {run : Nat → Nat → Bytes → TR α} {run' : Nat → Nat → Bytes → TR β}
    {pos pos' : Nat} {rest rest' : Bytes} {e : PErr} (h : ErrIn comp run pos rest e) (a z : Bytes)
    (hr : rest' = a ++ rest) (hp : pos = pos' + a.length)
    (hc : ∀ s, comp s → comp' (a ++ (s ++ z)))
    (hf : ∀ pre got tl y e F, gotBytes got ≠ [] → rest = pre ++ (gotBytes got ++ tl) → run F pos (pre ++ (gotBytes got ++ y)) = .err e →
      ∃ F', run' F' pos' (a ++ (pre ++ (gotBytes got ++ y))) = .err e) :
    ErrIn comp' run' pos' rest' e := by
  cases e with
  | eof t =>
    refine ⟨h.1, fun ht => ?_⟩
    obtain ⟨pre, tl, lit, h1, h2, ⟨x, hx⟩, h3, h4⟩ := h.2 ht
    refine ⟨a ++ pre, tl, lit, h1, by rw [hr, h2, List.append_assoc], ⟨x ++ z, by have := hc _ hx; simpa using this⟩, fun y hl => ?_, fun y hl hy => ?_⟩
    · obtain ⟨F, hF⟩ := h3 y hl
      have := hf pre (.str tl) [] y _ F h1.2.1 (by simpa [gotBytes] using h2) hF
      simp only [gotBytes] at this
      rw [List.append_assoc]
      exact this
    obtain ⟨F, hF⟩ := h4 y hl hy
    have := hf pre (.str tl) [] y _ F h1.2.1 (by simpa [gotBytes] using h2) hF
    simp only [gotBytes] at this
    rw [List.append_assoc, List.length_append, ← Nat.add_assoc, ← hp]
    exact this
  | abort p typ got want =>
    obtain ⟨h1, pre, tl, h2, h3, h4, h5⟩ := h
    refine ⟨h1, a ++ pre, tl, by rw [hr, h2, List.append_assoc], by rw [h3, hp, List.length_append]; omega, ?_, ?_⟩
    · intro y hy
      obtain ⟨x, hx⟩ := h4 y hy
      refine ⟨x ++ z, ?_⟩
      have := hc _ hx
      simpa using this
    · intro y
      obtain ⟨F, hF⟩ := h5 y
      rw [List.append_assoc]
      exact hf pre got tl y _ F (shape_ne h1) h2 hF

theorem numFollow_change {t : JVal} {w r r' : Bytes} {c : UInt8} (h : NumFollow t (w ++ c :: r)) : NumFollow t (w ++ c :: r') := by
  cases t <;> try exact trivial
  right
  rcases h with h | ⟨b, s, h, hb⟩
  · simp at h
  · cases w with
    | nil =>
      simp only [List.nil_append, List.cons.injEq] at h
      obtain ⟨rfl, _⟩ := h
      exact ⟨c, r', rfl, hb⟩
    | cons d w =>
      simp only [List.cons_append, List.cons.injEq] at h
      obtain ⟨rfl, _⟩ := h
      exact ⟨d, w ++ c :: r', rfl, hb⟩

/-! ### running forward -/

theorem run_obj {F pos : Nat} {w w2 r : Bytes} {e : PErr} (hw : IsWs w) (hw2 : IsWs w2)
    (h : tMembers F (pos + w.length + 1 + w2.length + 1) r = .err e) : tVal (F + 1) pos (w ++ 123 :: (w2 ++ 34 :: r)) = .err e := by
  unfold tVal
  rw [skipSpace_at _ hw (by decide)]
  simp only
  rw [if_neg (by decide), if_pos trivial, skipSpace_at _ hw2 (by decide)]
  simp only
  rw [if_neg (by decide), if_pos trivial, h]

theorem run_obj_bad {F pos : Nat} {w w2 r : Bytes} {c : UInt8} (hw : IsWs w) (hw2 : IsWs w2) (hs : isSpace c = false) (h1 : c ≠ 125) (h2 : c ≠ 34) :
    tVal (F + 1) pos (w ++ 123 :: (w2 ++ c :: r)) = .err (.abort (pos + w.length + 1 + w2.length) tObject (.byte c) (.oneOf [125, 34])) := by
  unfold tVal
  rw [skipSpace_at _ hw (by decide)]
  simp only
  rw [if_neg (by decide), if_pos trivial, skipSpace_at _ hw2 hs]
  simp only
  rw [if_neg h1, if_neg h2]

theorem run_arr {F pos : Nat} {w w2 r : Bytes} {c : UInt8} {e : PErr} (hw : IsWs w) (hw2 : IsWs w2) (hs : isSpace c = false) (hc : c ≠ 93)
    (h : tElems F (pos + w.length + 1 + w2.length) (c :: r) = .err e) : tVal (F + 1) pos (w ++ 91 :: (w2 ++ c :: r)) = .err e := by
  unfold tVal
  rw [skipSpace_at _ hw (by decide)]
  simp only
  rw [if_neg (by decide), if_neg (by decide), if_pos trivial, skipSpace_at _ hw2 hs]
  simp only
  rw [if_neg hc, h]

theorem run_elem {F pos : Nat} {s : Bytes} {e : PErr} (h : tVal F pos s = .err e) : tElems (F + 1) pos s = .err e := by
  unfold tElems
  rw [h]

theorem run_elems {F pos : Nat} {w v w2 r : Bytes} {t : JVal} {e : PErr} (hw : IsWs w) (hv : LenientValue v t) (hw2 : IsWs w2)
    (h : tElems F (pos + w.length + v.length + w2.length + 1) r = .err e) : ∃ F', tElems F' pos (w ++ v ++ (w2 ++ 44 :: r)) = .err e := by
  obtain ⟨f1, h1⟩ := complete_val hv w pos (w2 ++ 44 :: r) hw (numFollow_delim hw2 (.inl rfl))
  refine ⟨max f1 F + 1, ?_⟩
  unfold tElems
  rw [tVal_mono (Nat.le_max_left f1 F) (by rw [h1]; simp), h1]
  simp only
  rw [skipSpace_at _ hw2 (by decide)]
  simp only
  rw [if_pos trivial, tElems_mono (Nat.le_max_right f1 F) (by rw [h]; simp), h]

theorem run_elems_bad {pos : Nat} {w v w2 r : Bytes} {t : JVal} {c : UInt8} (hw : IsWs w) (hv : LenientValue v t) (hw2 : IsWs w2)
    (hn : NumFollow t (w2 ++ c :: r)) (hs : isSpace c = false) (h1 : c ≠ 44) (h2 : c ≠ 93) :
    ∃ F', tElems F' pos (w ++ v ++ (w2 ++ c :: r)) = .err (.abort (pos + w.length + v.length + w2.length) tArray (.byte c) (.oneOf [44, 93])) := by
  obtain ⟨f1, h⟩ := complete_val hv w pos (w2 ++ c :: r) hw hn
  refine ⟨f1 + 1, ?_⟩
  unfold tElems
  rw [h]
  simp only
  rw [skipSpace_at _ hw2 hs]
  simp only
  rw [if_neg h1, if_neg h2]

theorem run_key {F pos : Nat} {k r : Bytes} (hk : EscBody k) : tMembers (F + 1) pos (k ++ 34 :: r) =
    (match skipSpace (pos + 1 + k.length) r with
      | (_, []) => .err (.eof tObject)
      | (pos, c :: r) =>
        if c = 58 then
          match tVal F (pos + 1) r with
          | .crash => .crash
          | .err e => .err e
          | .ok x pos rest =>
            match skipSpace pos rest with
            | (_, []) => .err (.eof tObject)
            | (pos, c :: r) =>
              if c = 44 then
                match skipSpace (pos + 1) r with
                | (_, []) => .err (.eof tObject)
                | (pos, c :: r) =>
                  if c = 34 then
                    match tMembers F (pos + 1) r with
                    | .ok ms pos rest => .ok ((k, x) :: ms) pos rest
                    | .err e => .err e
                    | .crash => .crash
                  else .err (.abort pos tObject (.byte c) (.oneOf [34]))
              else if c = 125 then .ok [(k, x)] (pos + 1) r
              else .err (.abort pos tObject (.byte c) (.oneOf [44, 125]))
        else .err (.abort pos tObject (.byte c) (.oneOf [58]))) := by
  conv => lhs; unfold tMembers
  rw [scanQuote_complete hk]
  simp only [Nat.zero_add]
  rw [List.take_left, show k ++ 34 :: r = (k ++ [34]) ++ r by simp, List.drop_left' (by simp)]
  rfl

theorem run_colon_bad {F pos : Nat} {k w1 r : Bytes} {c : UInt8} (hk : EscBody k) (hw1 : IsWs w1) (hs : isSpace c = false) (hc : c ≠ 58) :
    tMembers (F + 1) pos (k ++ 34 :: (w1 ++ c :: r)) = .err (.abort (pos + 1 + k.length + w1.length) tObject (.byte c) (.oneOf [58])) := by
  rw [run_key hk, skipSpace_at _ hw1 hs]
  simp only
  rw [if_neg hc]

theorem run_value {F pos : Nat} {k w1 r : Bytes} {e : PErr} (hk : EscBody k) (hw1 : IsWs w1)
    (h : tVal F (pos + 1 + k.length + w1.length + 1) r = .err e) : tMembers (F + 1) pos (k ++ 34 :: (w1 ++ 58 :: r)) = .err e := by
  rw [run_key hk, skipSpace_at _ hw1 (by decide)]
  simp only
  rw [if_pos trivial, h]

theorem run_next_bad {pos : Nat} {k w1 w v w3 r : Bytes} {t : JVal} {c : UInt8} (hk : EscBody k) (hw1 : IsWs w1) (hw : IsWs w)
    (hv : LenientValue v t) (hw3 : IsWs w3) (hn : NumFollow t (w3 ++ c :: r)) (hs : isSpace c = false) (h1 : c ≠ 44) (h2 : c ≠ 125) :
    ∃ F, tMembers F pos (k ++ 34 :: (w1 ++ 58 :: (w ++ v ++ (w3 ++ c :: r)))) =
      .err (.abort (pos + 1 + k.length + w1.length + 1 + w.length + v.length + w3.length) tObject (.byte c) (.oneOf [44, 125])) := by
  obtain ⟨f1, h⟩ := complete_val hv w (pos + 1 + k.length + w1.length + 1) (w3 ++ c :: r) hw hn
  refine ⟨f1 + 1, ?_⟩
  rw [run_key hk, skipSpace_at _ hw1 (by decide)]
  simp only
  rw [if_pos trivial, h]
  simp only
  rw [skipSpace_at _ hw3 hs]
  simp only
  rw [if_neg h1, if_neg h2]

theorem run_nextkey_bad {pos : Nat} {k w1 w v w3 w4 r : Bytes} {t : JVal} {c : UInt8} (hk : EscBody k) (hw1 : IsWs w1) (hw : IsWs w)
    (hv : LenientValue v t) (hw3 : IsWs w3) (hw4 : IsWs w4) (hs : isSpace c = false) (h1 : c ≠ 34) :
    ∃ F, tMembers F pos (k ++ 34 :: (w1 ++ 58 :: (w ++ v ++ (w3 ++ 44 :: (w4 ++ c :: r))))) =
      .err (.abort (pos + 1 + k.length + w1.length + 1 + w.length + v.length + w3.length + 1 + w4.length) tObject (.byte c) (.oneOf [34])) := by
  obtain ⟨f1, h⟩ := complete_val hv w (pos + 1 + k.length + w1.length + 1) (w3 ++ 44 :: (w4 ++ c :: r)) hw (numFollow_delim hw3 (.inl rfl))
  refine ⟨f1 + 1, ?_⟩
  rw [run_key hk, skipSpace_at _ hw1 (by decide)]
  simp only
  rw [if_pos trivial, h]
  simp only
  rw [skipSpace_at _ hw3 (by decide)]
  simp only
  rw [if_pos trivial, skipSpace_at _ hw4 hs]
  simp only
  rw [if_neg h1]

theorem run_members {F pos : Nat} {k w1 w v w3 w4 r : Bytes} {t : JVal} {e : PErr} (hk : EscBody k) (hw1 : IsWs w1) (hw : IsWs w)
    (hv : LenientValue v t) (hw3 : IsWs w3) (hw4 : IsWs w4)
    (hm : tMembers F (pos + 1 + k.length + w1.length + 1 + w.length + v.length + w3.length + 1 + w4.length + 1) r = .err e) :
    ∃ F, tMembers F pos (k ++ 34 :: (w1 ++ 58 :: (w ++ v ++ (w3 ++ 44 :: (w4 ++ 34 :: r))))) = .err e := by
  obtain ⟨f1, h⟩ := complete_val hv w (pos + 1 + k.length + w1.length + 1) (w3 ++ 44 :: (w4 ++ 34 :: r)) hw (numFollow_delim hw3 (.inl rfl))
  refine ⟨max f1 F + 1, ?_⟩
  rw [run_key hk, skipSpace_at _ hw1 (by decide)]
  simp only
  rw [if_pos trivial, tVal_mono (Nat.le_max_left f1 F) (by rw [h]; simp), h]
  simp only
  rw [skipSpace_at _ hw3 (by decide)]
  simp only
  rw [if_pos trivial, skipSpace_at _ hw4 (by decide)]
  simp only
  rw [if_pos trivial, tMembers_mono (Nat.le_max_right f1 F) (by rw [hm]; simp), hm]

theorem err_literal {F pos : Nat} {w r : Bytes} {c : UInt8} {t : JVal} {typ : Typ} {lit : Bytes} {e : PErr} (hw : IsWs w)
    (hg : LenientValue lit t) (hh : lit.head? = some c)
    (ht : (typ = tNull ∧ lit = b!"null") ∨ (typ = tBoolean ∧ (lit = b!"true" ∨ lit = b!"false"))) (hne : lit ≠ b!"any value")
    (hshape : ∀ s : Bytes, s.length = lit.length → s.head? = some c → ErrShape typ (.str s) (.str lit))
    (hrun : ∀ r, tVal (F + 1) pos (w ++ c :: r) = tLiteral t typ lit (pos + w.length) (c :: r))
    (h : tVal (F + 1) pos (w ++ c :: r) = .err e) : ErrIn CompV tVal pos (w ++ c :: r) e := by
  rw [hrun] at h
  unfold tLiteral at h
  by_cases hl : lit.length ≤ (c :: r).length
  · rw [if_pos hl] at h
    by_cases hs : (c :: r).take lit.length = lit
    · rw [if_pos hs] at h; simp at h
    · rw [if_neg hs] at h
      simp only [TR.err.injEq] at h
      subst h
      obtain ⟨n, hn⟩ : ∃ n, lit.length = n + 1 := by
        cases lit with
        | nil => simp at hh
        | cons _ l => exact ⟨l.length, by simp⟩
      have hlen : ((c :: r).take lit.length).length = lit.length := by rw [List.length_take]; omega
      refine ⟨hshape _ hlen (by rw [hn]; rfl), w, (c :: r).drop lit.length, by simp [gotBytes], rfl, ?_, ?_⟩
      · intro y hy
        simp only [Meets, hne, false_and, false_or, ne_eq, not_false_iff, true_and] at hy
        subst hy
        exact ⟨[], w, y, t, by simp, hw, hg⟩
      · intro y
        refine ⟨F + 1, ?_⟩
        simp only [gotBytes]
        have he : (c :: r).take lit.length ++ y = c :: (r.take n ++ y) := by rw [hn]; rfl
        have he2 : (c :: (r.take n ++ y)).take lit.length = (c :: r).take lit.length := by
          rw [← he]
          exact List.take_left' hlen
        rw [he, hrun]
        unfold tLiteral
        rw [if_pos (by rw [← he, List.length_append]; omega), he2, if_neg hs]
  · rw [if_neg hl] at h
    simp only [TR.err.injEq] at h
    subst h
    refine ⟨by rcases ht with ⟨rfl, _⟩ | ⟨rfl, _⟩ <;> simp, fun _ => ⟨w, c :: r, lit, ⟨ht, by simp, by rw [hh]; rfl, by omega⟩, rfl, ?_, ?_, ?_⟩⟩
    · exact ⟨[], w, lit, t, by simp, hw, hg⟩
    · intro y h1
      refine ⟨F + 1, ?_⟩
      rw [List.cons_append] at h1 ⊢
      rw [hrun]
      unfold tLiteral
      rw [if_neg (by omega)]
    · intro y h1 h2
      refine ⟨F + 1, ?_⟩
      rw [List.cons_append] at h1 h2 ⊢
      rw [hrun]
      unfold tLiteral
      rw [if_pos h1, if_neg h2]

theorem members_null (k w1 : Bytes) (hk : EscBody k) (hw1 : IsWs w1) (w : Bytes) (hw : IsWs w) :
    LMembers (34 :: (k ++ 34 :: (w1 ++ 58 :: (w ++ b!"null")))) [(k, .null)] := by
  have : LMembers ([34] ++ k ++ [34] ++ w1 ++ [58] ++ w ++ b!"null" ++ []) [(k, .null)] := .one hk hw1 hw .null IsWs.nil
  simpa using this

theorem members_one {k w1 w v w3 : Bytes} {t : JVal} (hk : EscBody k) (hw1 : IsWs w1) (hw : IsWs w) (hv : LenientValue v t) (hw3 : IsWs w3) :
    LMembers (34 :: (k ++ 34 :: (w1 ++ 58 :: (w ++ v ++ w3)))) [(k, t)] := by
  have : LMembers ([34] ++ k ++ [34] ++ w1 ++ [58] ++ w ++ v ++ w3) [(k, t)] := .one hk hw1 hw hv hw3
  simpa using this

theorem members_cons {k w1 w v w3 w4 body : Bytes} {t : JVal} {ms} (hk : EscBody k) (hw1 : IsWs w1) (hw : IsWs w) (hv : LenientValue v t) (hw3 : IsWs w3)
    (hw4 : IsWs w4) (hm : LMembers body ms) :
    LMembers (34 :: (k ++ 34 :: (w1 ++ 58 :: (w ++ v ++ (w3 ++ 44 :: (w4 ++ body)))))) ((k, t) :: ms) := by
  have : LMembers ([34] ++ k ++ [34] ++ w1 ++ [58] ++ w ++ v ++ w3 ++ [44] ++ w4 ++ body) ((k, t) :: ms) := .cons hk hw1 hw hv hw3 hw4 hm
  simpa using this

theorem head_keep {c : UInt8} {r pre g tl : Bytes} (hg : g ≠ []) (h : c :: r = pre ++ (g ++ tl)) : ∃ z, ∀ y, pre ++ (g ++ y) = c :: (z ++ y) := by
  cases pre with
  | nil =>
    cases g with
    | nil => exact absurd rfl hg
    | cons d g =>
      simp only [List.nil_append, List.cons_append, List.cons.injEq] at h
      exact ⟨g, fun y => by simp [h.1]⟩
  | cons d pre =>
    simp only [List.cons_append, List.cons.injEq] at h
    exact ⟨pre ++ g, fun y => by simp [h.1]⟩

theorem err_all (fuel : Nat) :
    (∀ pos rest e, tVal fuel pos rest = .err e → ErrIn CompV tVal pos rest e) ∧
    (∀ pos rest e, tElems fuel pos rest = .err e → ErrIn CompE tElems pos rest e) ∧
    (∀ pos key e, tMembers fuel pos key = .err e → ErrIn CompM tMembers pos key e) := by
  induction fuel with
  | zero =>
    refine ⟨fun pos rest e h => ?_, fun pos rest e h => ?_, fun pos rest e h => ?_⟩
    · simp [tVal] at h
    · simp [tElems] at h
    · simp [tMembers] at h
  | succ fuel ih =>
    obtain ⟨ihV, ihE, ihM⟩ := ih
    refine ⟨fun pos rest e h => ?_, fun pos rest e h => ?_, fun pos key e h => ?_⟩
    · -- value
      have h0 := h
      unfold tVal at h
      cases hsk : skipSpace pos rest with
      | mk pos1 rest1 =>
      rw [hsk] at h
      obtain ⟨w, rfl, hw, rfl, hsp⟩ := skipSpace_sound hsk
      clear hsk
      match rest1, hsp with
      | [], _ => simp only [TR.err.injEq] at h; subst h; exact errIn_other (by simp)
      | c :: r, hsp =>
        have hs := hsp c r rfl
        clear hsp
        simp only at h
        by_cases c1 : c = 34
        · rw [if_pos c1] at h
          match r with
          | [] => simp only [TR.err.injEq] at h; subst h; exact errIn_other (by simp)
          | c' :: r' =>
            simp only at h
            cases hss : scanString (c' :: r') with
            | none => rw [hss] at h; simp only [TR.err.injEq] at h; subst h; exact errIn_other (by simp)
            | some j => rw [hss] at h; simp at h
        rw [if_neg c1] at h
        by_cases c2 : c = 123
        · rw [if_pos c2] at h
          subst c2
          cases hsk : skipSpace (pos + w.length + 1) r with
          | mk pos2 rest2 =>
          rw [hsk] at h
          obtain ⟨w2, rfl, hw2, rfl, hsp2⟩ := skipSpace_sound hsk
          clear hsk
          match rest2, hsp2 with
          | [], _ => simp only [TR.err.injEq] at h; subst h; exact errIn_other (by simp)
          | c :: r, hsp2 =>
            have hs2 := hsp2 c r rfl
            simp only at h
            by_cases d1 : c = 125
            · rw [if_pos d1] at h; simp at h
            rw [if_neg d1] at h
            by_cases d2 : c = 34
            · rw [if_pos d2] at h
              subst d2
              have hm : tMembers fuel (pos + w.length + 1 + w2.length + 1) r = .err e := by
                revert h
                cases tMembers fuel (pos + w.length + 1 + w2.length + 1) r with
                | ok => simp
                | err => simp
                | crash => simp
              refine (ihM _ _ _ hm).lift (w ++ 123 :: (w2 ++ [34])) [] (by simp) (by simp; omega) ?_ ?_
              · rintro s ⟨body, ms, rfl, hb⟩
                exact ⟨w, [123] ++ w2 ++ (34 :: body) ++ [125], _, by simp, hw, .obj hw2 hb⟩
              · intro pre got tl y e F _ _ hF
                exact ⟨F + 1, by simpa using run_obj hw hw2 hF⟩
            · rw [if_neg d2] at h
              simp only [TR.err.injEq] at h; subst h
              refine ⟨.object c, w ++ 123 :: w2, r, by simp [gotBytes], by simp; omega, ?_, ?_⟩
              · rintro y ⟨b, hb, rfl⟩
                simp only [List.mem_cons, List.not_mem_nil, or_false] at hb
                rcases hb with rfl | rfl
                · exact ⟨[], w, [123] ++ w2 ++ [125], _, by simp, hw, .obj0 hw2⟩
                · refine ⟨b!"\":null}", w, [123] ++ w2 ++ b!"\"\":null" ++ [125], .obj [([], .null)], by simp, hw, .obj hw2 ?_⟩
                  exact members_null [] [] .nil IsWs.nil [] IsWs.nil
              · intro y
                exact ⟨1, by simpa [gotBytes] using run_obj_bad (F := 0) hw hw2 hs2 d1 d2⟩
        rw [if_neg c2] at h
        by_cases c3 : c = 91
        · rw [if_pos c3] at h
          subst c3
          cases hsk : skipSpace (pos + w.length + 1) r with
          | mk pos2 rest2 =>
          rw [hsk] at h
          obtain ⟨w2, rfl, hw2, rfl, hsp2⟩ := skipSpace_sound hsk
          clear hsk
          match rest2, hsp2 with
          | [], _ => simp only [TR.err.injEq] at h; subst h; exact errIn_other (by simp)
          | c :: r, hsp2 =>
            have hs2 := hsp2 c r rfl
            simp only at h
            by_cases d1 : c = 93
            · rw [if_pos d1] at h; simp at h
            rw [if_neg d1] at h
            have hm : tElems fuel (pos + w.length + 1 + w2.length) (c :: r) = .err e := by
              revert h
              cases tElems fuel (pos + w.length + 1 + w2.length) (c :: r) with
              | ok => simp
              | err => simp
              | crash => simp
            refine (ihE _ _ _ hm).lift (w ++ 91 :: w2) [] (by simp) (by simp; omega) ?_ ?_
            · rintro s ⟨w3, body, xs, rfl, hw3, hb⟩
              exact ⟨w, [91] ++ (w2 ++ w3) ++ body ++ [93], _, by simp, hw, .arr (IsWs.append hw2 hw3) hb⟩
            · intro pre got tl y e F hg he hF
              obtain ⟨z, hz⟩ := head_keep hg he
              rw [hz] at hF ⊢
              exact ⟨F + 1, by simpa using run_arr hw hw2 hs2 d1 hF⟩
        rw [if_neg c3] at h
        by_cases c4 : isDigit c = true
        · rw [if_pos c4] at h; simp at h
        rw [if_neg c4] at h
        have lit : ∀ {t typ l} , (∀ F r, tVal (F + 1) pos (w ++ c :: r) = tLiteral t typ l (pos + w.length) (c :: r)) →
            LenientValue l t → l.head? = some c →
            ((typ = tNull ∧ l = b!"null") ∨ (typ = tBoolean ∧ (l = b!"true" ∨ l = b!"false"))) → l ≠ b!"any value" →
            (∀ s : Bytes, s.length = l.length → s.head? = some c → ErrShape typ (.str s) (.str l)) → ErrIn CompV tVal pos (w ++ c :: r) e :=
          fun h1 h2 h3 h4 h5 h6 => err_literal hw h2 h3 h4 h5 h6 (h1 fuel) h0
        by_cases c5 : c = 110
        · subst c5
          refine lit (t := .null) (typ := tNull) (l := strNull) ?_ .null rfl (.inl ⟨rfl, rfl⟩) (by decide) (fun s h1 h2 => .null h1 h2)
          intro F r
          unfold tVal
          rw [skipSpace_at _ hw (by decide)]
          simp only
          rw [if_neg (by decide), if_neg (by decide), if_neg (by decide), if_neg (by decide), if_pos trivial]
        rw [if_neg c5] at h
        by_cases c6 : c = 45
        · rw [if_pos c6] at h; simp at h
        rw [if_neg c6] at h
        by_cases c7 : c = 102
        · subst c7
          refine lit (t := .bool false) (typ := tBoolean) (l := strFalse) ?_ .false rfl (.inr ⟨rfl, .inr rfl⟩) (by decide) (fun s h1 h2 => .false h1 h2)
          intro F r
          unfold tVal
          rw [skipSpace_at _ hw (by decide)]
          simp only
          rw [if_neg (by decide), if_neg (by decide), if_neg (by decide), if_neg (by decide), if_neg (by decide), if_neg (by decide), if_pos trivial]
        rw [if_neg c7] at h
        by_cases c8 : c = 116
        · subst c8
          refine lit (t := .bool true) (typ := tBoolean) (l := strTrue) ?_ .true rfl (.inr ⟨rfl, .inl rfl⟩) (by decide) (fun s h1 h2 => .true h1 h2)
          intro F r
          unfold tVal
          rw [skipSpace_at _ hw (by decide)]
          simp only
          rw [if_neg (by decide), if_neg (by decide), if_neg (by decide), if_neg (by decide), if_neg (by decide), if_neg (by decide), if_neg (by decide),
            if_pos trivial]
        rw [if_neg c8] at h
        simp only [TR.err.injEq] at h; subst h
        refine ⟨.value c, w, r, by simp [gotBytes], rfl, ?_, ?_⟩
        · intro y hy
          rcases hy with ⟨_, t, ht⟩ | ⟨h, _⟩
          · exact ⟨[], w, y, t, by simp, hw, ht⟩
          · exact absurd rfl h
        · intro y
          refine ⟨1, ?_⟩
          simp only [gotBytes, List.cons_append, List.nil_append]
          unfold tVal
          rw [skipSpace_at _ hw hs]
          simp only
          rw [if_neg c1, if_neg c2, if_neg c3, if_neg c4, if_neg c5, if_neg c6, if_neg c7, if_neg c8]
    · -- elements
      unfold tElems at h
      have spec := (spec_all fuel).1 pos rest
      cases hv : tVal fuel pos rest with
      | crash => rw [hv] at h; simp at h
      | err e' =>
        rw [hv] at h
        simp only [TR.err.injEq] at h; subst h
        refine (ihV _ _ _ hv).lift [] [93] rfl rfl ?_ ?_
        · rintro s ⟨w, v, t, rfl, hw, hv⟩
          exact ⟨w, v ++ [], _, by simp, hw, .one hv IsWs.nil⟩
        · intro pre got tl y e F _ _ hF
          exact ⟨F + 1, run_elem hF⟩
      | ok x pos1 rest1 =>
        rw [hv] at h spec
        obtain ⟨w, v, rfl, hw, hlv, hn, rfl, _⟩ := spec
        simp only at h
        cases hsk : skipSpace (pos + w.length + v.length) rest1 with
        | mk pos2 rest2 =>
        rw [hsk] at h
        obtain ⟨w2, rfl, hw2, rfl, hsp2⟩ := skipSpace_sound hsk
        clear hsk
        match rest2, hsp2, hn with
        | [], _, _ => simp only [TR.err.injEq] at h; subst h; exact errIn_other (by simp)
        | c :: r, hsp2, hn =>
          have hs2 := hsp2 c r rfl
          simp only at h
          by_cases d1 : c = 44
          · rw [if_pos d1] at h
            subst d1
            have hm : tElems fuel (pos + w.length + v.length + w2.length + 1) r = .err e := by
              revert h
              cases tElems fuel (pos + w.length + v.length + w2.length + 1) r with
              | ok => simp
              | err => simp
              | crash => simp
            refine (ihE _ _ _ hm).lift (w ++ v ++ (w2 ++ [44])) [] (by simp) (by simp; omega) ?_ ?_
            · rintro s ⟨w3, body, xs, rfl, hw3, hb⟩
              exact ⟨w, v ++ w2 ++ [44] ++ w3 ++ body, _, by simp, hw, .cons hlv hw2 hw3 hb⟩
            · intro pre got tl y e F _ _ hF
              obtain ⟨F', h'⟩ := run_elems hw hlv hw2 hF
              exact ⟨F', by simpa using h'⟩
          rw [if_neg d1] at h
          by_cases d2 : c = 93
          · rw [if_pos d2] at h; simp at h
          rw [if_neg d2] at h
          simp only [TR.err.injEq] at h; subst h
          refine ⟨.elems c, w ++ v ++ w2, r, by simp [gotBytes], by simp; omega, ?_, ?_⟩
          · rintro y ⟨b, hb, rfl⟩
            simp only [List.mem_cons, List.not_mem_nil, or_false] at hb
            rcases hb with rfl | rfl
            · exact ⟨b!"null]", w, v ++ w2 ++ [44] ++ [] ++ (b!"null" ++ []), _, by simp, hw, .cons hlv hw2 IsWs.nil (.one .null IsWs.nil)⟩
            · exact ⟨[], w, v ++ w2, _, by simp, hw, .one hlv hw2⟩
          · intro y
            obtain ⟨F', h'⟩ := run_elems_bad (pos := pos) hw hlv hw2 (numFollow_change (r' := y) hn) hs2 d1 d2
            exact ⟨F', by simpa [gotBytes] using h'⟩
    · -- members
      have h0 := h
      unfold tMembers at h
      cases hsq : scanQuote key 0 with
      | none => rw [hsq] at h; simp only [TR.err.injEq] at h; subst h; exact errIn_other (by simp)
      | some i =>
        clear h
        obtain ⟨k, r, rfl, hk, rfl⟩ := scanQuote_sound _ _ _ _ (Nat.le_refl _) hsq
        have h := h0
        rw [run_key hk] at h
        clear h0 hsq
        cases hsk : skipSpace (pos + 1 + k.length) r with
        | mk pos1 rest1 =>
        rw [hsk] at h
        obtain ⟨w1, rfl, hw1, rfl, hsp1⟩ := skipSpace_sound hsk
        clear hsk
        match rest1, hsp1 with
        | [], _ => simp only [TR.err.injEq] at h; subst h; exact errIn_other (by simp)
        | c :: r, hsp1 =>
          have hs1 := hsp1 c r rfl
          simp only at h
          by_cases d1 : c = 58
          · rw [if_pos d1] at h
            subst d1
            have spec := (spec_all fuel).1 (pos + 1 + k.length + w1.length + 1) r
            cases hv : tVal fuel (pos + 1 + k.length + w1.length + 1) r with
            | crash => rw [hv] at h; simp at h
            | err e' =>
              rw [hv] at h
              simp only [TR.err.injEq] at h; subst h
              refine (ihV _ _ _ hv).lift (k ++ 34 :: (w1 ++ [58])) [125] (by simp) (by simp; omega) ?_ ?_
              · rintro s ⟨w, v, t, rfl, hw, hv⟩
                exact ⟨k ++ 34 :: (w1 ++ 58 :: (w ++ v ++ [])), _, by simp, members_one hk hw1 hw hv IsWs.nil⟩
              · intro pre got tl y e F _ _ hF
                exact ⟨F + 1, by simpa using run_value hk hw1 hF⟩
            | ok x pos1 rest1 =>
              rw [hv] at h spec
              obtain ⟨w, v, rfl, hw, hlv, hn, rfl, _⟩ := spec
              simp only at h
              cases hsk : skipSpace (pos + 1 + k.length + w1.length + 1 + w.length + v.length) rest1 with
              | mk pos2 rest2 =>
              rw [hsk] at h
              obtain ⟨w3, rfl, hw3, rfl, hsp3⟩ := skipSpace_sound hsk
              clear hsk
              match rest2, hsp3, hn with
              | [], _, _ => simp only [TR.err.injEq] at h; subst h; exact errIn_other (by simp)
              | c :: r, hsp3, hn =>
                have hs3 := hsp3 c r rfl
                simp only at h
                by_cases d2 : c = 44
                · rw [if_pos d2] at h
                  subst d2
                  cases hsk : skipSpace (pos + 1 + k.length + w1.length + 1 + w.length + v.length + w3.length + 1) r with
                  | mk pos4 rest4 =>
                  rw [hsk] at h
                  obtain ⟨w4, rfl, hw4, rfl, hsp4⟩ := skipSpace_sound hsk
                  clear hsk
                  match rest4, hsp4 with
                  | [], _ => simp only [TR.err.injEq] at h; subst h; exact errIn_other (by simp)
                  | c :: r, hsp4 =>
                    have hs4 := hsp4 c r rfl
                    simp only at h
                    by_cases d3 : c = 34
                    · rw [if_pos d3] at h
                      subst d3
                      have hm : tMembers fuel (pos + 1 + k.length + w1.length + 1 + w.length + v.length + w3.length + 1 + w4.length + 1) r = .err e := by
                        revert h
                        cases tMembers fuel (pos + 1 + k.length + w1.length + 1 + w.length + v.length + w3.length + 1 + w4.length + 1) r with
                        | ok => simp
                        | err => simp
                        | crash => simp
                      refine (ihM _ _ _ hm).lift (k ++ 34 :: (w1 ++ 58 :: (w ++ v ++ (w3 ++ 44 :: (w4 ++ [34]))))) [] (by simp)
                        (by simp; omega) ?_ ?_
                      · rintro s ⟨body, ms, rfl, hb⟩
                        exact ⟨k ++ 34 :: (w1 ++ 58 :: (w ++ v ++ (w3 ++ 44 :: (w4 ++ 34 :: body)))), _, by simp, members_cons hk hw1 hw hlv hw3 hw4 hb⟩
                      · intro pre got tl y e F _ _ hF
                        obtain ⟨F', h'⟩ := run_members hk hw1 hw hlv hw3 hw4 hF
                        exact ⟨F', by simpa using h'⟩
                    · rw [if_neg d3] at h
                      simp only [TR.err.injEq] at h; subst h
                      refine ⟨.key c, k ++ 34 :: (w1 ++ 58 :: (w ++ v ++ (w3 ++ 44 :: w4))), r, by simp [gotBytes], by simp; omega, ?_, ?_⟩
                      · rintro y ⟨b, hb, rfl⟩
                        simp only [List.mem_cons, List.not_mem_nil, or_false] at hb
                        subst hb
                        exact ⟨b!"\":null}", k ++ 34 :: (w1 ++ 58 :: (w ++ v ++ (w3 ++ 44 :: (w4 ++ b!"\"\":null")))), _, by simp,
                          members_cons hk hw1 hw hlv hw3 hw4 (members_null [] [] .nil IsWs.nil [] IsWs.nil)⟩
                      · intro y
                        obtain ⟨F', h'⟩ := run_nextkey_bad (pos := pos) (r := y) hk hw1 hw hlv hw3 hw4 hs4 d3
                        exact ⟨F', by simpa [gotBytes] using h'⟩
                rw [if_neg d2] at h
                by_cases d3 : c = 125
                · rw [if_pos d3] at h; simp at h
                rw [if_neg d3] at h
                simp only [TR.err.injEq] at h; subst h
                refine ⟨.members c, k ++ 34 :: (w1 ++ 58 :: (w ++ v ++ w3)), r, by simp [gotBytes], by simp; omega, ?_, ?_⟩
                · rintro y ⟨b, hb, rfl⟩
                  simp only [List.mem_cons, List.not_mem_nil, or_false] at hb
                  rcases hb with rfl | rfl
                  · exact ⟨b!"\"\":null}", k ++ 34 :: (w1 ++ 58 :: (w ++ v ++ (w3 ++ 44 :: ([] ++ b!"\"\":null")))), _, by simp,
                      members_cons hk hw1 hw hlv hw3 IsWs.nil (members_null [] [] .nil IsWs.nil [] IsWs.nil)⟩
                  · exact ⟨[], k ++ 34 :: (w1 ++ 58 :: (w ++ v ++ w3)), _, by simp, members_one hk hw1 hw hlv hw3⟩
                · intro y
                  obtain ⟨F', h'⟩ := run_next_bad (pos := pos) hk hw1 hw hlv hw3 (numFollow_change (r' := y) hn) hs3 d2 d3
                  exact ⟨F', by simpa [gotBytes] using h'⟩
          rw [if_neg d1] at h
          simp only [TR.err.injEq] at h; subst h
          refine ⟨.colon c, k ++ 34 :: w1, r, by simp [gotBytes], by simp; omega, ?_, ?_⟩
          · rintro y ⟨b, hb, rfl⟩
            simp only [List.mem_cons, List.not_mem_nil, or_false] at hb
            subst hb
            exact ⟨b!"null}", k ++ 34 :: (w1 ++ 58 :: ([] ++ b!"null")), _, by simp, members_null k w1 hk hw1 [] IsWs.nil⟩
          · intro y
            exact ⟨1, by simpa [gotBytes] using run_colon_bad (F := 0) hk hw1 hs1 d1⟩

end Verif.Njson
