import Verif.Model.StrJson
import Verif.Spec.JsonString
import Verif.Proofs.Utf8

/-!
The index-based loops of the model equal functions over the remaining input (`unesc`, `esc`), which consume
one character or escape at a time.
-/

namespace Verif.StrJson
open Verif Verif.Spec

/-! ## index arithmetic -/

theorem drop_eq_cons {s : Bytes} {i : Nat} (h : i < s.length) : s.drop i = at' s i :: s.drop (i + 1) := by
  rw [List.drop_eq_getElem_cons h]
  simp [at', h]

theorem sub_self (s : Bytes) {i j : Nat} (h : j ≤ i) : sub s i j = [] := by
  simp [sub]; omega

theorem sub_add (s : Bytes) {i j : Nat} (k : Nat) (h : i ≤ j) :
    sub s i (j + k) = sub s i j ++ (s.drop j).take k := by
  rw [sub, sub, List.take_add, List.drop_append]
  by_cases hj : j ≤ s.length
  · have : i - (List.take j s).length = 0 := by simp; omega
    rw [this]; rfl
  · have : s.drop j = [] := by simp; omega
    simp [this]

theorem sub_append_drop (s : Bytes) {i j : Nat} (h : i ≤ j) : sub s i j ++ s.drop j = s.drop i := by
  have := sub_add s (s.length) h
  rw [List.take_of_length_le (by simp)] at this
  rw [← this, sub, List.take_of_length_le (by omega)]

theorem ite_sub (b s : Bytes) (i j : Nat) : (if i < j then b ++ sub s i j else b) = b ++ sub s i j := by
  split
  · rfl
  · rw [sub_self s (by omega)]; simp

theorem ite_drop (b s : Bytes) (i : Nat) : (if i < s.length then b ++ s.drop i else b) = b ++ s.drop i := by
  split
  · rfl
  · rw [List.drop_eq_nil_of_le (by omega)]; simp

theorem sub_length (s : Bytes) {i j : Nat} (h : j ≤ s.length) : (sub s i j).length = j - i := by
  simp [sub]; omega

/-! ## unescape -/

/-- One step of unescaping at the front of a non-empty suffix: bytes produced, bytes consumed. -/
def uStep : Bytes → Bytes × Nat
  | [] => ([], 1)
  | c :: r =>
    if c ≠ 92 then ([c], 1)
    else match r with
      | [] => ([92], 1)
      | c :: r' =>
        match simpleEscape c with
        | some v => ([v], 2)
        | none =>
          if c = 117 then
            if r'.length > 3 then
              let r1 := hex4 (c :: r') 1
              if r1 < runeSelf then ([runeByte r1], 6)
              else (encodeRune (unescapeRune (c :: r') 0 r1).1, (unescapeRune (c :: r') 0 r1).2 + 1)
            else ([92, 117], 2)
          else ([92, c], 2)

theorem unescapeRune_snd (ss : Bytes) (i r : Nat) : (unescapeRune ss i r).2 = i + (unescapeRune ss 0 r).2 := by
  simp only [unescapeRune]; split
  · split <;> simp <;> omega
  · simp

theorem unescapeRune_fst (ss : Bytes) (i r : Nat) : (unescapeRune ss i r).1 = (unescapeRune ss 0 r).1 := by
  simp only [unescapeRune]; split
  · split <;> rfl
  · rfl

theorem unescapeRune_pos (ss : Bytes) (r : Nat) : 5 ≤ (unescapeRune ss 0 r).2 := by
  simp only [unescapeRune]; split
  · split <;> simp
  · simp

theorem unescapeRune_le (ss : Bytes) (r : Nat) (h : 4 < ss.length) : (unescapeRune ss 0 r).2 ≤ ss.length := by
  simp only [unescapeRune]; split
  · split <;> simp_all <;> omega
  · simp; omega

theorem uStep_pos (s : Bytes) : 0 < (uStep s).2 := by
  unfold uStep
  repeat' split
  all_goals try simp
  split <;> simp

theorem uStep_le (s : Bytes) (hs : s ≠ []) : (uStep s).2 ≤ s.length := by
  unfold uStep
  split
  · contradiction
  · split
    · simp
    · split
      · simp
      · split
        · simp
        · split
          · split
            · simp only
              split
              · simp; omega
              · rename_i h1 h2 h3
                exact Nat.succ_le_succ (unescapeRune_le _ _ (Nat.succ_lt_succ h2))
            · simp
          · simp

theorem uStep_out_le (s : Bytes) : (uStep s).1.length ≤ (uStep s).2 := by
  unfold uStep
  split
  · simp
  · split
    · simp
    · split
      · simp
      · split
        · simp
        · split
          · split
            · simp only
              split
              · simp
              · simp only
                refine Nat.le_trans (encodeRune_length_le _) ?_
                exact Nat.le_trans (by omega) (Nat.add_le_add_right (unescapeRune_pos _ _) 1)
            · simp
          · simp

theorem simpleEscape_u : simpleEscape 117 = none := by decide

theorem uStep_simple {c v : UInt8} (r : Bytes) (h : simpleEscape c = some v) : uStep (92 :: c :: r) = ([v], 2) := by
  simp [uStep, h]
theorem uStep_bad {c : UInt8} (r : Bytes) (h : simpleEscape c = none) (h' : c ≠ 117) :
    uStep (92 :: c :: r) = ([92, c], 2) := by
  simp [uStep, h, h']
theorem uStep_uShort {r : Bytes} (h : ¬ r.length > 3) : uStep (92 :: 117 :: r) = ([92, 117], 2) := by
  simp [uStep, simpleEscape_u, h]
theorem uStep_uAscii {r : Bytes} (h : r.length > 3) (h' : hex4 (117 :: r) 1 < runeSelf) :
    uStep (92 :: 117 :: r) = ([runeByte (hex4 (117 :: r) 1)], 6) := by
  simp only [uStep, simpleEscape_u, if_pos h, if_pos h']; simp
theorem uStep_uRune {r : Bytes} (h : r.length > 3) (h' : ¬ hex4 (117 :: r) 1 < runeSelf) :
    uStep (92 :: 117 :: r) = (encodeRune (unescapeRune (117 :: r) 0 (hex4 (117 :: r) 1)).1,
      (unescapeRune (117 :: r) 0 (hex4 (117 :: r) 1)).2 + 1) := by
  simp only [uStep, simpleEscape_u, if_pos h, if_neg h']; simp

/-- Unescaping as a function of the remaining input. -/
def unesc (s : Bytes) : Bytes :=
  if s = [] then [] else (uStep s).1 ++ unesc (s.drop (uStep s).2)
termination_by s.length
decreasing_by
  rename_i h
  have := uStep_pos s
  have : 0 < s.length := List.length_pos_iff.2 h
  simp; omega

@[simp] theorem unesc_nil : unesc [] = [] := by rw [unesc]; simp

theorem unesc_step {s : Bytes} (h : s ≠ []) : unesc s = (uStep s).1 ++ unesc (s.drop (uStep s).2) := by
  rw [unesc]; simp [h]

theorem unesc_length_le (s : Bytes) : (unesc s).length ≤ s.length := by
  induction hn : s.length using Nat.strongRecOn generalizing s with
  | _ n ih =>
    by_cases h : s = []
    · subst h; simp
    · have hp : 0 < s.length := List.length_pos_iff.2 h
      have h1 := uStep_pos s
      have h2 := uStep_le s h
      have h3 := uStep_out_le s
      have := ih (s.drop (uStep s).2).length (by simp; omega) _ rfl
      rw [unesc_step h]
      simp at this ⊢; omega

theorem unesc_cons {c : UInt8} (s : Bytes) (h : c ≠ 92) : unesc (c :: s) = c :: unesc s := by
  rw [unesc_step (by simp)]
  simp [uStep, h]

theorem unesc_append {p : Bytes} (s : Bytes) (h : ∀ c ∈ p, c ≠ 92) : unesc (p ++ s) = p ++ unesc s := by
  induction p with
  | nil => rfl
  | cons c p ih =>
    simp only [List.cons_append]
    rw [unesc_cons _ (h c (by simp)), ih (fun d hd => h d (by simp [hd]))]

theorem unescapedLoop_eq (s : Bytes) (fuel i pos : Nat) (b : Bytes) (hpos : pos ≤ i) (hi : i ≤ s.length)
    (hf : s.length < fuel + i) :
    unescapedLoop s fuel i pos b = b ++ sub s pos i ++ unesc (s.drop i) := by
  induction fuel generalizing i pos b with
  | zero => omega
  | succ fuel ih =>
    rw [unescapedLoop]
    split
    · rename_i hlt
      have hd := drop_eq_cons hlt
      split
      · rename_i hc
        rw [ih (i + 1) pos b (by omega) (by omega) (by omega), sub_add s 1 hpos, hd, unesc_cons _ hc]
        simp
      · rename_i hc
        have hc : at' s i = 92 := by simpa using hc
        simp only [ite_sub]
        rw [unesc_step (s := s.drop i) (by rw [hd]; simp)]
        split
        · rename_i hlt'
          have hd' := drop_eq_cons hlt'
          have hu : s.drop i = 92 :: at' s (i + 1) :: s.drop (i + 2) := by rw [hd, hc, hd']
          have hlen : (s.drop (i + 2)).length + 2 = (s.drop i).length := by simp; omega
          split
          · rename_i v hv
            have hs : uStep (s.drop i) = ([v], 2) := by rw [hu, uStep_simple _ hv]
            rw [ih _ _ _ (by omega) (by omega) (by omega), sub_self s (Nat.le_refl _), hs]
            simp
          · rename_i hv
            split
            · rename_i h117
              split
              · rename_i hss
                have hss' : (s.drop (i + 2)).length > 3 := by simp at hss ⊢; omega
                split
                · rename_i hr1
                  have hs : uStep (s.drop i) = ([runeByte (hex4 (s.drop (i + 1)) 1)], 6) := by
                    rw [hd', h117] at hr1 ⊢
                    rw [hu, h117, uStep_uAscii hss' hr1]
                  rw [ih _ _ _ (by omega) (by simp at hss; omega) (by simp at hss; omega),
                    sub_self s (Nat.le_refl _), hs]
                  simp
                · rename_i hr1
                  have hle := unescapeRune_le (s.drop (i + 1)) (hex4 (s.drop (i + 1)) 1) hss
                  have hs : uStep (s.drop i) = (encodeRune (unescapeRune (s.drop (i + 1)) 0 (hex4 (s.drop (i + 1)) 1)).1,
                      (unescapeRune (s.drop (i + 1)) 0 (hex4 (s.drop (i + 1)) 1)).2 + 1) := by
                    rw [hd', h117] at hr1 ⊢
                    rw [hu, h117, uStep_uRune hss' hr1]
                  have hp := unescapeRune_pos (s.drop (i + 1)) (hex4 (s.drop (i + 1)) 1)
                  rw [unescapeRune_snd, unescapeRune_fst]
                  rw [ih _ _ _ (by omega) (by simp at hle; omega) (by omega),
                    sub_self s (Nat.le_refl _), hs]
                  simp only [List.drop_drop, List.append_nil, List.append_assoc]
                  congr 5
                  omega
              · rename_i hss
                have hss' : ¬ (s.drop (i + 2)).length > 3 := by simp at hss ⊢; omega
                have hs : uStep (s.drop i) = ([92, 117], 2) := by
                  rw [hu, h117, uStep_uShort hss']
                rw [ih _ _ _ (by omega) (by omega) (by omega), sub_self s (Nat.le_refl _), hs]
                simp
            · rename_i h117
              have hs : uStep (s.drop i) = ([92, at' s (i + 1)], 2) := by
                rw [hu, uStep_bad _ hv h117]
              rw [ih _ _ _ (by omega) (by omega) (by omega), sub_self s (Nat.le_refl _), hs]
              simp
        · rename_i hlt'
          have : s.drop (i + 1) = [] := by simp; omega
          rw [hd, hc, this]
          simp [uStep]
    · rename_i hlt
      have : i = s.length := by omega
      subst this
      rw [ite_drop]
      rw [← sub_append_drop s hpos]
      simp

theorem indexByte_none {s : Bytes} {c : UInt8} (h : indexByte s c = none) : ∀ x ∈ s, x ≠ c := by
  simpa [indexByte] using h

theorem indexByte_some {s : Bytes} {c : UInt8} {i : Nat} (h : indexByte s c = some i) :
    i < s.length ∧ at' s i = c ∧ ∀ x ∈ s.take i, x ≠ c := by
  rw [indexByte, List.findIdx?_eq_some_iff_getElem] at h
  obtain ⟨hi, hc, hp⟩ := h
  refine ⟨hi, by simpa [at', hi] using hc, ?_⟩
  intro x hx
  rw [List.mem_take_iff_getElem] at hx
  obtain ⟨j, hj, rfl⟩ := hx
  simpa using hp j (by omega)

/-- `Unescaped` equals the suffix function. -/
theorem unescaped_eq (s : Bytes) : unescaped s = unesc s := by
  unfold unescaped
  split
  · rename_i h
    have : s = [] := List.eq_nil_of_length_eq_zero h
    subst this; simp
  · split
    · rename_i h
      have := unesc_append (p := s) [] (indexByte_none h)
      simpa using this.symm
    · rename_i i h
      obtain ⟨h1, _, h2⟩ := indexByte_some h
      rw [unescapedLoop_eq s _ i 0 [] (by omega) (by omega) (by omega)]
      have := unesc_append (p := s.take i) (s.drop i) h2
      rw [List.take_append_drop] at this
      rw [this]; simp [sub]

/-! ### `Unescape` into a buffer -/

theorem overwrite_length {dst p : Bytes} {j : Nat} (h : j + p.length ≤ dst.length) :
    (overwrite dst j p).length = dst.length := by
  simp [overwrite]; omega

theorem overwrite_nil (dst : Bytes) (j : Nat) : overwrite dst j [] = dst := by simp [overwrite]

theorem overwrite_overwrite (dst p q : Bytes) (j : Nat) (h : j + p.length ≤ dst.length) :
    overwrite (overwrite dst j p) (j + p.length) q = overwrite dst j (p ++ q) := by
  have h1 : (dst.take j ++ p).length = j + p.length := by simp; omega
  simp only [overwrite]
  rw [← h1, List.take_left', List.drop_append, List.drop_append]
  · have h2 : j + (p ++ q).length = (dst.take j ++ p).length + q.length := by
      simp [h1]; omega
    rw [h2]
    have h3 : (dst.take j ++ p).length + q.length - (dst.take j ++ p).length = q.length := by omega
    rw [h3, List.drop_drop]
    have h4 : (List.drop ((dst.take j ++ p).length + q.length - (List.take j dst).length) p) = [] := by
      simp; omega
    have h5 : List.drop ((List.take j dst ++ p).length + q.length) (List.take j dst) = [] := by
      simp; omega
    rw [h4, h5, h1]
    simp
  · rfl

theorem writeStringAt_eq {dst p : Bytes} {j : Nat} (h : j + p.length ≤ dst.length) :
    writeStringAt dst p j = (overwrite dst j p, p.length) := by
  unfold writeStringAt
  split
  · rfl
  · rename_i hn
    have : p = [] := by
      apply List.eq_nil_of_length_eq_zero
      rcases Nat.lt_or_ge j dst.length with h1 | h1
      · exact absurd ⟨h1, by omega⟩ hn
      · omega
    subst this
    simp [overwrite_nil]

theorem writeByteAt_eq {dst : Bytes} {c : UInt8} {j : Nat} (h : j < dst.length) :
    writeByteAt dst c j = (overwrite dst j [c], j + 1) := by
  simp [writeByteAt, h]

theorem writeTwo_eq {dst : Bytes} {a b : UInt8} {j : Nat} (h : j + 1 < dst.length) :
    writeByteAt (writeByteAt dst a j).1 b (writeByteAt dst a j).2 = (overwrite dst j [a, b], j + 2) := by
  rw [writeByteAt_eq (dst := dst) (j := j) (by omega)]
  have hl : (overwrite dst j [a]).length = dst.length := overwrite_length (by simp; omega)
  rw [writeByteAt_eq (dst := overwrite dst j [a]) (j := j + 1) (by omega)]
  have e := overwrite_overwrite dst [a] [b] j (by simp; omega)
  simpa using e

theorem writeRuneAt_eq {dst : Bytes} {r j : Nat} (h : j + (encodeRune r).length ≤ dst.length) :
    writeRuneAt dst r j = some (overwrite dst j (encodeRune r), j + (encodeRune r).length) := by
  have := encodeRune_length_pos r
  simp only [writeRuneAt]
  rw [if_pos (by omega), if_pos (by omega)]

/-- With a buffer at least as long as the input, the loop of `Unescape` never panics and writes exactly
the pending bytes followed by the unescaped rest. -/
theorem unescapeLoop_eq (s : Bytes) (fuel i pos j : Nat) (dst : Bytes) (hj : j ≤ pos) (hpos : pos ≤ i)
    (hi : i ≤ s.length) (hdst : s.length ≤ dst.length) (hf : s.length < fuel + i) :
    unescapeLoop s fuel i pos j dst =
      some (overwrite dst j (sub s pos i ++ unesc (s.drop i)),
        j + (sub s pos i ++ unesc (s.drop i)).length) := by
  induction fuel generalizing i pos j dst with
  | zero => omega
  | succ fuel ih =>
    rw [unescapeLoop]
    split
    · rename_i hlt
      have hd := drop_eq_cons hlt
      split
      · rename_i hc
        rw [ih (i + 1) pos j dst hj (by omega) (by omega) hdst (by omega), sub_add s 1 hpos, hd, unesc_cons _ hc]
        simp
      · rename_i hc
        have hc : at' s i = 92 := by simpa using hc
        have hsl := sub_length s (i := pos) (Nat.le_of_lt hlt)
        have hw : (if pos < i then
            let (dst', n) := writeStringAt dst (sub s pos i) j
            (dst', j + n) else (dst, j)) = (overwrite dst j (sub s pos i), j + (sub s pos i).length) := by
          split
          · rw [writeStringAt_eq (by omega)]
          · rw [sub_self s (by omega), overwrite_nil]; simp
        rw [hw]
        -- the rest, for any step result `o` written at the new `j`
        have hst : ∀ (o : Bytes) (k : Nat), uStep (s.drop i) = (o, k) → o.length ≤ k → i + k ≤ s.length → 0 < k →
            unescapeLoop s fuel (i + k) (i + k) (j + (sub s pos i).length + o.length)
              (overwrite (overwrite dst j (sub s pos i)) (j + (sub s pos i).length) o) =
            some (overwrite dst j (sub s pos i ++ unesc (s.drop i)),
              j + (sub s pos i ++ unesc (s.drop i)).length) := by
          intro o k hk hok hik hk0
          have hlen1 : (overwrite dst j (sub s pos i)).length = dst.length := overwrite_length (by omega)
          rw [ih _ _ _ _ (by omega) (Nat.le_refl _) hik (by rw [overwrite_length] <;> omega) (by omega),
            sub_self s (Nat.le_refl _), List.nil_append, unesc_step (s := s.drop i) (by rw [hd]; simp), hk]
          rw [overwrite_overwrite _ _ _ _ (by omega)]
          have hcomb : j + (sub s pos i).length + o.length = j + (sub s pos i ++ o).length := by simp; omega
          rw [hcomb, overwrite_overwrite dst (sub s pos i) _ j (by omega)]
          simp [Nat.add_assoc]
        have hlen1 : (overwrite dst j (sub s pos i)).length = dst.length := overwrite_length (by omega)
        simp only
        split
        · rename_i hlt'
          have hd' := drop_eq_cons hlt'
          have hu : s.drop i = 92 :: at' s (i + 1) :: s.drop (i + 2) := by rw [hd, hc, hd']
          split
          · rename_i v hv
            rw [writeByteAt_eq (by omega)]
            exact hst [v] 2 (by rw [hu, uStep_simple _ hv]) (by simp) (by omega) (by omega)
          · rename_i hv
            split
            · rename_i h117
              split
              · rename_i hss
                have hss' : (s.drop (i + 2)).length > 3 := by simp at hss ⊢; omega
                split
                · rename_i hr1
                  rw [writeByteAt_eq (by omega)]
                  refine hst [_] 6 ?_ (by simp) (by simp at hss; omega) (by omega)
                  rw [hd', h117] at hr1 ⊢
                  rw [hu, h117, uStep_uAscii hss' hr1]
                · rename_i hr1
                  have hle := unescapeRune_le (s.drop (i + 1)) (hex4 (s.drop (i + 1)) 1) hss
                  have hp := unescapeRune_pos (s.drop (i + 1)) (hex4 (s.drop (i + 1)) 1)
                  have hr4 := encodeRune_length_le (unescapeRune (s.drop (i + 1)) 0 (hex4 (s.drop (i + 1)) 1)).1
                  rw [unescapeRune_snd, unescapeRune_fst, writeRuneAt_eq (by simp at hss; omega)]
                  simp only
                  have := hst (encodeRune (unescapeRune (s.drop (i + 1)) 0 (hex4 (s.drop (i + 1)) 1)).1)
                    ((unescapeRune (s.drop (i + 1)) 0 (hex4 (s.drop (i + 1)) 1)).2 + 1) ?_ (by omega)
                    (by simp at hle; omega) (by omega)
                  · rw [← this]
                    congr 1 <;> omega
                  · rw [hd', h117] at hr1 ⊢
                    rw [hu, h117, uStep_uRune hss' hr1]
              · rename_i hss
                have hss' : ¬ (s.drop (i + 2)).length > 3 := by simp at hss ⊢; omega
                rw [writeTwo_eq (by omega)]
                exact hst [92, 117] 2 (by rw [hu, h117, uStep_uShort hss']) (by simp) (by omega) (by omega)
            · rename_i h117
              rw [writeTwo_eq (by omega)]
              exact hst [92, at' s (i + 1)] 2 (by rw [hu, uStep_bad _ hv h117]) (by simp) (by omega) (by omega)
        · rename_i hlt'
          have : s.drop (i + 1) = [] := by simp; omega
          rw [writeByteAt_eq (by omega), overwrite_overwrite _ _ _ _ (by omega), unesc_step (by rw [hd]; simp), hd,
            hc, this]
          simp [uStep, Nat.add_assoc]
    · rename_i hlt
      have hie : i = s.length := by omega
      subst hie
      have hsd := sub_append_drop s hpos
      simp at hsd
      simp only [List.drop_length, unesc_nil, List.append_nil]
      rw [hsd]
      split
      · rw [writeStringAt_eq (by simp; omega)]
      · have : s.drop pos = [] := by simp; omega
        rw [this, overwrite_nil]; simp

theorem unescape_eq (dst s : Bytes) (h : s.length ≤ dst.length) :
    unescape dst s = some (unesc s ++ dst.drop (unesc s).length, (unesc s).length) := by
  unfold unescape
  split
  · rename_i hs
    have : s = [] := List.eq_nil_of_length_eq_zero hs
    subst this; simp
  · rw [unescapeLoop_eq s _ 0 0 0 dst (by omega) (by omega) (by omega) h (by omega)]
    simp [sub, overwrite]

theorem appendUnescaped_eq (dst spare s : Bytes) : appendUnescaped dst spare s = some (dst ++ unesc s) := by
  have hle := unesc_length_le s
  unfold appendUnescaped
  split
  · rename_i hs
    have : s = [] := List.eq_nil_of_length_eq_zero hs
    subst this; simp
  · simp only
    split
    · rw [unescape_eq _ _ (by simp)]
      simp only
      rw [if_pos (by omega), ← List.append_assoc, List.take_left' (by simp; omega)]
    · rw [unescape_eq _ _ (by omega)]
      simp only
      rw [if_pos (by omega), ← List.append_assoc, List.take_left' (by simp; omega)]

/-! ## escape -/

/-- One step of escaping at the front of a non-empty suffix: bytes produced, bytes consumed. -/
def eStep (html : Bool) : Bytes → Bytes × Nat
  | [] => ([], 1)
  | c :: r =>
    let e := toJSON c
    if e = 0x80 then ([c], 1)
    else if e = 0xff then
      let d := decodeRune (c :: r)
      if d.1 = runeError ∨ d.1 = 0x2028 ∨ d.1 = 0x2029 then (escapeUTF8 [] d.1, d.2)
      else ((c :: r).take d.2, d.2)
    else if e = 1 ∧ html = false then ([c], 1)
    else
      let e := if e = 1 then 0 else e
      if e = 92 then ([92, c], 1)
      else if e = 0 then (escapeByte [] c, 1)
      else ([92, e], 1)

theorem eStep_cons (html : Bool) (c : UInt8) (r : Bytes) : eStep html (c :: r) =
    if toJSON c = 0x80 then ([c], 1)
    else if toJSON c = 0xff then
      if (decodeRune (c :: r)).1 = runeError ∨ (decodeRune (c :: r)).1 = 0x2028 ∨ (decodeRune (c :: r)).1 = 0x2029
      then (escapeUTF8 [] (decodeRune (c :: r)).1, (decodeRune (c :: r)).2)
      else ((c :: r).take (decodeRune (c :: r)).2, (decodeRune (c :: r)).2)
    else if toJSON c = 1 ∧ html = false then ([c], 1)
    else
      if (if toJSON c = 1 then 0 else toJSON c) = 92 then ([92, c], 1)
      else if (if toJSON c = 1 then 0 else toJSON c) = 0 then (escapeByte [] c, 1)
      else ([92, (if toJSON c = 1 then 0 else toJSON c)], 1) := rfl

theorem decodeRune_size (b : UInt8) (s : Bytes) :
    0 < (decodeRune (b :: s)).2 ∧ (decodeRune (b :: s)).2 ≤ (b :: s).length := by
  rcases decodeRune_spec b s with ⟨c, t, h1, h2⟩ | ⟨_, h2⟩
  · rw [h2, h1]
    have := enc_ne_nil c
    have := List.length_pos_iff.2 this
    simp at this ⊢; omega
  · rw [h2]; simp

theorem eStep_size (html : Bool) (b : UInt8) (s : Bytes) :
    0 < (eStep html (b :: s)).2 ∧ (eStep html (b :: s)).2 ≤ (b :: s).length := by
  have := decodeRune_size b s
  unfold eStep
  simp only
  repeat' split
  all_goals first | exact this | simp

theorem eStep_pos (html : Bool) (s : Bytes) : 0 < (eStep html s).2 := by
  cases s with
  | nil => simp [eStep]
  | cons b s => exact (eStep_size html b s).1

/-- Escaping as a function of the remaining input. -/
def esc (html : Bool) (s : Bytes) : Bytes :=
  if s = [] then [] else (eStep html s).1 ++ esc html (s.drop (eStep html s).2)
termination_by s.length
decreasing_by
  rename_i h
  have := eStep_pos html s
  have : 0 < s.length := List.length_pos_iff.2 h
  simp; omega

@[simp] theorem esc_nil (html : Bool) : esc html [] = [] := by rw [esc]; simp

theorem esc_step {html : Bool} {s : Bytes} (h : s ≠ []) :
    esc html s = (eStep html s).1 ++ esc html (s.drop (eStep html s).2) := by
  rw [esc]; simp [h]

theorem escapeUTF8_append (b : Bytes) (r : Nat) : escapeUTF8 b r = b ++ escapeUTF8 [] r := by simp [escapeUTF8]
theorem escapeByte_append (b : Bytes) (c : UInt8) : escapeByte b c = b ++ escapeByte [] c := by simp [escapeByte]

theorem escapedLoop_eq (html : Bool) (s : Bytes) (fuel i pos : Nat) (b : Bytes) (hpos : pos ≤ i)
    (hi : i ≤ s.length) (hf : s.length < fuel + i) :
    escapedLoop html s fuel i pos b = b ++ sub s pos i ++ esc html (s.drop i) := by
  induction fuel generalizing i pos b with
  | zero => omega
  | succ fuel ih =>
    rw [escapedLoop]
    split
    · rename_i hlt
      have hd := drop_eq_cons hlt
      have hsz := decodeRune_size (at' s i) (s.drop (i + 1))
      rw [← hd] at hsz
      have hstep := esc_step (html := html) (s := s.drop i) (by rw [hd]; simp)
      rw [hstep]
      simp only [ite_sub]
      have hes := eStep_cons html (at' s i) (s.drop (i + 1))
      rw [← hd] at hes
      split
      · rename_i h80
        rw [if_pos h80] at hes
        rw [ih _ _ _ (by omega) (by omega) (by omega), sub_add s 1 hpos, hes, hd]
        simp
      · rename_i h80
        rw [if_neg h80] at hes
        split
        · rename_i hff
          rw [if_pos hff] at hes
          split
          · rename_i hr
            rw [if_pos hr] at hes
            rw [if_neg (by omega), ih _ _ _ (by omega) (by simp at hsz; omega) (by omega), sub_self s (Nat.le_refl _),
              hes, escapeUTF8_append]
            simp
          · rename_i hr
            rw [if_neg hr] at hes
            have : i + ((decodeRune (List.drop i s)).snd - 1) + 1 = i + (decodeRune (List.drop i s)).snd := by omega
            rw [this, ih _ _ _ (by omega) (by simp at hsz; omega) (by omega), sub_add s _ hpos, hes]
            simp
        · rename_i hff
          rw [if_neg hff] at hes
          split
          · rename_i h1
            rw [if_pos h1] at hes
            rw [ih _ _ _ (by omega) (by omega) (by omega), sub_add s 1 hpos, hes, hd]
            simp
          · rename_i h1
            rw [if_neg h1] at hes
            generalize (if toJSON (at' s i) = 1 then 0 else toJSON (at' s i)) = e' at hes ⊢
            split
            · rename_i h92
              rw [if_pos h92] at hes
              rw [ih _ _ _ (by omega) (by omega) (by omega), sub_self s (Nat.le_refl _), hes]
              simp
            · rename_i h92
              rw [if_neg h92] at hes
              split
              · rename_i h0
                rw [if_pos h0] at hes
                rw [ih _ _ _ (by omega) (by omega) (by omega), sub_self s (Nat.le_refl _), hes, escapeByte_append]
                simp
              · rename_i h0
                rw [if_neg h0] at hes
                rw [ih _ _ _ (by omega) (by omega) (by omega), sub_self s (Nat.le_refl _), hes]
                simp
    · rename_i hlt
      have : i = s.length := by omega
      subst this
      rw [ite_drop]
      rw [← sub_append_drop s hpos]
      simp

theorem appendEscapedLoop_eq (html : Bool) (s : Bytes) (fuel i pos : Nat) (b : Bytes) (hpos : pos ≤ i)
    (hi : i ≤ s.length) (hf : s.length < fuel + i) :
    appendEscapedLoop html s fuel i pos b = b ++ sub s pos i ++ esc html (s.drop i) := by
  induction fuel generalizing i pos b with
  | zero => omega
  | succ fuel ih =>
    rw [appendEscapedLoop]
    split
    · rename_i hlt
      have hd := drop_eq_cons hlt
      have hsz := decodeRune_size (at' s i) (s.drop (i + 1))
      rw [← hd] at hsz
      have hstep := esc_step (html := html) (s := s.drop i) (by rw [hd]; simp)
      rw [hstep]
      simp only [ite_sub]
      have hes := eStep_cons html (at' s i) (s.drop (i + 1))
      rw [← hd] at hes
      split
      · rename_i h80
        rw [if_pos h80] at hes
        rw [ih _ _ _ (by omega) (by omega) (by omega), sub_add s 1 hpos, hes, hd]
        simp
      · rename_i h80
        rw [if_neg h80] at hes
        split
        · rename_i hff
          rw [if_pos hff] at hes
          split
          · rename_i hr
            rw [if_pos hr] at hes
            rw [if_neg (by omega), ih _ _ _ (by omega) (by simp at hsz; omega) (by omega), sub_self s (Nat.le_refl _),
              hes, escapeUTF8_append]
            simp
          · rename_i hr
            rw [if_neg hr] at hes
            have : i + ((decodeRune (List.drop i s)).snd - 1) + 1 = i + (decodeRune (List.drop i s)).snd := by omega
            rw [this, ih _ _ _ (by omega) (by simp at hsz; omega) (by omega), sub_add s _ hpos, hes]
            simp
        · rename_i hff
          rw [if_neg hff] at hes
          split
          · rename_i h1
            rw [if_pos h1] at hes
            rw [ih _ _ _ (by omega) (by omega) (by omega), sub_add s 1 hpos, hes, hd]
            simp
          · rename_i h1
            rw [if_neg h1] at hes
            generalize (if toJSON (at' s i) = 1 then 0 else toJSON (at' s i)) = e' at hes ⊢
            split
            · rename_i h92
              rw [if_pos h92] at hes
              rw [ih _ _ _ (by omega) (by omega) (by omega), sub_self s (Nat.le_refl _), hes]
              simp
            · rename_i h92
              rw [if_neg h92] at hes
              split
              · rename_i h0
                rw [if_pos h0] at hes
                rw [ih _ _ _ (by omega) (by omega) (by omega), sub_self s (Nat.le_refl _), hes, escapeByte_append]
                simp
              · rename_i h0
                rw [if_neg h0] at hes
                rw [ih _ _ _ (by omega) (by omega) (by omega), sub_self s (Nat.le_refl _), hes]
                simp
    · rename_i hlt
      have : i = s.length := by omega
      subst this
      rw [ite_drop]
      rw [← sub_append_drop s hpos]
      simp

theorem escaped_eq (s : Bytes) (html : Bool) : escaped s html false = esc html s := by
  unfold escaped
  split
  · rename_i h
    have : s = [] := List.eq_nil_of_length_eq_zero h
    subst this; simp
  · simp only [Bool.false_eq_true, if_false]
    rw [escapedLoop_eq html s _ 0 0 [] (by omega) (by omega) (by omega)]
    simp [sub]

theorem escaped_quoted_eq (s : Bytes) (html : Bool) : escaped s html true = 34 :: (esc html s ++ [34]) := by
  unfold escaped
  split
  · rename_i h
    have : s = [] := List.eq_nil_of_length_eq_zero h
    subst this; simp
  · simp only [if_true]
    rw [escapedLoop_eq html s _ 0 0 _ (by omega) (by omega) (by omega)]
    simp [sub]

theorem appendEscaped_eq (dst s : Bytes) (html : Bool) : appendEscaped dst s html = dst ++ esc html s := by
  unfold appendEscaped
  split
  · rename_i h
    have : s = [] := List.eq_nil_of_length_eq_zero h
    subst this; simp
  · rw [appendEscapedLoop_eq html s _ 0 0 dst (by omega) (by omega) (by omega)]
    simp [sub]

end Verif.StrJson
