import Verif.Spec.UnStream

/-! # Reading lines from a `bufio.Reader` -/

namespace Verif.UnStream
open Verif Verif.Njson Verif.Unjson

theorem cut_some : ∀ {s l r : Bytes}, cut s = some (l, r) → ∃ a, l = a ++ [10] ∧ s = l ++ r ∧ 10 ∉ a := by
  intro s
  induction s with
  | nil => intro l r h; cases h
  | cons c s ih =>
    intro l r h
    unfold cut at h
    by_cases hc : c = 10
    · rw [if_pos hc] at h; cases h; subst hc; exact ⟨[], rfl, rfl, by simp⟩
    · rw [if_neg hc] at h
      cases hq : cut s with
      | none => rw [hq] at h; cases h
      | some p =>
        obtain ⟨l', r'⟩ := p
        rw [hq] at h; cases h
        obtain ⟨a, h1, h2, h3⟩ := ih hq
        refine ⟨c :: a, by rw [h1]; rfl, by rw [h2]; rfl, ?_⟩
        simp only [List.mem_cons, not_or]
        exact ⟨fun h => hc h.symm, h3⟩

theorem cut_none : ∀ {s : Bytes}, cut s = none → 10 ∉ s := by
  intro s
  induction s with
  | nil => intro h; simp
  | cons c s ih =>
    intro h
    unfold cut at h
    by_cases hc : c = 10
    · rw [if_pos hc] at h; cases h
    · rw [if_neg hc] at h
      cases hq : cut s with
      | none =>
        simp only [List.mem_cons, not_or]
        exact ⟨fun h => hc h.symm, ih hq⟩
      | some p => rw [hq] at h; cases h

theorem NoStall.tail {p : Bytes × Option UErr} {s : Src} (h : NoStall (p :: s)) : NoStall s := by
  intro pre mid post hs hm
  exact h (p :: pre) mid post (by rw [hs]; rfl) hm

theorem NoStall.nil : NoStall [] := by
  intro pre mid post hs hm
  have : mid = [] := by
    cases mid with
    | nil => rfl
    | cons _ _ => simp at hs
  subst this; simp

theorem NoStall.head {p q : Bytes × Option UErr} {s : Src} (h : NoStall (p :: s)) (hq : q ≠ ([], none)) : NoStall (q :: s) := by
  intro pre mid post hs hm
  cases pre with
  | nil =>
    cases mid with
    | nil => simp
    | cons m mid =>
      simp at hs
      exact absurd ((hs.1.trans (hm m (by simp)))) hq
  | cons a pre =>
    simp at hs
    exact h.tail pre mid post (by simp [hs.2]) hm

/-- The state of a reader that is going to deliver `c` and has had no error. -/
structure Good (b : BufR) (c : Bytes) : Prop where
  size : 2 ≤ b.size
  fits : b.unread.length ≤ b.size
  stall : NoStall b.src
  content : (b.err = none ∧ ∃ c', Delivers b.src c' ∧ c = b.unread ++ c') ∨ (b.err = some .eof ∧ b.src = [] ∧ c = b.unread)

/-- `fill` on a buffer with room: it reads something or sets the error. -/
theorem fillLoop_good : ∀ (i : Nat) (b : BufR) (c : Bytes), Good b c → b.err = none → b.unread.length < b.size →
    (∃ k post, b.src = List.replicate k ([], none) ++ post ∧ k < i ∧ ∀ p, post.head? = some p → p ≠ ([], none)) →
    Good (b.fillLoop i) c ∧ (b.fillLoop i).size = b.size ∧
      (b.unread.length < (b.fillLoop i).unread.length ∨ (b.fillLoop i).err ≠ none) ∧ b.unread.length ≤ (b.fillLoop i).unread.length := by
  intro i
  induction i with
  | zero => rintro b c _ _ _ ⟨k, post, _, h, _⟩; omega
  | succ i ih =>
    rintro b c hg he hr ⟨k, post, hs, hk, hp⟩
    obtain ⟨c', hd, hc⟩ : ∃ c', Delivers b.src c' ∧ c = b.unread ++ c' := by
      rcases hg.content with ⟨_, h⟩ | ⟨h, _⟩
      · exact h
      · rw [he] at h; cases h
    unfold BufR.fillLoop
    cases k with
    | succ k =>
      have hs' : b.src = ([], none) :: (List.replicate k ([], none) ++ post) := by rw [hs]; rfl
      rw [hs'] at hd
      obtain ⟨c'', hc1, hd'⟩ := hd
      have hread : b.src.read (b.size - b.unread.length) = ([], none, List.replicate k ([], none) ++ post) := by
        rw [hs']; rfl
      simp only [hread]
      rw [if_pos trivial]
      refine ih { b with src := _ } c ⟨hg.size, hg.fits, ?_, .inl ⟨he, c'', hd', by rw [hc, hc1]; rfl⟩⟩ he hr ⟨k, post, rfl, by omega, hp⟩
      have := hg.stall
      rw [hs'] at this
      exact this.tail
    | zero =>
      simp only [List.replicate, List.nil_append] at hs
      subst hs
      cases hsrc : b.src with
      | nil =>
        rw [hsrc] at hd
        have hd : c' = [] := hd
        simp only [Src.read]
        refine ⟨⟨hg.size, by simpa using hg.fits, NoStall.nil, .inr ⟨rfl, rfl, ?_⟩⟩, trivial, .inr (by simp), by simp⟩
        rw [hc, hd]
      | cons p s =>
        obtain ⟨d, e⟩ := p
        have hne := hp (d, e) (by rw [hsrc]; rfl)
        have hst := hg.stall
        rw [hsrc] at hd hst
        simp only [Src.read]
        by_cases hl : d.length ≤ b.size - b.unread.length
        · rw [if_pos hl]
          cases e with
          | none =>
            obtain ⟨c'', hc1, hd'⟩ := hd
            have hd0 : d ≠ [] := by rintro rfl; exact hne rfl
            have hpos := List.length_pos_iff.2 hd0
            simp only
            rw [if_neg hd0]
            refine ⟨⟨hg.size, ?_, hst.tail, .inl ⟨he, c'', hd', ?_⟩⟩, rfl, .inl ?_, ?_⟩
            · simp only [List.length_append]; omega
            · rw [hc, hc1, List.append_assoc]
            · simp only [List.length_append]; omega
            · simp only [List.length_append]; omega
          | some e =>
            obtain ⟨rfl, rfl, rfl⟩ := hd
            refine ⟨⟨hg.size, ?_, NoStall.nil, .inr ⟨rfl, rfl, hc⟩⟩, rfl, .inr (by simp), ?_⟩
            · simp only [List.length_append]; omega
            · simp only [List.length_append]; omega
        · rw [if_neg hl]
          have hpos : 0 < (d.take (b.size - b.unread.length)).length := by rw [List.length_take]; omega
          have hne' : d.take (b.size - b.unread.length) ≠ [] := List.length_pos_iff.1 hpos
          simp only
          rw [if_neg hne']
          refine ⟨⟨hg.size, ?_, ?_, .inl ⟨he, ?_⟩⟩, rfl, .inl ?_, ?_⟩
          · simp only [List.length_append, List.length_take]; omega
          · refine hst.head ?_
            intro h
            have : d.drop (b.size - b.unread.length) = [] := congrArg Prod.fst h
            have := List.drop_eq_nil_iff.1 this
            omega
          · cases e with
            | none =>
              obtain ⟨c'', hc1, hd'⟩ := hd
              refine ⟨d.drop (b.size - b.unread.length) ++ c'', ⟨c'', rfl, hd'⟩, ?_⟩
              rw [hc, hc1]
              simp only [List.append_assoc]
              rw [← List.append_assoc (d.take _), List.take_append_drop]
            | some e =>
              obtain ⟨rfl, rfl, rfl⟩ := hd
              refine ⟨c'.drop (b.size - b.unread.length), ⟨rfl, rfl, rfl⟩, ?_⟩
              rw [hc, List.append_assoc, List.take_append_drop]
          · simp only [List.length_append]; omega
          · simp only [List.length_append]; omega

/-- A list starts with some number of empty reads. -/
theorem stall_split : ∀ s : Src, ∃ k post, s = List.replicate k ([], none) ++ post ∧ ∀ p, post.head? = some p → p ≠ ([], none) := by
  intro s
  induction s with
  | nil => exact ⟨0, [], rfl, by simp⟩
  | cons p s ih =>
    by_cases hp : p = ([], none)
    · obtain ⟨k, post, h1, h2⟩ := ih
      exact ⟨k + 1, post, by rw [hp, h1]; rfl, h2⟩
    · exact ⟨0, p :: s, rfl, by rintro q h; cases h; exact hp⟩

theorem fill_good {b : BufR} {c : Bytes} (hg : Good b c) (he : b.err = none) (hr : b.unread.length < b.size) :
    Good b.fill c ∧ b.fill.size = b.size ∧ (b.unread.length < b.fill.unread.length ∨ b.fill.err ≠ none) ∧ b.unread.length ≤ b.fill.unread.length := by
  obtain ⟨k, post, h1, h2⟩ := stall_split b.src
  refine fillLoop_good 100 b c hg he hr ⟨k, post, h1, ?_, h2⟩
  have := hg.stall [] (List.replicate k ([], none)) post (by rw [h1]; rfl) (fun p hp => (List.mem_replicate.1 hp).2)
  rwa [List.length_replicate] at this

/-- What `ReadSlice` returns on a good reader. -/
inductive SliceOk (b : BufR) (c : Bytes) : Bytes → SliceEnd → BufR → Prop
  | found {l rest b'} : c = l ++ 10 :: rest → 10 ∉ l → Good b' rest → b'.size = b.size → SliceOk b c (l ++ [10]) .found b'
  | full {line rest b'} : c = line ++ rest → 10 ∉ line → line.length = b.size → Good b' rest → b'.size = b.size →
      b'.unread = [] → b'.err = none → SliceOk b c line .full b'
  | eof {b'} : 10 ∉ c → Good b' [] → b'.size = b.size → SliceOk b c c (.err .eof) b'

theorem readSlice_good : ∀ (fuel : Nat) (b : BufR) (c : Bytes), Good b c →
    (b.size - b.unread.length) + (if b.err = none then 1 else 0) < fuel → ∃ line e b', b.readSlice fuel = some (line, e, b') ∧ SliceOk b c line e b' := by
  intro fuel
  induction fuel with
  | zero => intro b c _ h; omega
  | succ fuel ih =>
    intro b c hg hf
    unfold BufR.readSlice
    cases hcut : cut b.unread with
    | some p =>
      obtain ⟨l, r⟩ := p
      obtain ⟨a, rfl, h2, h3⟩ := cut_some hcut
      have hlen : r.length ≤ b.size := by
        have := hg.fits
        rw [h2] at this
        simp only [List.length_append] at this
        omega
      refine ⟨_, _, _, rfl, ?_⟩
      rcases hg.content with ⟨he, c', hd, hc⟩ | ⟨he, hs, hc⟩
      · refine .found (rest := r ++ c') ?_ h3 ⟨hg.size, hlen, hg.stall, .inl ⟨he, c', hd, rfl⟩⟩ rfl
        rw [hc, h2]; simp
      · refine .found (rest := r) ?_ h3 ⟨hg.size, hlen, hg.stall, .inr ⟨he, hs, rfl⟩⟩ rfl
        rw [hc, h2]; simp
    | none =>
      have h10 := cut_none hcut
      simp only
      rcases hg.content with ⟨he, c', hd, hc⟩ | ⟨he, hs, hc⟩
      · rw [he]
        simp only
        by_cases hfull : b.size ≤ b.unread.length
        · rw [if_pos hfull]
          exact ⟨_, _, _, rfl, .full hc h10 (Nat.le_antisymm hg.fits hfull) ⟨hg.size, by simp, hg.stall, .inl ⟨rfl, c', hd, rfl⟩⟩ rfl rfl rfl⟩
        · rw [if_neg hfull]
          obtain ⟨g1, g2, g3, g4⟩ := fill_good hg he (by omega)
          rw [he, if_pos rfl] at hf
          obtain ⟨line, e, b', q1, q2⟩ := ih b.fill c g1 (by
            rw [g2]
            rcases g3 with g3 | g3
            · split <;> omega
            · rw [if_neg g3]; omega)
          refine ⟨line, e, b', q1, ?_⟩
          cases q2 with
          | found a1 a2 a3 a4 => exact .found a1 a2 a3 (a4.trans g2)
          | full a1 a2 a3 a4 a5 a6 a7 => exact .full a1 a2 (a3.trans g2) a4 (a5.trans g2) a6 a7
          | eof a1 a2 a3 => exact .eof a1 a2 (a3.trans g2)
      · rw [he]
        refine ⟨_, _, _, rfl, ?_⟩
        rw [← hc] at h10 ⊢
        exact .eof h10 ⟨hg.size, by simp, hg.stall, .inl ⟨rfl, [], by rw [hs]; rfl, rfl⟩⟩ rfl

/-- Without one carriage return at the end -/
def strip (l : Bytes) : Bytes := if l.getLast? = some 13 then l.dropLast else l

theorem dropEol_lf (l : Bytes) : dropEol (l ++ [10]) = strip l := by
  unfold dropEol strip
  rw [if_pos (by simp)]
  simp only [List.dropLast_concat]

theorem strip_append {a l : Bytes} (h : l ≠ [] ∨ a.getLast? ≠ some 13) : strip (a ++ l) = a ++ strip l := by
  unfold strip
  cases l with
  | nil =>
    rcases h with h | h
    · exact absurd rfl h
    · simp [h]
  | cons x l =>
    have : (a ++ x :: l).getLast? = (x :: l).getLast? := by
      rw [List.getLast?_append]
      cases hl : (x :: l).getLast? with
      | none => simp at hl
      | some y => rfl
    rw [this]
    by_cases hc : (x :: l).getLast? = some 13
    · rw [if_pos hc, if_pos hc, List.dropLast_append_of_ne_nil (by simp)]
    · rw [if_neg hc, if_neg hc]

/-- A newline-free prefix of the content lies in the first line. -/
theorem prefix_line {line rest l c : Bytes} (h : l ++ 10 :: c = line ++ rest) (h10 : 10 ∉ line) :
    ∃ l', l = line ++ l' ∧ rest = l' ++ 10 :: c := by
  rcases List.append_eq_append_iff.1 h with ⟨a, ha, hb⟩ | ⟨a, ha, hb⟩
  · cases a with
    | nil => exact ⟨[], by simpa using ha.symm, by simpa using hb.symm⟩
    | cons x a =>
      simp at hb
      rw [ha, ← hb.1] at h10
      simp at h10
  · exact ⟨a, ha, hb⟩

theorem good_pending {b : BufR} {c : Bytes} (h : Good b c) : c.length ≤ b.pending := by
  have key : ∀ (s : Src) (c' : Bytes), Delivers s c' → c'.length ≤ (s.map fun p => p.1.length).sum := by
    intro s
    induction s with
    | nil => intro c' h; have h : c' = [] := h; subst h; simp
    | cons p s ih =>
      obtain ⟨d, e⟩ := p
      intro c' h
      cases e with
      | none =>
        obtain ⟨c'', rfl, hd⟩ := h
        have := ih c'' hd
        simp only [List.map_cons, List.sum_cons, List.length_append]; omega
      | some e => obtain ⟨rfl, rfl, rfl⟩ := h; simp
  unfold BufR.pending
  rcases h.content with ⟨_, c', hd, hc⟩ | ⟨_, hs, hc⟩
  · have := key _ _ hd
    rw [hc, List.length_append]; omega
  · rw [hc]; omega

/-- The loop of `Decode` puts a line together, whatever the pieces. -/
theorem nextLine_line : ∀ (fuel : Nat) (b : BufR) (s l c : Bytes), Good b (l ++ 10 :: c) → 10 ∉ l → l.length < fuel →
    ∃ b', nextLine fuel b s = some (.ok (s ++ strip l), b') ∧ Good b' c := by
  intro fuel
  induction fuel with
  | zero => intro b s l c _ _ h; omega
  | succ fuel ih =>
    intro b s l c hg h10 hf
    obtain ⟨line, e, b', h1, h2⟩ := readSlice_good (b.size + 2) b _ hg (by split <;> omega)
    unfold nextLine BufR.readLine
    rw [h1]
    generalize hx : l ++ 10 :: c = x at h2
    cases h2 with
    | @found l' rest _ a1 a2 a3 a4 =>
      have hl : l = l' ∧ c = rest := by
        rw [← hx] at a1
        rcases List.append_eq_append_iff.1 a1 with ⟨a, ha, hb⟩ | ⟨a, ha, hb⟩
        · cases a with
          | nil => simp at hb ha; exact ⟨ha.symm, hb⟩
          | cons y a => simp at hb; rw [ha, ← hb.1] at a2; simp at a2
        · cases a with
          | nil => simp at hb ha; exact ⟨ha, hb.symm⟩
          | cons y a => simp at hb; rw [ha, ← hb.1] at h10; simp at h10
      obtain ⟨rfl, rfl⟩ := hl
      refine ⟨b', ?_, a3⟩
      simp only [dropEol_lf]
    | full a1 a2 a3 a4 a5 a6 a7 =>
      rw [← hx] at a1
      obtain ⟨l', rfl, rfl⟩ := prefix_line a1 a2
      simp only
      have hs2 := hg.size
      by_cases hcr : line.getLast? = some 13
      · rw [if_pos hcr]
        simp only
        have hline : line = line.dropLast ++ [13] := by
          cases hline : line with
          | nil => rw [hline] at hcr; simp at hcr
          | cons x xs =>
            rw [hline] at hcr
            have := List.dropLast_concat_getLast (l := x :: xs) (by simp)
            rw [List.getLast?_eq_some_getLast (by simp)] at hcr
            have hq := Option.some.inj hcr
            rw [hq] at this
            exact this.symm
        have hlen : line.length = line.dropLast.length + 1 := by
          conv => lhs; rw [hline]
          simp
        have hg' : Good { b' with unread := [13] } ((13 :: l') ++ 10 :: c) := by
          refine ⟨by rw [a5]; exact hs2, by simp only [List.length_cons, List.length_nil]; omega, a4.stall, .inl ⟨a7, ?_⟩⟩
          rcases a4.content with ⟨_, c', q1, q2⟩ | ⟨q, _⟩
          · rw [a6] at q2
            exact ⟨c', q1, by rw [List.nil_append] at q2; rw [← q2]; rfl⟩
          · rw [a7] at q; cases q
        have h10' : 10 ∉ 13 :: l' := by
          simp only [List.mem_cons, not_or]
          simp only [List.mem_append, not_or] at h10
          exact ⟨by decide, h10.2⟩
        obtain ⟨b'', r1, r2⟩ := ih { b' with unread := [13] } (s ++ line.dropLast) (13 :: l') c hg' h10' (by
          simp only [List.length_append, List.length_cons] at hf ⊢; omega)
        refine ⟨b'', ?_, r2⟩
        rw [r1, List.append_assoc, ← strip_append (.inl (by simp))]
        have : line.dropLast ++ 13 :: l' = line ++ l' := by
          conv => rhs; rw [hline]
          simp
        rw [this]
      · rw [if_neg hcr]
        simp only
        obtain ⟨b'', r1, r2⟩ := ih b' (s ++ line) l' c a4 (by simp only [List.mem_append, not_or] at h10; exact h10.2) (by
          simp only [List.length_append] at hf; omega)
        refine ⟨b'', ?_, r2⟩
        rw [r1, List.append_assoc, ← strip_append (.inr hcr)]
    | eof a1 a2 a3 => rw [← hx] at a1; simp at a1

theorem nextLine_eof (fuel : Nat) (b : BufR) (s : Bytes) (hg : Good b []) : ∃ b', nextLine (fuel + 1) b s = some (.error .eof, b') ∧ Good b' [] := by
  have key : ∀ c : Bytes, c = [] → Good b c → ∃ b', nextLine (fuel + 1) b s = some (.error .eof, b') ∧ Good b' [] := by
    intro c hc hg
    obtain ⟨line, e, b', h1, h2⟩ := readSlice_good (b.size + 2) b _ hg (by split <;> omega)
    unfold nextLine BufR.readLine
    rw [h1]
    cases h2 with
    | found a1 => rw [hc] at a1; simp at a1
    | full a1 a2 a3 =>
      rw [hc] at a1
      have : line = [] := by
        cases line with
        | nil => rfl
        | cons _ _ => simp at a1
      rw [this] at a3
      have := hg.size
      simp at a3; omega
    | eof a1 a2 a3 =>
      simp only
      rw [if_pos hc]
      exact ⟨b', rfl, a2⟩
  exact key _ rfl hg

/-- A last line without a newline that is shorter than the buffer. -/
theorem nextLine_last (fuel : Nat) (b : BufR) (s c : Bytes) (hg : Good b c) (h10 : 10 ∉ c) (hc : c ≠ []) (hs : c.length < b.size) :
    ∃ b', nextLine (fuel + 1) b s = some (.ok (s ++ c), b') ∧ Good b' [] := by
  obtain ⟨line, e, b', h1, h2⟩ := readSlice_good (b.size + 2) b _ hg (by split <;> omega)
  unfold nextLine BufR.readLine
  rw [h1]
  cases h2 with
  | found a1 => rw [a1] at h10; simp at h10
  | full a1 a2 a3 => rw [a1] at hs; simp only [List.length_append] at hs; omega
  | eof a1 a2 a3 =>
    simp only
    rw [if_neg hc]
    refine ⟨b', ?_, a2⟩
    have : dropEol c = c := by
      unfold dropEol
      rw [if_neg]
      intro h
      exact h10 (List.mem_of_getLast? h)
    rw [this]

end Verif.UnStream
